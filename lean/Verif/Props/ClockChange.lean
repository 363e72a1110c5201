import Verif.Spec.ClockChange
/-!
C191: changes of the clock and the thread that restarts the agent.
-/
namespace Verif.ClockChange
open Verif Device

theorem run_append (s : St) (a b : List Move) : run s (a ++ b) = run (run s a) b := List.foldl_append

theorem decision (start now : Int) : clockLoop [(true, start, now)] = true ↔ now - start > limit := by
  simp only [clockLoop, if_true]
  by_cases h : now - start > maxDiscrepancy
  · rw [if_pos h]; exact ⟨fun _ => h, fun _ => rfl⟩
  · rw [if_neg h]; exact ⟨fun h1 => (nomatch h1), fun h1 => absurd h1 h⟩

/-- While the thread does not read the clock, only the clock changes. -/
theorem run_noRead (ms : List Move) : ∀ s : St, NoRead ms → run s ms = { s with clock := s.clock + (setBy ms + passed ms) } := by
  induction ms with
  | nil => intro s _; simp [run, setBy, passed]
  | cons m ms ih =>
    intro s h
    have h' : NoRead ms := fun hm => h (List.mem_cons_of_mem _ hm)
    show run (step s m) ms = _
    rw [ih _ h']
    cases m with
    | pass t =>
      simp only [step, setBy, passed, List.filterMap_cons, List.sum_cons]
      congr 1
      omega
    | set d =>
      simp only [step, setBy, passed, List.filterMap_cons, List.sum_cons]
      congr 1
      omega
    | thread => exact absurd List.mem_cons_self h

/-- A round is on exactly if the thread has read the clock an odd number of times. -/
theorem start_parity (ms : List Move) : ∀ s : St,
    ((run s ms).start = none ↔ (s.start = none ↔ (ms.countP (· == .thread)) % 2 = 0)) := by
  induction ms with
  | nil => intro s; simp [run]
  | cons m ms ih =>
    intro s
    show (run (step s m) ms).start = none ↔ _
    rw [ih]
    cases m with
    | pass t => simp [step]
    | set d => simp [step]
    | thread =>
      have hc : List.countP (· == Move.thread) (.thread :: ms) = ms.countP (· == .thread) + 1 := by simp
      rw [hc]
      cases hs : s.start with
      | none =>
        simp only [step, hs]
        constructor
        · intro h
          constructor
          · intro _
            have : ¬ ms.countP (· == .thread) % 2 = 0 := fun h0 => nomatch (h.2 h0)
            omega
          · intro _; trivial
        · intro h
          have := h.1 trivial
          constructor
          · intro h0; exact (nomatch h0)
          · intro h0; omega
      | some x =>
        have hst : (step s .thread).start = none := by
          simp only [step, hs]
          split <;> rfl
        rw [hst]
        constructor
        · intro h
          have := h.1 rfl
          constructor
          · intro h0; exact (nomatch h0)
          · intro h0; omega
        · intro h
          constructor
          · intro _
            have : ¬ (ms.countP (· == .thread) + 1) % 2 = 0 := fun h0 => nomatch (h.2 h0)
            omega
          · intro _; rfl

/-- The clock at the end of a round. -/
theorem round_end (c : Int) (ms before within : List Move) (hr : InRound ms before within) :
    ∃ start, (run ⟨c, none, false⟩ ms).start = some start ∧ (run ⟨c, none, false⟩ ms).clock = start + (setBy within + passed within) ∧
      (run ⟨c, none, false⟩ ms).killed = (run ⟨c, none, false⟩ before).killed := by
  obtain ⟨rfl, h2, h3⟩ := hr
  have hn : (run ⟨c, none, false⟩ before).start = none := (start_parity before _).2 ⟨fun _ => h3, fun _ => rfl⟩
  rw [run_append]
  generalize run ⟨c, none, false⟩ before = s at hn
  obtain ⟨cl, st, k⟩ := s
  simp only at hn
  subst hn
  show ∃ start, (run (step ⟨cl, none, k⟩ .thread) within).start = _ ∧ _
  simp only [step]
  refine ⟨cl, ?_, ?_, ?_⟩
  · rw [run_noRead within _ h2]
  · show (run ⟨cl, some cl, k⟩ within).clock = _
    rw [run_noRead within _ h2]
  · show (run ⟨cl, some cl, k⟩ within).killed = _
    rw [run_noRead within _ h2]

/-- C191, exactly: at the end of a round, a process that runs is killed exactly if the clock was set, and time passed, by more than 180 seconds in all
within the round. -/
theorem c191_iff (c : Int) (ms before within : List Move) (hr : InRound ms before within) (hk : (run ⟨c, none, false⟩ ms).killed = false) :
    (run ⟨c, none, false⟩ (ms ++ [.thread])).killed = true ↔ setBy within + passed within > limit := by
  obtain ⟨start, h1, h2, -⟩ := round_end c ms before within hr
  rw [run_append]
  generalize run ⟨c, none, false⟩ ms = s at *
  show (step s .thread).killed = true ↔ _
  simp only [step, h1, h2]
  have hd := decision start (start + (setBy within + passed within))
  by_cases h : clockLoop [(true, start, start + (setBy within + passed within))] = true
  · rw [if_pos h]
    have := hd.1 h
    exact ⟨fun _ => by omega, fun _ => rfl⟩
  · rw [if_neg h]
    simp only
    rw [hk]
    constructor
    · intro h0; exact (nomatch h0)
    · intro h0
      exact absurd (hd.2 (by omega)) h

theorem setBy_nonneg {ms : List Move} (h : ∀ d, .set d ∈ ms → 0 ≤ d) : 0 ≤ setBy ms := by
  induction ms with
  | nil => simp [setBy]
  | cons m ms ih =>
    have := ih (fun d hd => h d (List.mem_cons_of_mem _ hd))
    cases m with
    | pass t => simpa [setBy] using this
    | thread => simpa [setBy] using this
    | set d =>
      have h0 := h d List.mem_cons_self
      simp only [setBy, List.filterMap_cons, List.sum_cons] at this ⊢
      omega

theorem passed_nonneg (ms : List Move) : 0 ≤ passed ms := by
  induction ms with
  | nil => simp [passed]
  | cons m ms ih =>
    cases m with
    | set d => simpa [passed] using ih
    | thread => simpa [passed] using ih
    | pass t =>
      simp only [passed, List.filterMap_cons, List.sum_cons] at ih ⊢
      omega

/-- C191, the part that holds: if the clock is set forward by more than 180 seconds while a round is on, and not back in this round, the process
is killed at the end of the round.  Missing: clocks that are set back, set between two rounds, or set by little, see `c191_back`, `c191_counterexample`
and `c191_creeps`. -/
theorem c191_partial (c : Int) (ms before within : List Move) (hr : InRound ms before within) (d : Int) (hd : .set d ∈ within) (hl : d > limit)
    (hf : ∀ d, .set d ∈ within → 0 ≤ d) (hk : (run ⟨c, none, false⟩ ms).killed = false) :
    (run ⟨c, none, false⟩ (ms ++ [.thread])).killed = true := by
  refine (c191_iff c ms before within hr hk).2 ?_
  have hp := passed_nonneg within
  have hs : d ≤ setBy within := by
    obtain ⟨a, b, rfl⟩ := List.append_of_mem hd
    have ha := setBy_nonneg (ms := a) (fun d hd => hf d (List.mem_append_left _ hd))
    have hb := setBy_nonneg (ms := b) (fun d hd => hf d (List.mem_append_right _ (List.mem_cons_of_mem _ hd)))
    simp only [setBy, List.filterMap_append, List.filterMap_cons, List.sum_append, List.sum_cons] at ha hb ⊢
    omega
  omega

/-- Every killing comes at the end of a round in which the clock went forward by more than 180 seconds. -/
theorem killed_round (c : Int) (ms : List Move) : (run ⟨c, none, false⟩ ms).killed = true →
    ∃ upto before within rest, ms = upto ++ .thread :: rest ∧ InRound upto before within ∧ setBy within + passed within > limit := by
  have key : ∀ (rest done : List Move), (run ⟨c, none, false⟩ done).killed = false → (run ⟨c, none, false⟩ (done ++ rest)).killed = true →
      ∃ a b, rest = a ++ .thread :: b ∧ (run ⟨c, none, false⟩ (done ++ a)).killed = false ∧
        (run ⟨c, none, false⟩ (done ++ a ++ [.thread])).killed = true := by
    intro rest
    induction rest with
    | nil => intro done h1 h2; rw [List.append_nil, h1] at h2; exact (nomatch h2)
    | cons m rest ih =>
      intro done h1 h2
      cases hm : (run ⟨c, none, false⟩ (done ++ [m])).killed with
      | false =>
        rw [show done ++ m :: rest = (done ++ [m]) ++ rest by simp] at h2
        obtain ⟨a, b, e, h3, h4⟩ := ih _ hm h2
        exact ⟨m :: a, b, by rw [e]; rfl, by simpa using h3, by simpa using h4⟩
      | true =>
        cases m with
        | pass t => rw [run_append] at hm; change (step (run _ done) (.pass t)).killed = true at hm; simp only [step] at hm; rw [h1] at hm; exact (nomatch hm)
        | set d => rw [run_append] at hm; change (step (run _ done) (.set d)).killed = true at hm; simp only [step] at hm; rw [h1] at hm; exact (nomatch hm)
        | thread => exact ⟨[], rest, rfl, by simpa using h1, by simpa using hm⟩
  intro h
  obtain ⟨a, b, e, h1, h2⟩ := key ms [] rfl (by simpa using h)
  simp only [List.nil_append] at h1 h2
  have hs : (run ⟨c, none, false⟩ a).start ≠ none := by
    intro hn
    rw [run_append] at h2
    change (step (run _ a) .thread).killed = true at h2
    simp only [step, hn] at h2
    rw [h1] at h2
    exact (nomatch h2)
  have hodd : ¬ (a.countP (· == .thread)) % 2 = 0 := fun h0 => hs ((start_parity a _).2 ⟨fun _ => h0, fun _ => rfl⟩)
  have hsplit : ∀ a : List Move, .thread ∈ a → ∃ x y, a = x ++ .thread :: y ∧ NoRead y := by
    intro a
    induction a with
    | nil => intro h; exact (nomatch h)
    | cons m a ih =>
      intro hm
      by_cases ha : .thread ∈ a
      · obtain ⟨x, y, e, h⟩ := ih ha
        exact ⟨m :: x, y, by rw [e]; rfl, h⟩
      · rcases List.mem_cons.1 hm with rfl | hm
        · exact ⟨[], a, rfl, ha⟩
        · exact absurd hm ha
  have hmem : .thread ∈ a := by
    by_cases hm : .thread ∈ a
    · exact hm
    · exfalso
      apply hodd
      rw [List.countP_eq_zero.2 (fun m hm' => by intro hc; exact hm (by rw [← eq_of_beq hc]; exact hm'))]
  obtain ⟨x, y, e2, hy⟩ := hsplit a hmem
  have hcount : (x.countP (· == .thread)) % 2 = 0 := by
    rw [e2, List.countP_append, List.countP_cons] at hodd
    have : y.countP (· == .thread) = 0 := List.countP_eq_zero.2 (fun m hm' => by intro hc; exact hy (by rw [← eq_of_beq hc]; exact hm'))
    rw [this] at hodd
    simp at hodd
    omega
  exact ⟨a, x, y, b, e, ⟨e2, hy, hcount⟩, (c191_iff c a x y ⟨e2, hy, hcount⟩ h1).1 h2⟩

/-- C191: a process is killed only at the end of a round in which the clock went forward by more than 180 seconds; so if no round takes longer than
180 seconds, the clock has been set forward in it. -/
theorem c191_only (c : Int) (ms : List Move) (h : (run ⟨c, none, false⟩ ms).killed = true) :
    ∃ upto before within rest, ms = upto ++ .thread :: rest ∧ InRound upto before within ∧ setBy within + passed within > limit ∧
      (passed within ≤ limit → ∃ d > 0, .set d ∈ within) := by
  obtain ⟨u, b, w, r, h1, h2, h3⟩ := killed_round c ms h
  refine ⟨u, b, w, r, h1, h2, h3, fun hp => ?_⟩
  have hs : 0 < setBy w := by omega
  clear h1 h2 h3 hp
  induction w with
  | nil => simp [setBy] at hs
  | cons m w ih =>
    cases m with
    | pass t => obtain ⟨d, hd, hm⟩ := ih (by simpa [setBy] using hs); exact ⟨d, hd, List.mem_cons_of_mem _ hm⟩
    | thread => obtain ⟨d, hd, hm⟩ := ih (by simpa [setBy] using hs); exact ⟨d, hd, List.mem_cons_of_mem _ hm⟩
    | set d =>
      by_cases hd : d > 0
      · exact ⟨d, hd, List.mem_cons_self⟩
      · obtain ⟨d', hd', hm⟩ := ih (by simp only [setBy, List.filterMap_cons, List.sum_cons] at hs ⊢; omega)
        exact ⟨d', hd', List.mem_cons_of_mem _ hm⟩

/-- C191 fails for clocks that are set back: however often, however far and whenever, the process is not killed, unless a round takes longer than 180
seconds. -/
theorem c191_back (c : Int) (ms : List Move) (hb : ∀ d, .set d ∈ ms → d ≤ 0)
    (hp : ∀ upto before within rest, ms = upto ++ .thread :: rest → InRound upto before within → passed within ≤ limit) :
    (run ⟨c, none, false⟩ ms).killed = false := by
  cases hk : (run ⟨c, none, false⟩ ms).killed with
  | false => rfl
  | true =>
    obtain ⟨u, b, w, r, h1, h2, -, h4⟩ := c191_only c ms hk
    obtain ⟨d, hd, hm⟩ := h4 (hp u b w r h1 h2)
    have := hb d (by rw [h1, h2.1]; simp [hm])
    omega

/-- C191 fails: the clock is set forward by a year just between two rounds, and back by a year within one. -/
theorem c191_counterexample :
    (run ⟨0, none, false⟩ [.thread, .pass 1000000, .thread, .set (365 * 86400 * 1000000), .thread, .pass 1000000, .thread]).killed = false ∧
    (run ⟨0, none, false⟩ [.thread, .set (-(365 * 86400 * 1000000)), .pass 1000000, .thread]).killed = false := by decide

/-- A round in which a second passes and the clock is set forward by 179 seconds. -/
def creep : List Move := [.thread, .pass 1000000, .set (179 * 1000000), .thread]

/-- C191: there is no bound.  In `n` rounds the clock can be set forward by `n` times 179 seconds, and the process is not killed. -/
theorem c191_creeps (c : Int) (n : Nat) :
    run ⟨c, none, false⟩ (List.replicate n creep).flatten = ⟨c + n * (180 * 1000000), none, false⟩ := by
  induction n generalizing c with
  | zero => simp [run]
  | succ n ih =>
    rw [List.replicate_succ, List.flatten_cons, run_append]
    have h1 : run ⟨c, none, false⟩ creep = ⟨c + 180 * 1000000, none, false⟩ := by
      have hn : ¬ clockLoop [(true, c, c + 1000000 + 179 * 1000000)] = true := by rw [decision, limit]; omega
      show step ⟨c + 1000000 + 179 * 1000000, some c, false⟩ .thread = _
      simp only [step]
      rw [if_neg hn]
      congr 1
      omega
    rw [h1, ih]
    congr 1
    omega

/-- Nobody sets the clock, but the device sleeps for an hour: the process is killed. -/
example : (run ⟨0, none, false⟩ [.thread, .pass 3600000000, .thread]).killed = true := by decide
/-- The clock is set when the device finds a time server. -/
example : (run ⟨0, none, false⟩ [.thread, .pass 500000, .set 1700000000000000, .pass 500000, .thread]).killed = true := by decide
/-- Exactly 180 seconds are allowed. -/
example : (run ⟨0, none, false⟩ [.thread, .pass 1000000, .set 179000000, .thread]).killed = false ∧
    (run ⟨0, none, false⟩ [.thread, .pass 1000000, .set 179000001, .thread]).killed = true := by decide

end Verif.ClockChange
