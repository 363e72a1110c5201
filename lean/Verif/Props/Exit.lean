import Verif.Proofs.Exit
import Verif.Props.Terminal
/-!
Properties C138 and C139: the end of the agent.
-/
namespace Verif.Exit
open Verif

/-! ### C138 -/

/-- C138: once the exit was requested, `run_forever` comes to its end: whatever happened before, and whatever else happens, eight rounds in
which both threads get a turn are enough (unless the process is killed before, by the clock thread). -/
theorem c138_ends (before : List Ev) (rounds : List (List Turn)) (hr : ∀ ts ∈ rounds, Round ts) (hn : 8 ≤ rounds.length) :
    Over (turns (run {} (before ++ [.exit])) rounds.flatten) ∨ (run {} before).killed = true := by
  cases hk : (run {} before).killed with
  | true => exact .inr rfl
  | false =>
    left
    have hx : (run {} (before ++ [.exit])).exit = true := by
      rw [run_append]; simp [run_cons, run, step]; simp [run] at hk; simp [hk]
    refine rounds_over (inv_run inv_init _) hx rounds hr (Nat.le_trans ?_ hn)
    have h1 : ∀ m, mainLeft m ≤ 6 := by intro m; cases m <;> simp [mainLeft]
    have h2 : ∀ s, clockLeft s ≤ 2 := by intro s; unfold clockLeft; split <;> (try split) <;> omega
    exact Nat.add_le_add (h1 _) (h2 _)

/-- C138: after the request at most one more poll is made (one that is under way, or the first one). -/
theorem c138_one_poll (before after : List Ev) (hx : (run {} before).exit = true) : pollsDone (run {} before) after ≤ 1 :=
  (polls_left (inv_run inv_init _) hx after).1

/-- C138: `run_forever` ends only if it was told to, if a poll raised, or if the clock thread could not be started. -/
theorem c138_only_then (evs : List Ev) (r : Result) (h : (run {} evs).main = .ended r) :
    .exit ∈ evs ∨ .interrupt ∈ evs ∨ .start false ∈ evs ∨ ∃ x, .poll (some x) ∈ evs := by
  suffices hs : ∀ (evs : List Ev) (s : St), .exit ∉ evs → .interrupt ∉ evs → .start false ∉ evs → (∀ x, Ev.poll (some x) ∉ evs) →
      s.exit = false → (s.main = .start ∨ s.main = .polling ∨ s.main = .waiting) →
      ((run s evs).main = .start ∨ (run s evs).main = .polling ∨ (run s evs).main = .waiting) by
    apply Classical.byContradiction
    intro hn
    simp only [not_or, not_exists] at hn
    have := hs evs {} hn.1 hn.2.1 hn.2.2.1 hn.2.2.2 rfl (.inl rfl)
    rw [h] at this
    rcases this with h | h | h <;> exact nomatch h
  intro evs
  induction evs with
  | nil => intro s _ _ _ _ _ h; exact h
  | cons e evs ih =>
    intro s h1 h2 h3 h4 h5 h6
    simp only [List.mem_cons, not_or] at h1 h2 h3 h4
    rw [run_cons]
    have hstep : (step s e).exit = false ∧ ((step s e).main = .start ∨ (step s e).main = .polling ∨ (step s e).main = .waiting) := by
      rcases s with ⟨m, k, x, rn, kd, ts⟩
      simp only at h5 h6
      subst h5
      unfold step
      split
      · exact ⟨rfl, h6⟩
      · split <;> (try split) <;> simp_all
        rename_i x _ _
        exact absurd rfl (h4 x).1
    exact ih _ h1.2 h2.2 h3.2 (fun x => (h4 x).2) hstep.1 hstep.2

/-- C138: an exception leaves `run_forever` only if the clock thread could not be started, if a poll raised it and it is no
`KeyboardInterrupt`, or if an interrupt came while the agent was ending. -/
theorem c138_raised (evs : List Ev) (x : Client.Raised) (h : (run {} evs).main = .ended (.raised x)) :
    (x = .other ∧ .start false ∈ evs) ∨ (x ≠ .interrupt ∧ .poll (some x) ∈ evs) ∨
    (x = .interrupt ∧ ∃ a b r, evs = a ++ .interrupt :: b ∧
      ((run {} a).main = .stopping r ∨ (run {} a).main = .joining r ∨ (run {} a).main = .closing r)) := by
  suffices hs : ∀ (evs pre : List Ev), Way pre (run {} pre).main → Way (pre ++ evs) (run {} (pre ++ evs)).main by
    have := hs evs [] trivial
    rw [List.nil_append, h] at this
    exact this
  intro evs
  induction evs with
  | nil => intro pre h; simpa using h
  | cons e evs ih =>
    intro pre h
    rw [show pre ++ e :: evs = (pre ++ [e]) ++ evs from by simp]
    exact ih (pre ++ [e]) (way_step h e)

/-- C138: and it returns only if it was told to, or if an interrupt came, from outside or out of a poll. -/
theorem c138_returned (evs : List Ev) (h : (run {} evs).main = .ended .returned) :
    .exit ∈ evs ∨ .interrupt ∈ evs ∨ .poll (some .interrupt) ∈ evs := by
  suffices hs : ∀ (evs : List Ev) (s : St), .exit ∉ evs → .interrupt ∉ evs → .poll (some .interrupt) ∉ evs → s.exit = false →
      (s.main ≠ .stopping .returned ∧ s.main ≠ .joining .returned ∧ s.main ≠ .closing .returned ∧ s.main ≠ .ended .returned) →
      (run s evs).main ≠ .ended .returned by
    apply Classical.byContradiction
    intro hn
    simp only [not_or] at hn
    exact hs evs {} hn.1 hn.2.1 hn.2.2 rfl (by simp) h
  intro evs
  induction evs with
  | nil => intro s _ _ _ _ h; exact h.2.2.2
  | cons e evs ih =>
    intro s h1 h2 h3 h4 h5
    simp only [List.mem_cons, not_or] at h1 h2 h3
    rw [run_cons]
    have hx : (step s e).exit = false := by
      unfold step
      split
      · exact h4
      · split <;> (try split) <;> first | exact h4 | exact absurd rfl h1.1
    refine ih _ h1.2 h2.2 h3.2 hx ?_
    unfold step
    split
    · exact h5
    · split <;> (try split) <;> simp_all
      rename_i y _ _
      cases y <;> simp_all [leave]

/-- An interrupt that comes out of a poll is caught; another exception of a poll is not; and one that comes during `join` is not caught. -/
example : (run {} [.start true, .poll (some .interrupt), .stop, .test 0, .join, .close]).main = .ended .returned ∧
    (run {} [.start true, .poll (some .other), .stop, .test 0, .join, .close]).main = .ended (.raised .other) ∧
    (run {} [.start true, .exit, .poll none, .wait, .stop, .interrupt]).main = .ended (.raised .interrupt) := by decide +kernel

/-- C138: when `run_forever` has returned, or an exception of a poll has left it, the clock thread has ended: it will not kill the process
later. -/
theorem c138_clock_ended (evs : List Ev) (r : Result) (h : (run {} evs).main = .ended r) (hs : .start false ∉ evs)
    (hr : r ≠ .raised .interrupt) (after : List Ev) :
    (run {} evs).clock = .ended ∧ ((run {} evs).killed = false → (run {} (evs ++ after)).killed = false) := by
  have hinv : ∀ (evs : List Ev) (s : St), Inv s → .start false ∉ evs →
      (∀ r, s.main = .ended r → r ≠ .raised .interrupt → s.clock = .ended) →
      ∀ r, (run s evs).main = .ended r → r ≠ .raised .interrupt → (run s evs).clock = .ended := by
    intro evs
    induction evs with
    | nil => intro s _ _ h; exact h
    | cons e evs ih =>
      intro s hi hs h
      simp only [List.mem_cons, not_or] at hs
      rw [run_cons]
      refine ih _ (inv_step hi e) hs.2 ?_
      obtain ⟨a, b, c, d, f⟩ := hi
      rcases s with ⟨m, k, x, rn, kd, ts⟩
      simp only at h a b c d f
      unfold step
      split
      · exact h
      · split <;> (try split) <;> simp_all
  have hc := hinv evs {} inv_init hs (by simp) r h hr
  refine ⟨hc, fun hk => ?_⟩
  rw [run_append]
  have hstay : ∀ (after : List Ev) (s : St), s.clock = .ended → s.main = .ended r → s.killed = false → (run s after).killed = false := by
    intro after
    induction after with
    | nil => intro s _ _ h; exact h
    | cons e after ih =>
      intro s h1 h2 h3
      rw [run_cons]
      rcases s with ⟨m, k, x, rn, kd, ts⟩
      simp only at h1 h2 h3
      subst h1 h2 h3
      unfold step
      simp only [Bool.false_eq_true, if_false]
      split <;> (try split) <;> first | exact ih _ rfl rfl rfl | simp_all
  exact hstay after _ hc h hk

/-- C138: the process is killed only if more than 180 seconds of wall clock passed during a check of the clock thread. -/
theorem c138_killed (evs : List Ev) (h : (run {} evs).killed = true) :
    ∃ a b c start now, evs = a ++ .test start :: b ++ .wake now :: c ∧ now - start > 180 * 1000000 := by
  suffices hs : ∀ (evs pre : List Ev) (s : St), s.killed = false → (∀ start, s.clock = .asleep start → ∃ a b, pre = a ++ .test start :: b) →
      (run s evs).killed = true → ∃ a b c start now, pre ++ evs = a ++ .test start :: b ++ .wake now :: c ∧ now - start > 180 * 1000000 from
    hs evs [] {} rfl (by simp) h
  intro evs
  induction evs with
  | nil => intro pre s h1 _ h2; rw [show run s [] = s from rfl, h1] at h2; exact nomatch h2
  | cons e evs ih =>
    intro pre s h1 h2 h3
    rw [run_cons] at h3
    have hpre : ∀ start, s.clock = .asleep start → ∃ a b, pre ++ [e] = a ++ .test start :: b := by
      intro start hst
      obtain ⟨a, b, hab⟩ := h2 start hst
      exact ⟨a, b ++ [e], by simp [hab]⟩
    by_cases hk : (step s e).killed = true
    · rcases s with ⟨m, k, x, rn, kd, ts⟩
      simp only at h1 h2
      subst h1
      unfold step at hk
      simp only [Bool.false_eq_true, if_false] at hk
      split at hk <;> (try split at hk) <;> (try simp at hk)
      rename_i now start hgt
      obtain ⟨a, b, hab⟩ := h2 start rfl
      exact ⟨a, b, evs, start, now, by simp [hab], by simpa [Device.maxDiscrepancy] using hgt⟩
    · have := ih (pre ++ [e]) (step s e) (by simpa using hk) (by
        intro start hst
        by_cases hsame : s.clock = .asleep start
        · exact hpre start hsame
        · rcases s with ⟨m, k, x, rn, kd, ts⟩
          simp only at h1 h2 hsame
          subst h1
          unfold step at hst
          simp only [Bool.false_eq_true, if_false] at hst
          split at hst <;> (try split at hst) <;> simp_all
          exact ⟨pre, [], rfl⟩) h3
      simpa using this

/-- An exit that is requested during a poll, with the clock thread asleep. -/
def exitHistory : List Ev :=
  [.start true, .test 0, .exit, .poll none, .wait, .stop, .join, .wake 1000000, .test 1000001, .join, .close]

example : (run { terminals := [{}] } exitHistory).main = .ended .returned ∧ (run {} exitHistory).killed = false ∧
    (run {} exitHistory).clock = .ended := by decide +kernel

/-- Eight rounds. -/
example : (turns (run {} [.start true, .test 0, .exit]) (List.replicate 8 [.clock 1000000, .main true none]).flatten).main = .ended .returned := by
  decide +kernel

example : pollsDone {} exitHistory = 1 := by decide +kernel

/-- The clock is put forward by an hour. -/
example : (run {} [.start true, .test 0, .poll none, .wake 3600000000]).killed = true := by decide +kernel

/-- C138: as long as it is not told to end, `run_forever` polls again whenever the time of a wait is over. -/
theorem c138_polls_on (s : St) (hm : s.main = .waiting) (hx : s.exit = false) (hk : s.killed = false) (n : Nat) :
    pollsDone s (List.replicate n [Ev.timeout, .poll none]).flatten = n := by
  induction n generalizing s with
  | zero => rfl
  | succ n ih =>
    obtain ⟨main, clock, exit, running, killed, terminals⟩ := s
    simp only at hm hx hk
    subst hm hx hk
    rw [List.replicate_succ, List.flatten_cons]
    show 0 + (1 + pollsDone ⟨.waiting, clock, false, running, false, terminals⟩ (List.replicate n [Ev.timeout, .poll none]).flatten) = n + 1
    rw [ih _ rfl rfl rfl]
    omega

/-- After the start and the first poll it is in such a wait. -/
example : (run {} [.start true, .poll none]).main = .waiting ∧ (run {} [.start true, .poll none]).exit = false := by decide

/-- Once the loop is left, the exit event does not matter. -/
theorem left_same {s : St} (h : mainLeft s.main ≤ 3) (e : Ev) :
    step { s with exit := true } e = { step s e with exit := true } ∧ mainLeft (step s e).main ≤ 3 := by
  rcases s with ⟨m, k, x, r, kd, ts⟩
  simp only at h
  cases kd with
  | true => exact ⟨rfl, h⟩
  | false =>
    cases m <;> simp only [mainLeft] at h <;> first | omega | skip
    all_goals
      cases e <;> cases k <;> simp only [step, Bool.false_eq_true, if_false] <;> (try split) <;> simp_all [mainLeft]

theorem left_turns_same {s : St} (h : mainLeft s.main ≤ 3) (ts : List Turn) : turns { s with exit := true } ts = { turns s ts with exit := true } := by
  induction ts generalizing s with
  | nil => rfl
  | cons t ts ih =>
    have hn : next { s with exit := true } t = next s t := by
      cases t with
      | main ok r =>
        cases hm : s.main <;> simp only [next, hm]
        rw [hm] at h; simp [mainLeft] at h
      | clock now => rfl
      | other e => rfl
    have h2 := left_same h (next s t)
    simp only [turns, hn, h2.1]
    exact ih h2.2

theorem interrupt_left (s : St) (hs : s.main ≠ .start) (hk : s.killed = false) : mainLeft (step s .interrupt).main ≤ 3 := by
  rcases s with ⟨m, k, x, r, kd, ts⟩
  simp only at hs hk
  subst hk
  cases m <;> simp_all [step, mainLeft]

/-- C138: an interrupt also brings `run_forever` to its end, wherever it is after the start: five rounds are enough, and no poll is made any more. -/
theorem c138_interrupt (before : List Ev) (hs : (run {} before).main ≠ .start) :
    (∀ rounds : List (List Turn), (∀ ts ∈ rounds, Round ts) → 5 ≤ rounds.length → Over (turns (run {} (before ++ [.interrupt])) rounds.flatten)) ∧
    ∀ after, pollsDone (run {} (before ++ [.interrupt])) after = 0 := by
  have hrun : run {} (before ++ [.interrupt]) = step (run {} before) .interrupt := by rw [run_append]; rfl
  rw [hrun]
  have hinv := inv_run inv_init before
  generalize run {} before = s at hs hinv
  cases hk : s.killed with
  | true =>
    have hst : step s .interrupt = s := by unfold step; rw [if_pos hk]
    rw [hst]
    refine ⟨fun rounds _ _ => over_turns (.inl hk) _, fun after => ?_⟩
    induction after with
    | nil => rfl
    | cons e es ih =>
      have he : step s e = s := by unfold step; rw [if_pos hk]
      simp only [pollsDone, he, ih, hk]
      split <;> simp_all
  | false =>
    have hl := interrupt_left s hs hk
    have hi := inv_step hinv .interrupt
    generalize step s .interrupt = t at hl hi
    refine ⟨fun rounds hr hn => ?_, fun after => ?_⟩
    · have ho := rounds_over (s := { t with exit := true }) ⟨hi.1, hi.2, hi.3, hi.4, hi.5⟩ rfl rounds hr (by
        have : clockLeft { t with exit := true } ≤ 2 := by
          simp only [clockLeft]; split
          · exact Nat.le_refl _
          · split <;> omega
        have h2 : mainLeft ({ t with exit := true } : St).main ≤ 3 := hl
        omega)
      rw [left_turns_same hl] at ho
      exact ho
    · induction after generalizing t with
      | nil => rfl
      | cons e es ih =>
        have h2 := left_same hl e
        simp only [pollsDone, ih _ h2.2 (inv_step hi e)]
        split
        · rename_i hm _; rw [hm] at hl; simp [mainLeft] at hl
        · rfl

/-- It returns then, without an exception. -/
example : (run {} [.start true, .interrupt, .stop, .test 0, .join, .close]).main = .ended .returned ∧
    (run {} [.start true, .poll none, .interrupt, .stop, .test 0, .join, .close]).main = .ended .returned := by decide +kernel

/-! ### C139 -/

/-- C139 fails: the agent has ended, and the process of a terminal is neither closed nor forgotten. -/
theorem c139_counterexample :
    let s := run { terminals := [{}] } (.terminal 0 (.launch true) :: exitHistory)
    s.main = .ended .returned ∧ s.terminals = [{ processes := [0], closed := [], next := 1 }] := by decide +kernel

/-- C139 fails in every case: nothing that `run_forever`, `exit` and `close` do changes a terminal. -/
theorem c139_never (s : St) (evs : List Ev) (h : ∀ i op, Ev.terminal i op ∉ evs) : (run s evs).terminals = s.terminals := by
  induction evs generalizing s with
  | nil => rfl
  | cons e evs ih =>
    rw [run_cons, ih _ (fun i op hm => h i op (List.mem_cons_of_mem _ hm))]
    unfold step
    split
    · rfl
    · split <;> (try split) <;> first | rfl | exact absurd (List.mem_cons_self ..) (h _ _)

/-- C139, the part that holds: `on_client_close` of the manager calls `close` of each process of each terminal that is not closed exactly once,
and of no other, and the terminals know no process afterwards, even if closing some raises.  Missing for the full claim: nothing calls it. -/
theorem c139_manager_partial (hist : List (List Terminal.TOp)) (raising : Nat → List Nat) :
    let ts := hist.map (Terminal.trun {})
    (∀ i t p, ts[i]? = some t → (onClientCloseCalls ts).count (i, p) = if p ∈ t.processes ∧ p ∉ t.closed then 1 else 0) ∧
    (∀ i p, ts[i]? = none → (i, p) ∉ onClientCloseCalls ts) ∧
    ∀ t ∈ onClientClose raising ts, t.processes = [] := by
  intro ts
  have hmap : ∀ (c : List Nat) (k i p : Nat), (c.map fun p => (k, p)).count (i, p) = if k = i then c.count p else 0 := by
    intro c k i p
    induction c with
    | nil => simp
    | cons q c ih' =>
      simp only [List.map_cons, List.count_cons, ih']
      by_cases hki : k = i
      · subst hki; simp
      · simp [hki]
  have hcount : ∀ (l : List Terminal.Term) (k i p : Nat),
      ((l.mapIdx fun j t => (Terminal.closeCalls t).map fun p => (j + k, p)).flatten.count (i, p) =
        if k ≤ i then (match l[i - k]? with | some t => (Terminal.closeCalls t).count p | none => 0) else 0) := by
    intro l
    induction l with
    | nil => intro k i p; simp
    | cons t l ih =>
      intro k i p
      simp only [List.mapIdx_cons, List.flatten_cons, List.count_append, Nat.zero_add]
      have h1 := ih (k + 1) i p
      have hfun : (fun (j : Nat) (t : Terminal.Term) => (Terminal.closeCalls t).map fun p => (j + (k + 1), p)) =
          fun (j : Nat) (t : Terminal.Term) => (Terminal.closeCalls t).map fun p => (j + 1 + k, p) := by
        funext j t; congr 1; funext p; congr 1; omega
      rw [hfun] at h1
      rw [h1, hmap]
      by_cases hki : k = i
      · subst hki
        rw [if_pos rfl, if_neg (by omega), if_pos (Nat.le_refl _), Nat.sub_self]
        rfl
      · rw [if_neg hki, Nat.zero_add]
        by_cases hlt : k + 1 ≤ i
        · rw [if_pos hlt, if_pos (by omega), show i - k = (i - (k + 1)) + 1 by omega, List.getElem?_cons_succ]
        · rw [if_neg hlt, if_neg (by omega)]
  have hc : ∀ i p, (onClientCloseCalls ts).count (i, p) = match ts[i]? with | some t => (Terminal.closeCalls t).count p | none => 0 := by
    intro i p
    have := hcount ts 0 i p
    simpa [onClientCloseCalls] using this
  refine ⟨?_, ?_, ?_⟩
  · intro i t p ht
    rw [hc, ht]
    simp only [ts, List.getElem?_map, Option.map_eq_some_iff] at ht
    obtain ⟨ops, _, rfl⟩ := ht
    exact (Terminal.c92_close_all ops [] p).1
  · intro i p hi
    rw [← List.count_eq_zero, hc, hi]
  · intro t ht
    simp only [onClientClose, List.mem_mapIdx] at ht
    obtain ⟨i, hi, rfl⟩ := ht
    rfl

/-- Two terminals, one of them with a process that is closed and one that is not. -/
example : onClientCloseCalls ([[.launch true, .launch true, .channelClosed 0], [.launch false, .launch true]].map (Terminal.trun {})) =
    [(0, 1), (1, 1)] := by decide +kernel

end Verif.Exit
