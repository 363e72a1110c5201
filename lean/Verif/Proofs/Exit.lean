import Verif.Spec.Exit
/-!
Lemmas about the end of the agent.
-/
namespace Verif.Exit
open Verif

theorem run_append (s : St) (a b : List Ev) : run s (a ++ b) = run (run s a) b := by simp [run]

theorem run_cons (s : St) (e : Ev) (es : List Ev) : run s (e :: es) = run (step s e) es := rfl

/-- The way the main thread still has to go. -/
def mainLeft : Main → Nat
  | .start => 6
  | .polling => 5
  | .waiting => 4
  | .stopping _ => 3
  | .joining _ => 2
  | .closing _ => 1
  | .ended _ => 0

/-- The way the clock thread still has to go. -/
def clockLeft (s : St) : Nat :=
  if s.running then 2 else match s.clock with
    | .none => 2
    | .asleep _ => 2
    | .top => 1
    | .ended => 0

/-- What holds at all times. -/
structure Inv (s : St) : Prop where
  stopped : ∀ r, (s.main = .joining r ∨ s.main = .closing r) → s.running = false
  begun : s.clock = .none → s.main = .start ∨ ∃ r, s.main = .ended r
  done : (∃ r, s.main = .closing r) → s.clock = .ended
  fin : s.clock = .ended → s.running = false
  going : (s.main = .start ∨ s.main = .polling ∨ s.main = .waiting ∨ ∃ r, s.main = .stopping r) → s.running = true

theorem inv_init : Inv {} := ⟨by simp, by simp, by simp, by simp, by simp⟩

theorem inv_terms {s : St} (h : Inv s) (ts : List Terminal.Term) : Inv { s with terminals := ts } := ⟨h.1, h.2, h.3, h.4, h.5⟩

theorem inv_step {s : St} (h : Inv s) (e : Ev) : Inv (step s e) := by
  obtain ⟨a, b, c, d, f⟩ := h
  rcases s with ⟨m, k, x, r, kd, ts⟩
  simp only at a b c d f
  unfold step
  split
  · exact ⟨a, b, c, d, f⟩
  · split <;> (try split) <;> refine ⟨?_, ?_, ?_, ?_, ?_⟩ <;> first | assumption | simp_all

theorem inv_run {s : St} (h : Inv s) (es : List Ev) : Inv (run s es) := by
  induction es generalizing s with
  | nil => exact h
  | cons e es ih => exact ih (inv_step h e)

theorem exit_step {s : St} (h : s.exit = true) (e : Ev) : (step s e).exit = true := by
  unfold step
  split
  · exact h
  · split <;> (try split) <;> simp_all

theorem left_step {s : St} (hi : Inv s) (h : s.exit = true) (e : Ev) :
    mainLeft (step s e).main ≤ mainLeft s.main ∧ clockLeft (step s e) ≤ clockLeft s := by
  obtain ⟨a, b, c, d, f⟩ := hi
  rcases s with ⟨m, k, x, r, kd, ts⟩
  simp only at a b c d f h
  unfold step
  split
  · exact ⟨Nat.le_refl _, Nat.le_refl _⟩
  · split <;> (try split) <;> (refine ⟨?_, ?_⟩) <;> first | exact Nat.le_refl _ | skip
    all_goals simp_all [mainLeft, clockLeft]
    all_goals (cases k <;> simp_all)
    all_goals (split <;> omega)

/-- A turn of the main thread brings it on, unless it waits for the clock thread. -/
theorem main_turn {s : St} (hx : s.exit = true) (ho : ¬ Over s) (ok : Bool) (r : Option Client.Raised)
    (hb : ∀ q, s.main = .joining q → s.clock = .ended) : mainLeft (step s (next s (.main ok r))).main < mainLeft s.main := by
  rcases s with ⟨m, k, x, rn, kd, ts⟩
  simp only at hx hb
  have hk : kd = false := by
    cases kd with
    | false => rfl
    | true => exact absurd (.inl rfl) ho
  subst hk hx
  cases m with
  | start => cases ok <;> simp [next, step, mainLeft]
  | polling => cases r <;> simp [next, step, mainLeft]
  | waiting => simp [next, step, mainLeft]
  | stopping q => simp [next, step, mainLeft]
  | joining q => have := hb q rfl; subst this; simp [next, step, mainLeft]
  | closing q => simp [next, step, mainLeft]
  | ended q => exact absurd (.inr ⟨q, rfl⟩) ho

/-- A turn of the clock thread brings it on once it is told to stop. -/
theorem clock_turn {s : St} (ho : s.killed = false) (now : Int) (hr : s.running = false) (h1 : s.clock ≠ .none) (h2 : s.clock ≠ .ended) :
    (step s (next s (.clock now))).killed = true ∨ clockLeft (step s (next s (.clock now))) < clockLeft s := by
  rcases s with ⟨m, k, x, rn, kd, ts⟩
  simp only at ho hr h1 h2
  subst ho hr
  cases k with
  | none => exact absurd rfl h1
  | ended => exact absurd rfl h2
  | top => simp [next, step, clockLeft]
  | asleep start =>
    simp only [next, step, Bool.false_eq_true, if_false]
    split
    · exact .inl rfl
    · exact .inr (by simp [clockLeft])

theorem over_step {s : St} (h : Over s) (e : Ev) : Over (step s e) := by
  rcases h with h | ⟨r, h⟩
  · left; unfold step; simp [h]
  · rcases s with ⟨m, k, x, rn, kd, ts⟩
    simp only at h
    subst h
    unfold step Over
    split
    · exact .inr ⟨r, rfl⟩
    · split <;> (try split) <;> simp_all

theorem turns_append (s : St) (a b : List Turn) : turns s (a ++ b) = turns (turns s a) b := by
  induction a generalizing s with
  | nil => rfl
  | cons t a ih => exact ih _

theorem over_turns {s : St} (h : Over s) (ts : List Turn) : Over (turns s ts) := by
  induction ts generalizing s with
  | nil => exact h
  | cons t ts ih => exact ih (over_step h _)

theorem inv_turns {s : St} (h : Inv s) (ts : List Turn) : Inv (turns s ts) := by
  induction ts generalizing s with
  | nil => exact h
  | cons t ts ih => exact ih (inv_step h _)

theorem exit_turns {s : St} (h : s.exit = true) (ts : List Turn) : (turns s ts).exit = true := by
  induction ts generalizing s with
  | nil => exact h
  | cons t ts ih => exact ih (exit_step h _)

theorem left_turns {s : St} (hi : Inv s) (h : s.exit = true) (ts : List Turn) :
    mainLeft (turns s ts).main ≤ mainLeft s.main ∧ clockLeft (turns s ts) ≤ clockLeft s := by
  induction ts generalizing s with
  | nil => exact ⟨Nat.le_refl _, Nat.le_refl _⟩
  | cons t ts ih =>
    have h1 := left_step hi h (next s t)
    have h2 := ih (inv_step hi (next s t)) (exit_step h _)
    exact ⟨Nat.le_trans h2.1 h1.1, Nat.le_trans h2.2 h1.2⟩

theorem joining_of_left {m : Main} (h : mainLeft m = 2) : ∃ q, m = .joining q := by
  cases m <;> simp_all [mainLeft]

/-- In a round something is achieved. -/
theorem round_left {s : St} (hi : Inv s) (hx : s.exit = true) (ts : List Turn) (hr : Round ts) (ho : ¬ Over (turns s ts)) :
    mainLeft (turns s ts).main + clockLeft (turns s ts) < mainLeft s.main + clockLeft s := by
  obtain ⟨⟨ok, r, hm⟩, now, hc⟩ := hr
  have hle := left_turns hi hx ts
  apply Decidable.byContradiction
  intro hcon
  have e1 : mainLeft (turns s ts).main = mainLeft s.main := by omega
  have e2 : clockLeft (turns s ts) = clockLeft s := by omega
  -- the same at every moment in between
  have key : ∀ a b, ts = a ++ b → mainLeft (turns s a).main = mainLeft s.main ∧ clockLeft (turns s a) = clockLeft s ∧ ¬ Over (turns s a) ∧
      Inv (turns s a) ∧ (turns s a).exit = true := by
    intro a b hab
    have i1 := left_turns hi hx a
    have i2 := left_turns (inv_turns hi a) (exit_turns hx a) b
    rw [← turns_append, ← hab] at i2
    exact ⟨by omega, by omega, fun h => ho (by rw [hab, turns_append]; exact over_turns h b), inv_turns hi a, exit_turns hx a⟩
  -- the turn of the main thread
  obtain ⟨a, b, hab⟩ := List.append_of_mem hm
  obtain ⟨k1, k2, k3, k4, k5⟩ := key a _ hab
  obtain ⟨k1', _⟩ := key (a ++ [.main ok r]) b (by simp [hab])
  rw [turns_append] at k1'
  simp only [turns] at k1'
  by_cases hb : ∀ q, (turns s a).main = .joining q → (turns s a).clock = .ended
  · have := main_turn k5 k3 ok r hb; omega
  · have hq : ∃ q, (turns s a).main = .joining q ∧ (turns s a).clock ≠ .ended := by
      apply Classical.byContradiction
      intro hn
      exact hb (fun q h1 => Decidable.byContradiction fun h2 => hn ⟨q, h1, h2⟩)
    obtain ⟨q, hq, hne⟩ := hq
    have hrun := k4.stopped q (.inl hq)
    have hpos : 0 < clockLeft s := by
      rw [← k2]; unfold clockLeft; rw [hrun]
      cases hcl : (turns s a).clock <;> simp_all
    have h2 : mainLeft s.main = 2 := by rw [← k1, hq]; rfl
    -- the turn of the clock thread
    obtain ⟨a', b', hab'⟩ := List.append_of_mem hc
    obtain ⟨l1, l2, l3, l4, l5⟩ := key a' _ hab'
    obtain ⟨_, l2', l3', _⟩ := key (a' ++ [.clock now]) b' (by simp [hab'])
    rw [turns_append] at l2' l3'
    simp only [turns] at l2' l3'
    obtain ⟨q', hq'⟩ := joining_of_left (l1.trans h2)
    have hrun' := l4.stopped q' (.inl hq')
    have hkl : (turns s a').killed = false := by
      cases hk : (turns s a').killed with
      | false => rfl
      | true => exact absurd (.inl hk) l3
    have := clock_turn hkl now hrun' (by
      intro hn
      rcases l4.begun hn with h | ⟨_, h⟩ <;> rw [hq'] at h <;> exact nomatch h) (by
      intro hn
      rw [← l2] at hpos
      unfold clockLeft at hpos
      rw [hrun', hn] at hpos
      simp at hpos)
    rcases this with h | h
    · exact l3' (.inl h)
    · omega

theorem rounds_over {s : St} (hi : Inv s) (hx : s.exit = true) (rounds : List (List Turn)) (hr : ∀ ts ∈ rounds, Round ts)
    (hn : mainLeft s.main + clockLeft s ≤ rounds.length) : Over (turns s rounds.flatten) := by
  induction rounds generalizing s with
  | nil =>
    right
    have : mainLeft s.main = 0 := by simp at hn; omega
    cases hm : s.main <;> rw [hm] at this <;> simp [mainLeft] at this
    exact ⟨_, hm⟩
  | cons ts rounds ih =>
    simp only [List.flatten_cons, turns_append]
    apply Classical.byContradiction
    intro ho
    have ho' : ¬ Over (turns s ts) := fun h => ho (over_turns h _)
    have := round_left hi hx ts (hr ts (List.mem_cons_self ..)) ho'
    exact ho (ih (inv_turns hi ts) (exit_turns hx ts) (fun t h => hr t (List.mem_cons_of_mem _ h)) (by simp at hn; omega))

/-- After the request, at most one poll comes to its end. -/
theorem polls_left {s : St} (hi : Inv s) (hx : s.exit = true) (es : List Ev) :
    pollsDone s es ≤ 1 ∧ (mainLeft s.main < 5 → pollsDone s es = 0) := by
  induction es generalizing s with
  | nil => simp [pollsDone]
  | cons e es ih =>
    obtain ⟨h1, h2⟩ := ih (inv_step hi e) (exit_step hx e)
    have h3 := (left_step hi hx e).1
    simp only [pollsDone]
    split
    · rename_i r hm hk
      have : mainLeft (step s (.poll r)).main < 5 := by
        unfold step
        rw [hk, hm]
        cases r <;> simp [mainLeft]
      have h4 := h2 this
      rw [h4, hm]
      simp [mainLeft]
    · refine ⟨by omega, fun h => ?_⟩
      have := h2 (by omega)
      omega

/-- What is known of an exception on its way out. -/
def Way (evs : List Ev) : Main → Prop
  | .stopping (.raised x) => x ≠ .interrupt ∧ .poll (some x) ∈ evs
  | .joining (.raised x) => x ≠ .interrupt ∧ .poll (some x) ∈ evs
  | .closing (.raised x) => x ≠ .interrupt ∧ .poll (some x) ∈ evs
  | .ended (.raised x) => (x = .other ∧ .start false ∈ evs) ∨ (x ≠ .interrupt ∧ .poll (some x) ∈ evs) ∨
    (x = .interrupt ∧ ∃ a b r, evs = a ++ .interrupt :: b ∧
      ((run {} a).main = .stopping r ∨ (run {} a).main = .joining r ∨ (run {} a).main = .closing r))
  | _ => True

theorem way_more {evs : List Ev} {m : Main} (h : Way evs m) (e : Ev) : Way (evs ++ [e]) m := by
  cases m with
  | stopping r => cases r with
    | returned => trivial
    | raised x => exact ⟨h.1, List.mem_append_left _ h.2⟩
  | joining r => cases r with
    | returned => trivial
    | raised x => exact ⟨h.1, List.mem_append_left _ h.2⟩
  | closing r => cases r with
    | returned => trivial
    | raised x => exact ⟨h.1, List.mem_append_left _ h.2⟩
  | ended r => cases r with
    | returned => trivial
    | raised x =>
      rcases h with h | h | ⟨h, a, b, r, rfl, h'⟩
      · exact .inl ⟨h.1, List.mem_append_left _ h.2⟩
      · exact .inr (.inl ⟨h.1, List.mem_append_left _ h.2⟩)
      · exact .inr (.inr ⟨h, a, b ++ [e], r, by simp, h'⟩)
  | _ => trivial

theorem way_step {evs : List Ev} (h : Way evs (run {} evs).main) (e : Ev) : Way (evs ++ [e]) (run {} (evs ++ [e])).main := by
  rw [run_append, run_cons, show ∀ s, run s [] = s from fun _ => rfl]
  have hm := way_more h e
  generalize hs : run {} evs = s at hm
  unfold step
  split
  · exact hm
  · split
    · trivial
    · exact .inl ⟨rfl, by simp⟩
    · trivial
    · rename_i x _
      cases x
      · exact ⟨(fun h => nomatch h), List.mem_append_right _ (List.mem_singleton.2 rfl)⟩
      · exact ⟨(fun h => nomatch h), List.mem_append_right _ (List.mem_singleton.2 rfl)⟩
      · exact ⟨(fun h => nomatch h), List.mem_append_right _ (List.mem_singleton.2 rfl)⟩
      · trivial
    · split
      · trivial
      · exact hm
    · split
      · exact hm
      · trivial
    · trivial
    · trivial
    · rename_i r hx
      exact .inr (.inr ⟨rfl, evs, [], r, rfl, .inl (by rw [hs]; exact hx)⟩)
    · rename_i r hx
      exact .inr (.inr ⟨rfl, evs, [], r, rfl, .inr (.inl (by rw [hs]; exact hx))⟩)
    · rename_i r hx
      exact .inr (.inr ⟨rfl, evs, [], r, rfl, .inr (.inr (by rw [hs]; exact hx))⟩)
    · rename_i r hx
      rw [hx] at hm
      cases r <;> exact hm
    · rename_i r hx _
      rw [hx] at hm
      cases r <;> exact hm
    · rename_i r hx
      rw [hx] at hm
      cases r with
      | returned => trivial
      | raised x => exact .inr (.inl hm)
    · split <;> exact hm
    · split <;> exact hm
    · exact hm
    · exact hm
    · exact hm

end Verif.Exit
