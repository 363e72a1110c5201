import Verif.Proofs.Limiter
/-!
C29 and C30: the limiter.  All schedules of any number of launching and ending threads.
-/
namespace Verif.Limiter

/-- C29: after every schedule the number of slots in use is between 0 and the limit. -/
theorem c29_bounds (limit : Nat) (evs : List Ev) :
    0 ≤ (run (init limit) evs).lim.value ∧ (run (init limit) evs).lim.value ≤ limit := by
  obtain ⟨h1, h2, -⟩ := run_inv _ evs (init_inv limit)
  have h3 := run_limit (init limit) evs
  refine ⟨by rw [h1]; exact Int.natCast_nonneg _, ?_⟩
  rw [h3] at h2
  exact h2

/-- C29: an attempt is refused exactly when as many attempts as the limit hold a slot, otherwise it gets one. -/
theorem c29_refused_iff (limit : Nat) (evs : List Ev) (i : Nat) (hi : (run (init limit) evs).phases[i]? = some .new) :
    ((run (init limit) (evs ++ [.enter i])).phases[i]? = some .refused ↔ holding (run (init limit) evs) = limit) ∧
    ((run (init limit) (evs ++ [.enter i])).phases[i]? = some .setup ↔ holding (run (init limit) evs) < limit) := by
  obtain ⟨h1, h2, -⟩ := run_inv _ evs (init_inv limit)
  have h3 : (run (init limit) evs).lim.limit = limit := run_limit (init limit) evs
  have hlt : i < (run (init limit) evs).phases.length := by
    rcases Nat.lt_or_ge i (run (init limit) evs).phases.length with h | h
    · exact h
    · rw [List.getElem?_eq_none h] at hi; simp at hi
  have hrun : run (init limit) (evs ++ [.enter i]) = step (run (init limit) evs) (.enter i) := by simp [run]
  rw [hrun]
  simp only [step, hi, if_true, increment]
  rw [h3] at h2 ⊢
  by_cases hf : (run (init limit) evs).lim.value ≥ limit
  · simp only [hf, if_true, List.getElem?_set_self hlt]
    simp; omega
  · simp only [hf, if_false, List.getElem?_set_self hlt]
    simp; omega

/-- C29: a refusal changes neither the number of slots in use nor any other attempt. -/
theorem c29_refusal_changes_nothing (p : Pool) (i : Nat) (hi : p.phases[i]? ≠ some .refused)
    (h : (step p (.enter i)).phases[i]? = some .refused) :
    (step p (.enter i)).lim = p.lim ∧ ∀ j, j ≠ i → (step p (.enter i)).phases[j]? = p.phases[j]? := by
  simp only [step] at h ⊢
  split at h
  · rename_i hn
    simp only [hn, if_true]
    split at h
    · have hlt : i < p.phases.length := by
        rcases Nat.lt_or_ge i p.phases.length with h | h
        · exact h
        · rw [List.getElem?_eq_none h] at hn; simp at hn
      simp only [List.getElem?_set_self hlt] at h
      simp at h
    · refine ⟨rfl, ?_⟩
      intro j hj
      exact List.getElem?_set_ne (Ne.symm hj)
  · exact absurd h hi

/-- Three attempts with limit 2: the third is refused; after one service ends a fourth gets in. -/
example : (run (init 2) [.attempt, .attempt, .attempt, .attempt, .enter 0, .enter 1, .enter 2, .started 1, .finish 1, .enter 3]).phases
    = [.setup, .ended, .refused, .setup] := by decide

/-- C30: the number of slots in use is the number of attempts let in minus those that failed or ended, and giving back never raised. -/
theorem c30_slots (limit : Nat) (evs : List Ev) :
    (run (init limit) evs).lim.value = (admitted (run (init limit) evs) : Int) - (gone (run (init limit) evs) : Int) ∧
    (run (init limit) evs).errors = 0 := by
  obtain ⟨h1, -, h2⟩ := run_inv _ evs (init_inv limit)
  have := holding_eq (run (init limit) evs)
  exact ⟨by rw [h1]; omega, h2⟩

/-- C30: a launch that fails gives its slot back at once, a service that ends gives it back once: each such step of a thread that
holds a slot lowers the count by exactly one, and repeating the step changes nothing. -/
theorem c30_released_once (limit : Nat) (evs : List Ev) (i : Nat) (e : Ev)
    (he : (e = .failed i ∧ (run (init limit) evs).phases[i]? = some .setup) ∨
      (e = .finish i ∧ (run (init limit) evs).phases[i]? = some .running)) :
    (run (init limit) (evs ++ [e])).lim.value = (run (init limit) evs).lim.value - 1 ∧
    run (init limit) (evs ++ [e, e]) = run (init limit) (evs ++ [e]) := by
  obtain ⟨h1, -, -⟩ := run_inv _ evs (init_inv limit)
  simp only [run, List.foldl_append, List.foldl_cons, List.foldl_nil]
  have key : ∀ (p : Pool) (a b : Phase), p.lim.value = holding p → p.phases[i]? = some a → a.holds = true →
      (giveBack p i b).lim.value = p.lim.value - 1 ∧ (giveBack p i b).phases[i]? = some b := by
    intro p a b hp ha hh
    have hlt : i < p.phases.length := by
      rcases Nat.lt_or_ge i p.phases.length with h | h
      · exact h
      · rw [List.getElem?_eq_none h] at ha; simp at ha
    have hpos : ¬ p.lim.value ≤ 0 := by
      have : 0 < p.phases.countP Phase.holds := by
        refine List.countP_pos_iff.mpr ⟨a, List.mem_of_getElem? ha, hh⟩
      simp only [holding] at hp
      omega
    simp only [giveBack, decrement, hpos, if_false]
    exact ⟨trivial, List.getElem?_set_self hlt⟩
  rcases he with ⟨rfl, hi⟩ | ⟨rfl, hi⟩
  · obtain ⟨k1, k2⟩ := key _ .setup .failed h1 hi rfl
    refine ⟨?_, ?_⟩
    · simp only [step]
      rw [if_pos (by exact hi)]
      exact k1
    · have : step (List.foldl step (init limit) evs) (.failed i) = giveBack (List.foldl step (init limit) evs) i .failed := by
        simp only [step]; rw [if_pos (by exact hi)]
      rw [this]
      simp only [step]
      rw [if_neg (by intro h; have h' := k2.symm.trans h; simp at h')]
  · obtain ⟨k1, k2⟩ := key _ .running .ended h1 hi rfl
    refine ⟨?_, ?_⟩
    · simp only [step]
      rw [if_pos (by exact hi)]
      exact k1
    · have : step (List.foldl step (init limit) evs) (.finish i) = giveBack (List.foldl step (init limit) evs) i .ended := by
        simp only [step]; rw [if_pos (by exact hi)]
      rw [this]
      simp only [step]
      rw [if_neg (by intro h; have h' := k2.symm.trans h; simp at h')]

/-- C30: when no attempt is being set up or running, no slot is in use. -/
theorem c30_all_ended (limit : Nat) (evs : List Ev)
    (h : ∀ ph ∈ (run (init limit) evs).phases, ph ≠ .setup ∧ ph ≠ .running) : (run (init limit) evs).lim.value = 0 := by
  obtain ⟨h1, -, -⟩ := run_inv _ evs (init_inv limit)
  rw [h1]
  have : holding (run (init limit) evs) = 0 := by
    simp only [holding, List.countP_eq_zero]
    intro ph hph
    obtain ⟨h1, h2⟩ := h ph hph
    cases ph <;> simp [Phase.holds] at h1 h2 ⊢
  simp [this]

/-- A failed start and a finished service: nothing is left in use. -/
example : (run (init 1) [.attempt, .enter 0, .failed 0, .attempt, .enter 1, .started 1, .finish 1]).lim.value = 0
    ∧ (run (init 1) [.attempt, .enter 0, .failed 0, .attempt, .enter 1, .started 1]).lim.value = 1 := by decide

end Verif.Limiter
