import Verif.Spec.Limiter
/-!
Helper lemmas for the limiter: the counter is the number of attempts that hold a slot.
-/
namespace Verif.Limiter

theorem countP_set {α} (f : α → Bool) (l : List α) (i : Nat) (a b : α) (h : l[i]? = some a) :
    (l.set i b).countP f + (if f a then 1 else 0) = l.countP f + (if f b then 1 else 0) := by
  induction l generalizing i with
  | nil => simp at h
  | cons x xs ih =>
    cases i with
    | zero =>
      simp at h; subst h
      simp only [List.set_cons_zero, List.countP_cons]
      omega
    | succ i =>
      simp at h
      have := ih i h
      simp only [List.set_cons_succ, List.countP_cons]
      omega

/-- The invariant. -/
def Inv (p : Pool) : Prop := p.lim.value = (holding p : Int) ∧ p.lim.value ≤ p.lim.limit ∧ p.errors = 0

theorem giveBack_inv (p : Pool) (i : Nat) (a b : Phase) (h : Inv p) (ha : p.phases[i]? = some a) (h1 : a.holds = true)
    (h2 : b.holds = false) : Inv (giveBack p i b) := by
  obtain ⟨hv, hl, he⟩ := h
  have hc := countP_set Phase.holds p.phases i a b ha
  rw [h1, h2] at hc
  simp only [holding] at hv
  have hpos : ¬ p.lim.value ≤ 0 := by simp at hc; omega
  simp only [giveBack, decrement, hpos, if_false]
  refine ⟨?_, ?_, he⟩
  · simp only [holding]; simp at hc; omega
  · show p.lim.value - 1 ≤ _
    have : (p.lim.limit : Int) = p.lim.limit := rfl
    simp only; omega

theorem step_inv (p : Pool) (e : Ev) (h : Inv p) : Inv (step p e) := by
  cases e with
  | attempt =>
    obtain ⟨hv, hl, he⟩ := h
    refine ⟨?_, hl, he⟩
    simp only [step, holding, List.countP_append] at hv ⊢
    simpa [Phase.holds] using hv
  | enter i =>
    simp only [step]
    split
    · rename_i hi
      obtain ⟨hv, hl, he⟩ := h
      by_cases hf : p.lim.value ≥ p.lim.limit
      · simp only [increment, hf, if_true]
        have hc := countP_set Phase.holds p.phases i .new .refused hi
        refine ⟨?_, hl, he⟩
        simp only [holding] at hv ⊢
        simp [Phase.holds] at hc ⊢
        omega
      · simp only [increment, hf, if_false]
        have hc := countP_set Phase.holds p.phases i .new .setup hi
        refine ⟨?_, ?_, he⟩
        · simp only [holding] at hv ⊢
          simp [Phase.holds] at hc ⊢
          omega
        · show p.lim.value + 1 ≤ (p.lim.limit : Int)
          omega
    · exact h
  | started i =>
    simp only [step]
    split
    · rename_i hi
      obtain ⟨hv, hl, he⟩ := h
      have hc := countP_set Phase.holds p.phases i .setup .running hi
      refine ⟨?_, hl, he⟩
      simp only [holding] at hv ⊢
      simp [Phase.holds] at hc ⊢
      omega
    · exact h
  | failed i =>
    simp only [step]
    split
    · rename_i hi; exact giveBack_inv p i .setup .failed h hi rfl rfl
    · exact h
  | finish i =>
    simp only [step]
    split
    · rename_i hi; exact giveBack_inv p i .running .ended h hi rfl rfl
    · exact h

theorem run_inv (p : Pool) (evs : List Ev) (h : Inv p) : Inv (run p evs) := by
  induction evs generalizing p with
  | nil => exact h
  | cons e es ih => exact ih _ (step_inv p e h)

theorem init_inv (limit : Nat) : Inv (init limit) := by
  refine ⟨rfl, ?_, rfl⟩
  simp [init]

theorem increment_limit (l l' : Lim) (h : increment l = .ok l') : l'.limit = l.limit := by
  simp only [increment] at h
  split at h <;> simp at h
  rw [← h]

theorem decrement_limit (l l' : Lim) (h : decrement l = .ok l') : l'.limit = l.limit := by
  simp only [decrement] at h
  split at h <;> simp at h
  rw [← h]

theorem giveBack_limit (p : Pool) (i : Nat) (ph : Phase) : (giveBack p i ph).lim.limit = p.lim.limit := by
  simp only [giveBack]
  split
  · rename_i l h; exact decrement_limit _ _ h
  · rfl

theorem step_limit (p : Pool) (e : Ev) : (step p e).lim.limit = p.lim.limit := by
  cases e with
  | attempt => rfl
  | enter i =>
    simp only [step]
    split
    · split
      · rename_i l h; exact increment_limit _ _ h
      · rfl
    · rfl
  | started i => simp only [step]; split <;> rfl
  | failed i => simp only [step]; split; exact giveBack_limit _ _ _; rfl
  | finish i => simp only [step]; split; exact giveBack_limit _ _ _; rfl

theorem run_limit (p : Pool) (evs : List Ev) : (run p evs).lim.limit = p.lim.limit := by
  induction evs generalizing p with
  | nil => rfl
  | cons e es ih => exact (ih _).trans (step_limit p e)

theorem holding_eq (p : Pool) : holding p + gone p = admitted p := by
  simp only [holding, gone, admitted]
  induction p.phases with
  | nil => rfl
  | cons x xs ih => cases x <;> simp_all [List.countP_cons, Phase.holds] <;> omega

end Verif.Limiter
