import Verif.Proofs.Bencode
import Verif.Spec.Weight
/-! Lemmas about the size of decoded values. -/
namespace Verif
open Bencode

theorem digits_le {n k : Nat} (h : n < 10 ^ (k + 1)) : digits n ≤ k + 1 := by
  induction k generalizing n with
  | zero => rw [digits, if_pos (by simpa using h)]; omega
  | succ k ih =>
    rw [digits]
    split
    · omega
    · have : n / 10 < 10 ^ (k + 1) := by
        rw [Nat.div_lt_iff_lt_mul (by omega)]
        rw [← Nat.pow_succ]
        exact h
      have := ih this
      omega

theorem parseDigits_lt {bs : Bytes} {acc : Nat} {b : Bool} {n : Nat} (h : parseDigits acc b bs = some n) : n < (acc + 1) * 10 ^ bs.length := by
  induction bs generalizing acc b with
  | nil =>
    simp only [parseDigits] at h
    split at h <;> simp at h
    simp; omega
  | cons c bs ih =>
    simp only [parseDigits] at h
    simp only [List.length_cons, Nat.pow_succ]
    split at h
    · rename_i hd
      have := ih h
      simp only [isDigitB, Bool.and_eq_true, decide_eq_true_eq] at hd
      refine Nat.lt_of_lt_of_le this ?_
      rw [Nat.mul_comm (10 ^ bs.length) 10, ← Nat.mul_assoc]
      exact Nat.mul_le_mul_right _ (by omega)
    · split at h
      · have := ih h
        refine Nat.lt_of_lt_of_le this ?_
        rw [Nat.mul_comm (10 ^ bs.length) 10, ← Nat.mul_assoc]
        exact Nat.mul_le_mul_right _ (by omega)
      · exact (nomatch h)

theorem stripRight_length (bs : Bytes) : (stripRight bs).length ≤ bs.length := by
  induction bs with
  | nil => simp [stripRight]
  | cons b bs ih =>
    simp only [stripRight]
    split
    · split <;> simp
    · rename_i r _; simp only [List.length_cons]; omega

theorem pyInt_few {bs : Bytes} {i : Int} (h : pyInt bs = some i) : digits i.natAbs ≤ bs.length := by
  have hlen : ((stripRight bs).dropWhile isSpaceB).length ≤ bs.length :=
    Nat.le_trans ((List.dropWhile_sublist _).length_le) (stripRight_length bs)
  have key : ∀ r n, parseDigits 0 false r = some n → r.length ≤ bs.length → digits n ≤ bs.length := by
    intro r n hp hr
    have := parseDigits_lt hp
    cases r with
    | nil => simp [parseDigits] at hp
    | cons a r =>
      simp only [List.length_cons] at this hr
      exact Nat.le_trans (digits_le (by simpa using this)) hr
  simp only [pyInt] at h
  split at h
  · rename_i r hr
    rw [hr] at hlen
    simp only [Option.map_eq_some_iff] at h
    obtain ⟨n, hn, rfl⟩ := h
    exact key r n hn (by simp only [List.length_cons] at hlen; omega)
  · rename_i r hr
    rw [hr] at hlen
    simp only [Option.map_eq_some_iff] at h
    obtain ⟨n, hn, rfl⟩ := h
    have : (-Int.ofNat n).natAbs = n := by simp
    rw [this]
    exact key r n hn (by simp only [List.length_cons] at hlen; omega)
  · simp only [Option.map_eq_some_iff] at h
    obtain ⟨n, hn, rfl⟩ := h
    exact key _ n hn hlen

theorem readInt_weight {acc inp v r} (h : readInt acc inp = .ok v r) : v.weight + r.length ≤ inp.length + acc.length := by
  induction inp generalizing acc with
  | nil => simp [readInt] at h
  | cons c inp ih =>
    simp only [readInt] at h
    split at h
    · split at h
      · simp at h
      · split at h
        · rename_i i hi
          simp only [DRes.ok.injEq] at h
          obtain ⟨rfl, rfl⟩ := h
          have := pyInt_few hi
          simp only [PyVal.weight, List.length_cons]; omega
        · simp at h
    · have := ih h
      simp only [List.length_cons, List.length_append, List.length_nil] at this ⊢; omega

theorem readN_weight {size inp v r} (h : readN size inp = .ok v r) : v.weight + r.length ≤ inp.length + 1 := by
  simp only [readN] at h
  split at h
  · simp at h
  · split at h
    · simp only [DRes.ok.injEq] at h; obtain ⟨rfl, rfl⟩ := h; simp [PyVal.weight]; omega
    · simp only [DRes.ok.injEq] at h; obtain ⟨rfl, rfl⟩ := h; simp [PyVal.weight]; omega

theorem sizeLoop_weight {n acc inp v r} (h : sizeLoop n acc inp = .ok v r) : v.weight + r.length ≤ inp.length := by
  induction n generalizing acc inp with
  | zero => simp [sizeLoop] at h
  | succ n ih =>
    cases inp with
    | nil => simp only [sizeLoop] at h; exact ih h
    | cons c inp =>
      simp only [sizeLoop] at h
      split at h
      · split at h
        · have := readN_weight h; simp only [List.length_cons]; omega
        · simp at h
      · have := ih h; simp only [List.length_cons]; omega

theorem weightList_append (a b) : weightList (a ++ b) = weightList a + weightList b := by
  induction a with
  | nil => simp [weightList]
  | cons x a ih => simp only [List.cons_append, weightList, ih]; omega

theorem weightItems_append (a b) : weightItems (a ++ b) = weightItems a + weightItems b := by
  induction a with
  | nil => simp [weightItems]
  | cons x a ih => obtain ⟨k, v⟩ := x; simp only [List.cons_append, weightItems, ih]; omega

theorem dictSet_weight (k v d) : weightItems (dictSet k v d) ≤ weightItems d + k.weight + v.weight := by
  induction d with
  | nil => simp [dictSet, weightItems]
  | cons x d ih =>
    obtain ⟨k', v'⟩ := x
    simp only [dictSet]
    split <;> simp only [weightItems] <;> omega

theorem mkDict_weight {kv d} (h : mkDict kv = some d) : weightItems d ≤ weightItems kv := by
  simp only [mkDict] at h
  split at h
  · simp only [Option.some.injEq] at h
    subst h
    have : ∀ (l acc : List (PyVal × PyVal)), weightItems (l.foldl (fun d p => dictSet p.1 p.2 d) acc) ≤ weightItems acc + weightItems l := by
      intro l
      induction l with
      | nil => intro acc; simp
      | cons x l ih =>
        intro acc
        obtain ⟨k, v⟩ := x
        have h1 := ih (dictSet k v acc)
        have h2 := dictSet_weight k v acc
        simp only [List.foldl_cons, weightItems]; omega
    have := this kv []
    simpa [weightItems] using this
  · exact (nomatch h)

theorem decode_weights (n : Nat) :
    (∀ inp v r, decodeF n inp = .ok v r → v.weight + r.length ≤ inp.length) ∧
    (∀ acc inp v r, listLoop n acc inp = .ok v r → v.weight + r.length ≤ inp.length + weightList acc) ∧
    (∀ acc inp v r, dictLoop n acc inp = .ok v r → v.weight + r.length ≤ inp.length + weightItems acc) := by
  induction n with
  | zero => simp [decodeF, listLoop, dictLoop]
  | succ n ih =>
    obtain ⟨ih1, ih2, ih3⟩ := ih
    refine ⟨?_, ?_, ?_⟩
    · intro inp v r h
      cases inp with
      | nil => simp [decodeF] at h
      | cons t inp =>
        simp only [List.length_cons]
        simp only [decodeF] at h
        split at h
        · simp only [DRes.ok.injEq] at h; obtain ⟨rfl, rfl⟩ := h; simp only [PyVal.weight]; omega
        · split at h
          · have := readInt_weight h; simp only [List.length_nil] at this; omega
          · split at h
            · have := ih2 _ _ _ _ h; simp only [weightList] at this; omega
            · split at h
              · have := ih3 _ _ _ _ h; simp only [weightItems] at this; omega
              · have := sizeLoop_weight h; omega
    · intro acc inp v r h
      simp only [listLoop] at h
      split at h
      · rename_i v' r' hd
        have := ih1 _ _ _ hd
        split at h
        · rename_i hv
          simp only [DRes.ok.injEq] at h
          obtain ⟨rfl, rfl⟩ := h
          cases v' <;> simp [isNone] at hv
          simp only [PyVal.weight] at this ⊢; omega
        · have := ih2 _ _ _ _ h
          simp only [weightList_append, weightList] at this; omega
      · simp at h
      · simp at h
    · intro acc inp v r h
      simp only [dictLoop] at h
      split at h
      · rename_i v' r' hd
        have := ih1 _ _ _ hd
        split at h
        · rename_i hv
          split at h
          · rename_i d hd'
            simp only [DRes.ok.injEq] at h
            obtain ⟨rfl, rfl⟩ := h
            cases v' <;> simp [isNone] at hv
            have := mkDict_weight hd'
            simp only [PyVal.weight] at *; omega
          · simp at h
        · split at h
          · rename_i hd2
            have := ih1 _ _ _ hd2
            have := ih3 _ _ _ _ h
            simp only [weightItems_append, weightItems] at this; omega
          · simp at h
          · simp at h
      · simp at h
      · simp at h

theorem decode_weight {data v} (h : decode data = .ok v) : v.weight ≤ data.length := by
  simp only [decode] at h
  split at h
  · rename_i v' r hd
    have := (decode_weights _).1 _ _ _ hd
    simp only [Outcome.ok.injEq] at h
    subst h; omega
  · exact (nomatch h)
  · exact (nomatch h)

end Verif
