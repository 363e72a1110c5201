import Verif.Proofs.Limits
import Verif.Proofs.Bencode4
/-! Lemmas for C136 and C137: which values the limits let through. -/
namespace Verif.Limits
open Verif Bencode

/-! ### Digits -/

theorem decNat_length (n : Nat) : ∀ k, 1 ≤ k → ((decNat n).length ≤ k ↔ n < 10 ^ k) := by
  induction n using decNat_induct with
  | h1 n h =>
    intro k hk
    rw [decNat_eq, if_pos h]
    have : 10 ^ 1 ≤ 10 ^ k := Nat.pow_le_pow_right (by omega) hk
    simp only [List.length_cons, List.length_nil]
    omega
  | h2 n h ih =>
    intro k hk
    rw [decNat_eq, if_neg h]
    simp only [List.length_append, List.length_cons, List.length_nil]
    obtain ⟨j, rfl⟩ : ∃ j, k = j + 1 := ⟨k - 1, by omega⟩
    cases j with
    | zero =>
      have := List.length_pos_iff.2 (decNat_ne_nil (n / 10))
      simp only [Nat.zero_add, Nat.pow_one]
      omega
    | succ j =>
      have := ih (j + 1) (by omega)
      rw [Nat.pow_succ 10 (j + 1)]
      omega

theorem digits_filter (n : Nat) : (decNat n).filter isDigitB = decNat n := List.filter_eq_self.2 (decNat_all_digits n)

theorem decInt_filter (i : Int) : (decInt i).filter isDigitB = decNat i.natAbs := by
  cases i with
  | ofNat n => exact digits_filter n
  | negSucc n =>
    simp only [decInt, Int.natAbs_negSucc]
    rw [List.filter_cons_of_neg (by decide), digits_filter]

theorem tooLong_iff (lim : Limits) (n : Nat) :
    tooLong lim (decNat n).length = false ↔ ∀ m, lim.digits = some m → n < 10 ^ max 640 m := by
  unfold tooLong
  cases lim.digits with
  | none => simp
  | some m =>
    simp only [Bool.and_eq_false_iff, decide_eq_false_iff_not, Option.some.injEq, forall_eq']
    rw [← decNat_length n (max 640 m) (by omega)]
    omega

theorem short_int (lim : Limits) (i : Int) : Short lim (.int i) ↔ tooLong lim (decNat i.natAbs).length = false := by
  rw [tooLong_iff]
  simp [Short, ints]

theorem small_length {lim : Limits} {n : Nat} (h : n ≤ maxSize) : tooLong lim (decNat n).length = false := by
  rw [tooLong_iff]
  intro m _
  have h1 : 10 ^ 640 ≤ 10 ^ max 640 m := Nat.pow_le_pow_right (by omega) (by omega)
  have h2 : 10 ^ 20 ≤ 10 ^ 640 := Nat.pow_le_pow_right (by omega) (by omega)
  have h3 : maxSize < 10 ^ 20 := by decide
  exact Nat.lt_of_le_of_lt h (Nat.lt_of_lt_of_le h3 (Nat.le_trans h2 h1))

/-! ### What is expected -/

/-- `x` is the result `y` without limits if both limits are kept, and otherwise the exception. -/
def Exp (F S : Prop) (x : LRes) (y : DRes) : Prop :=
  (F → S → x = emb y) ∧ (¬ F → S → x = .recursion) ∧ (F → ¬ S → x = .raise .value) ∧ (¬ F → ¬ S → x = .recursion ∨ x = .raise .value)

theorem Exp.congr {F F' S S' : Prop} {x y} (hF : F' ↔ F) (hS : S' ↔ S) (h : Exp F S x y) : Exp F' S' x y := by
  rw [propext hF, propext hS]; exact h

theorem Exp.seq {F1 F2 S1 S2 : Prop} {a b c : LRes} {y z : DRes} (h1 : Exp F1 S1 a y) (h2 : Exp F2 S2 b z)
    (hok : a = emb y → c = b) (hr : a = .recursion → c = .recursion) (hv : a = .raise .value → c = .raise .value) :
    Exp (F1 ∧ F2) (S1 ∧ S2) c z := by
  obtain ⟨p1, p2, p3, p4⟩ := h1
  obtain ⟨q1, q2, q3, q4⟩ := h2
  refine ⟨fun ⟨f1, f2⟩ ⟨s1, s2⟩ => (hok (p1 f1 s1)).trans (q1 f2 s2), fun hf ⟨s1, s2⟩ => ?_, fun ⟨f1, f2⟩ hs => ?_, fun hf hs => ?_⟩
  · by_cases f1 : F1
    · have f2 : ¬ F2 := fun f2 => hf ⟨f1, f2⟩
      exact (hok (p1 f1 s1)).trans (q2 f2 s2)
    · exact hr (p2 f1 s1)
  · by_cases s1 : S1
    · have s2 : ¬ S2 := fun s2 => hs ⟨s1, s2⟩
      exact (hok (p1 f1 s1)).trans (q3 f2 s2)
    · exact hv (p3 f1 s1)
  · by_cases f1 : F1 <;> by_cases s1 : S1
    · rw [hok (p1 f1 s1)]
      exact q4 (fun f2 => hf ⟨f1, f2⟩) (fun s2 => hs ⟨s1, s2⟩)
    · exact .inr (hv (p3 f1 s1))
    · exact .inl (hr (p2 f1 s1))
    · rcases p4 f1 s1 with h | h
      · exact .inl (hr h)
      · exact .inr (hv h)

def Exact (lim : Limits) (v : PyVal) (e : Bytes) : Prop := ∀ d n rest, 2 * e.length + 1 ≤ n →
  Exp (levels v ≤ d) (Short lim v) (decodeL lim n d (e ++ rest)) (decodeF n (e ++ rest))

def ExactL (lim : Limits) (xs : List PyVal) (b : Bytes) : Prop := ∀ d n acc rest, 2 * b.length + 2 ≤ n →
  Exp (1 ≤ d ∧ ∀ x ∈ xs, levels x ≤ d) (∀ x ∈ xs, Short lim x) (listLoopL lim n d acc (b ++ 101 :: rest)) (listLoop n acc (b ++ 101 :: rest))

def ExactI (lim : Limits) (items : List (Bytes × PyVal)) (b : Bytes) : Prop := ∀ d n acc rest, 2 * b.length + 2 ≤ n →
  Exp (1 ≤ d ∧ ∀ x ∈ items, levels x.2 ≤ d) (∀ x ∈ items, Short lim x.2) (dictLoopL lim n d acc (b ++ 101 :: rest))
    (dictLoop n acc (b ++ 101 :: rest))

theorem good_of_wire {v : PyVal} {e : Bytes} (hw : WF v) (h : Wire v e) : ∃ w, Good e w := by
  rcases fate v e (wire_unique h) hw with ⟨_, w, _, hg⟩ | ⟨hn, _⟩
  · exact ⟨w, hg⟩
  · exact absurd (wire_supported h) hn

/-! ### Atoms -/

theorem zero_rec {lim : Limits} {n : Nat} (hn : 1 ≤ n) (inp : Bytes) : decodeL lim n 0 inp = .recursion := by
  obtain ⟨m, rfl⟩ : ∃ m, n = m + 1 := ⟨n - 1, by omega⟩
  simp only [decodeL]

theorem sizeLoopL_append (lim : Limits) (n : Nat) (acc ds rest : Bytes) (h : ∀ b ∈ ds, b ≠ 58) :
    sizeLoopL lim (n + ds.length) acc (ds ++ rest) = sizeLoopL lim n (acc ++ ds) rest := by
  induction ds generalizing acc with
  | nil => simp
  | cons d ds ih =>
    have hd : (d == 58) = false := by simpa using h d (by simp)
    simp only [List.length_cons, List.cons_append, ← Nat.add_assoc, sizeLoopL, hd, Bool.false_eq_true, if_false]
    rw [ih (acc ++ [d]) (fun b hb => h b (by simp [hb]))]
    simp

theorem readIntL_append (lim : Limits) (acc ds rest : Bytes) (h : ∀ b ∈ ds, (!isDigitB b && b != 45) = false) :
    readIntL lim acc (ds ++ rest) = readIntL lim (acc ++ ds) rest := by
  induction ds generalizing acc with
  | nil => simp
  | cons d ds ih =>
    simp only [List.cons_append, readIntL, h d (by simp), Bool.false_eq_true, if_false]
    rw [ih (acc ++ [d]) (fun b hb => h b (by simp [hb]))]
    simp

theorem exact_encBytes (lim : Limits) {b : Bytes} (h : b.length ≤ maxSize) (d n : Nat) (rest : Bytes) (hn : 2 * (encBytes b).length + 1 ≤ n) :
    Exp (1 ≤ d) True (decodeL lim n d (encBytes b ++ rest)) (decodeF n (encBytes b ++ rest)) := by
  cases d with
  | zero =>
    rw [zero_rec (by omega)]
    exact ⟨fun h => absurd h (by omega), fun _ _ => rfl, fun _ h => absurd trivial h, fun _ h => absurd trivial h⟩
  | succ d' =>
    refine ⟨fun _ _ => ?_, fun h => absurd (Nat.succ_le_succ (Nat.zero_le _)) h, fun _ h => absurd trivial h, fun _ h => absurd trivial h⟩
    rw [(good_encBytes h).2.2 rest n hn]
    obtain ⟨d, ds, hd⟩ : ∃ d ds, decNat b.length = d :: ds := by
      cases hx : decNat b.length with
      | nil => exact absurd hx (decNat_ne_nil _)
      | cons d ds => exact ⟨d, ds, rfl⟩
    have hall := decNat_all_digits b.length
    rw [hd] at hall
    have ⟨h1, h2, h3, h4⟩ := digit_not_type (hall d (by simp))
    simp only [encBytes, hd, List.cons_append, List.append_assoc, List.length_cons, List.length_append] at hn ⊢
    obtain ⟨m, rfl⟩ : ∃ m, n = (m + 1 + ds.length) + 1 := ⟨n - ds.length - 2, by omega⟩
    simp only [decodeL, h1, h2, h3, h4, Bool.false_eq_true, if_false]
    rw [sizeLoopL_append _ _ _ _ _ (fun x hx => digit_ne_colon (hall x (by simp [hx])))]
    have : [d] ++ ds = decNat b.length := by rw [hd]; rfl
    rw [this]
    have hi : intL lim (decNat b.length) = some (b.length : Int) := by
      unfold intL
      rw [digits_filter, small_length h, pyInt_decNat]
      rfl
    simp only [sizeLoopL, beq_self_eq_true, if_true, hi, readNL_eq, readN_append b rest h]

theorem exact_int (lim : Limits) (i : Int) : Exact lim (.int i) (105 :: decInt i ++ [101]) := by
  intro d n rest hn
  cases d with
  | zero =>
    rw [zero_rec (by omega)]
    exact ⟨fun h => absurd h (by simp [levels]), fun _ _ => rfl, fun h => absurd h (by simp [levels]), fun _ _ => .inl rfl⟩
  | succ d' =>
    have hF : levels (.int i) ≤ d' + 1 := by simp [levels]
    have hq : decodeL lim n (d' + 1) (105 :: decInt i ++ [101] ++ rest) = match intL lim (decInt i) with
        | some i => .ok (.int i) rest
        | none => .raise .value := by
      obtain ⟨m, rfl⟩ : ∃ m, n = m + 1 := ⟨n - 1, by omega⟩
      simp only [List.cons_append, List.append_assoc, decodeL]
      rw [if_neg (by decide), if_pos (by decide), readIntL_append _ _ _ _ (fun b hb => ?_)]
      · simp only [List.nil_append, readIntL]
        rw [if_pos (by decide), if_neg (by decide)]
        cases intL lim (decInt i) <;> rfl
      · have := decInt_bytes i b hb
        exact this
    rw [(good_int i).2.2 rest n hn, hq]
    unfold intL
    rw [decInt_filter, pyInt_decInt]
    refine ⟨fun _ hs => ?_, fun h => absurd hF h, fun _ hs => ?_, fun h => absurd hF h⟩
    · rw [(short_int lim i).1 hs]; rfl
    · rw [short_int] at hs
      rw [if_pos (by simpa using hs)]

/-! ### Lists and dicts -/

theorem exactL_nil (lim : Limits) : ExactL lim [] [] := by
  intro d n acc rest hn
  simp only [List.length_nil] at hn
  obtain ⟨m, rfl⟩ : ∃ m, n = m + 2 := ⟨n - 2, by omega⟩
  cases d with
  | zero =>
    refine ⟨fun h => absurd h.1 (by omega), fun _ _ => ?_, fun _ h => absurd (fun _ hx => (nomatch hx)) h, fun _ h => absurd (fun _ hx => (nomatch hx)) h⟩
    simp only [listLoopL, decodeL]
  | succ d =>
    refine ⟨fun _ _ => ?_, fun h => absurd ⟨by omega, fun _ hx => (nomatch hx)⟩ h, fun _ h => absurd (fun _ hx => (nomatch hx)) h,
      fun _ h => absurd (fun _ hx => (nomatch hx)) h⟩
    simp [listLoopL, decodeL, listLoop, decodeF, isNone, emb]

theorem exactL_cons {lim : Limits} {x : PyVal} {xs : List PyVal} {a b : Bytes} (hg : ∃ w, Good a w) (ha : Exact lim x a) (hb : ExactL lim xs b) :
    ExactL lim (x :: xs) (a ++ b) := by
  intro d n acc rest hn
  obtain ⟨w, h0, hw, hg⟩ := hg
  simp only [List.length_append] at hn
  obtain ⟨m, rfl⟩ : ∃ m, n = m + 1 := ⟨n - 1, by omega⟩
  have h1 := ha d m (b ++ 101 :: rest) (by omega)
  have h2 := hb d m (acc ++ [w]) rest (by omega)
  rw [hg _ m (by omega)] at h1
  have heq : listLoop (m + 1) acc (a ++ b ++ 101 :: rest) = listLoop m (acc ++ [w]) (b ++ 101 :: rest) := by
    simp only [listLoop, List.append_assoc]
    rw [hg _ m (by omega)]
    simp only [hw, Bool.false_eq_true, if_false]
  rw [heq]
  refine Exp.congr ?_ ?_ (Exp.seq h1 h2 (c := listLoopL lim (m + 1) d acc (a ++ b ++ 101 :: rest)) ?_ ?_ ?_)
  · simp only [List.mem_cons, forall_eq_or_imp]
    exact ⟨fun ⟨p, q, r⟩ => ⟨q, p, r⟩, fun ⟨q, p, r⟩ => ⟨p, q, r⟩⟩
  · simp only [List.mem_cons, forall_eq_or_imp]
  · intro h
    simp only [listLoopL, List.append_assoc]
    rw [h]
    simp only [emb, hw, Bool.false_eq_true, if_false]
  · intro h; simp only [listLoopL, List.append_assoc]; rw [h]
  · intro h; simp only [listLoopL, List.append_assoc]; rw [h]

theorem levelsList_le (xs : List PyVal) (d : Nat) : levelsList xs ≤ d ↔ ∀ x ∈ xs, levels x ≤ d := by
  induction xs with
  | nil => simp [levelsList]
  | cons x xs ih => simp only [levelsList, List.mem_cons, forall_eq_or_imp, ← ih]; omega

theorem levelsItems_le (kvs : List (PyVal × PyVal)) (d : Nat) : levelsItems kvs ≤ d ↔ ∀ x ∈ kvs, levels x.2 ≤ d := by
  induction kvs with
  | nil => simp [levelsItems]
  | cons x xs ih => simp only [levelsItems, List.mem_cons, forall_eq_or_imp, ← ih]; omega

theorem mem_intsList (xs : List PyVal) (i : Int) : i ∈ intsList xs ↔ ∃ x ∈ xs, i ∈ ints x := by
  induction xs with
  | nil => simp [intsList]
  | cons x xs ih => simp [intsList, ih]

theorem mem_intsItems (kvs : List (PyVal × PyVal)) (i : Int) : i ∈ intsItems kvs ↔ ∃ x ∈ kvs, i ∈ ints x.2 := by
  induction kvs with
  | nil => simp [intsItems]
  | cons x xs ih => rw [intsItems, List.mem_append, ih]; simp

theorem short_list (lim : Limits) (xs : List PyVal) : Short lim (.list xs) ↔ ∀ x ∈ xs, Short lim x := by
  unfold Short
  simp only [ints, mem_intsList]
  exact ⟨fun h x hx m hm i hi => h m hm i ⟨x, hx, hi⟩, fun h m hm i ⟨x, hx, hi⟩ => h x hx m hm i hi⟩

theorem short_tuple (lim : Limits) (xs : List PyVal) : Short lim (.tuple xs) ↔ ∀ x ∈ xs, Short lim x := by
  unfold Short
  simp only [ints, mem_intsList]
  exact ⟨fun h x hx m hm i hi => h m hm i ⟨x, hx, hi⟩, fun h m hm i ⟨x, hx, hi⟩ => h x hx m hm i hi⟩

theorem short_dict (lim : Limits) (kvs : List (PyVal × PyVal)) : Short lim (.dict kvs) ↔ ∀ x ∈ kvs, Short lim x.2 := by
  unfold Short
  simp only [ints, mem_intsItems]
  exact ⟨fun h x hx m hm i hi => h m hm i ⟨x, hx, hi⟩, fun h m hm i ⟨x, hx, hi⟩ => h x hx m hm i hi⟩

/-- From the loop to the value. -/
theorem exact_wrap {lim : Limits} {t : UInt8} {v : PyVal} {F : Nat → Prop} {b : Bytes} (hl : ∀ d, levels v ≤ d + 1 ↔ F d) (hz : 1 ≤ levels v)
    (loop : ∀ d n rest, 2 * b.length + 2 ≤ n → Exp (F d) (Short lim v) (decodeL lim (n + 1) (d + 1) (t :: (b ++ 101 :: rest)))
      (decodeF (n + 1) (t :: (b ++ 101 :: rest)))) : Exact lim v (t :: b ++ [101]) := by
  intro d n rest hn
  simp only [List.cons_append, List.append_assoc, List.length_cons, List.length_append, List.length_nil, List.nil_append] at hn ⊢
  cases d with
  | zero =>
    rw [zero_rec (by omega)]
    exact ⟨fun h => absurd h (by omega), fun _ _ => rfl, fun h => absurd h (by omega), fun _ _ => .inl rfl⟩
  | succ d =>
    obtain ⟨m, rfl⟩ : ∃ m, n = m + 1 := ⟨n - 1, by omega⟩
    exact Exp.congr (hl d) Iff.rfl (loop d m rest (by omega))

theorem levels_pos (v : PyVal) : 1 ≤ levels v := by cases v <;> simp [levels] <;> omega

theorem exact_list {lim : Limits} {xs : List PyVal} {b : Bytes} (h : ExactL lim xs b) : Exact lim (.list xs) (108 :: b ++ [101]) := by
  refine exact_wrap (F := fun d => 1 ≤ d ∧ ∀ x ∈ xs, levels x ≤ d) (fun d => ?_) (levels_pos _) fun d n rest hn => ?_
  · rw [← levelsList_le]; simp only [levels]; omega
  · have := h d n [] rest hn
    simp only [decodeL, decodeF]
    rw [if_neg (by decide), if_neg (by decide), if_pos (by decide), if_neg (by decide), if_neg (by decide), if_pos (by decide)]
    exact Exp.congr Iff.rfl (short_list lim xs) this

theorem exact_tuple {lim : Limits} {xs : List PyVal} {b : Bytes} (h : ExactL lim xs b) : Exact lim (.tuple xs) (108 :: b ++ [101]) := by
  refine exact_wrap (F := fun d => 1 ≤ d ∧ ∀ x ∈ xs, levels x ≤ d) (fun d => ?_) (levels_pos _) fun d n rest hn => ?_
  · rw [← levelsList_le]; simp only [levels]; omega
  · have := h d n [] rest hn
    simp only [decodeL, decodeF]
    rw [if_neg (by decide), if_neg (by decide), if_pos (by decide), if_neg (by decide), if_neg (by decide), if_pos (by decide)]
    exact Exp.congr Iff.rfl (short_tuple lim xs) this

theorem exactI_nil (lim : Limits) : ExactI lim [] [] := by
  intro d n acc rest hn
  simp only [List.length_nil] at hn
  obtain ⟨m, rfl⟩ : ∃ m, n = m + 2 := ⟨n - 2, by omega⟩
  cases d with
  | zero =>
    refine ⟨fun h => absurd h.1 (by omega), fun _ _ => ?_, fun _ h => absurd (fun _ hx => (nomatch hx)) h, fun _ h => absurd (fun _ hx => (nomatch hx)) h⟩
    simp only [dictLoopL, decodeL]
  | succ d =>
    refine ⟨fun _ _ => ?_, fun h => absurd ⟨by omega, fun _ hx => (nomatch hx)⟩ h, fun _ h => absurd (fun _ hx => (nomatch hx)) h,
      fun _ h => absurd (fun _ hx => (nomatch hx)) h⟩
    have h1 : decodeL lim (m + 1) (d + 1) (101 :: rest) = .ok .none rest := by simp only [decodeL, beq_self_eq_true, if_true]
    have h2 : decodeF (m + 1) (101 :: rest) = .ok .none rest := by simp only [decodeF, beq_self_eq_true, if_true]
    have h3 : isNone .none = true := rfl
    rw [List.nil_append, dictLoopL, dictLoop, h1, h2]
    simp only [h3, if_true]
    cases mkDict acc <;> rfl

theorem exactI_cons {lim : Limits} {k : Bytes} {x : PyVal} {items : List (Bytes × PyVal)} {a b : Bytes} (hk : k.length ≤ maxSize)
    (hg : ∃ w, Good a w) (ha : Exact lim x a) (hb : ExactI lim items b) : ExactI lim ((k, x) :: items) (encBytes k ++ a ++ b) := by
  intro d n acc rest hn
  obtain ⟨w, h0, hw, hg⟩ := hg
  obtain ⟨k0, kw, kg⟩ := good_encBytes hk
  simp only [List.length_append] at hn
  obtain ⟨m, rfl⟩ : ∃ m, n = m + 1 := ⟨n - 1, by omega⟩
  have hkey := exact_encBytes lim hk d m (a ++ (b ++ 101 :: rest)) (by omega)
  have h1 := ha d m (b ++ 101 :: rest) (by omega)
  have h2 := hb d m (acc ++ [(.bytes k, w)]) rest (by omega)
  rw [hg _ m (by omega)] at h1
  rw [kg _ m (by omega)] at hkey
  have heq : dictLoop (m + 1) acc (encBytes k ++ a ++ b ++ 101 :: rest) = dictLoop m (acc ++ [(.bytes k, w)]) (b ++ 101 :: rest) := by
    simp only [dictLoop, List.append_assoc]
    rw [kg _ m (by omega)]
    simp only [kw, Bool.false_eq_true, if_false]
    rw [hg _ m (by omega)]
  rw [heq]
  refine Exp.congr ?_ ?_ (Exp.seq hkey (Exp.seq h1 h2 (c := match decodeL lim m d (a ++ (b ++ 101 :: rest)) with
      | .ok v r' => dictLoopL lim m d (acc ++ [(.bytes k, v)]) r'
      | .raise e => .raise e
      | .recursion => .recursion
      | .out => .out) ?_ ?_ ?_) (c := dictLoopL lim (m + 1) d acc (encBytes k ++ a ++ b ++ 101 :: rest)) ?_ ?_ ?_)
  · simp only [List.mem_cons, forall_eq_or_imp]
    exact ⟨fun ⟨p, q, r⟩ => ⟨p, q, p, r⟩, fun ⟨p, q, _, r⟩ => ⟨p, q, r⟩⟩
  · simp only [List.mem_cons, forall_eq_or_imp, true_and]
  · intro h; rw [h]; rfl
  · intro h; rw [h]
  · intro h; rw [h]
  · intro h
    simp only [dictLoopL, List.append_assoc]
    rw [h]
    simp only [emb, kw, Bool.false_eq_true, if_false]
    cases decodeL lim m d (a ++ (b ++ 101 :: rest)) <;> rfl
  · intro h; simp only [dictLoopL, List.append_assoc]; rw [h]
  · intro h; simp only [dictLoopL, List.append_assoc]; rw [h]

theorem exact_dict {lim : Limits} {kvs : List (PyVal × PyVal)} {items : List (Bytes × PyVal)} {b : Bytes}
    (hp : kvs.Perm (items.map fun kv => (.bytes kv.1, kv.2))) (h : ExactI lim items b) : Exact lim (.dict kvs) (100 :: b ++ [101]) := by
  have hmem : ∀ P : PyVal → Prop, (∀ x ∈ kvs, P x.2) ↔ ∀ x ∈ items, P x.2 := by
    intro P
    constructor
    · intro h x hx
      exact h (.bytes x.1, x.2) (hp.mem_iff.2 (List.mem_map.2 ⟨x, hx, rfl⟩))
    · intro h x hx
      obtain ⟨y, hy, rfl⟩ := List.mem_map.1 (hp.mem_iff.1 hx)
      exact h y hy
  refine exact_wrap (F := fun d => 1 ≤ d ∧ ∀ x ∈ items, levels x.2 ≤ d) (fun d => ?_) (levels_pos _) fun d n rest hn => ?_
  · rw [← hmem (fun v => levels v ≤ d), ← levelsItems_le]; simp only [levels]; omega
  · have := h d n [] rest hn
    simp only [decodeL, decodeF]
    rw [if_neg (by decide), if_neg (by decide), if_neg (by decide), if_pos (by decide), if_neg (by decide), if_neg (by decide),
      if_neg (by decide), if_pos (by decide)]
    exact Exp.congr Iff.rfl ((short_dict lim kvs).trans (hmem (Short lim))) this

theorem wfItems_mem {kvs : List (PyVal × PyVal)} (h : WFItems kvs) : ∀ x ∈ kvs, WF x.1 ∧ WF x.2 := by
  intro x hx
  induction kvs with
  | nil => exact nomatch hx
  | cons y ys ih =>
    cases h with
    | cons h1 h2 h3 =>
      rcases List.mem_cons.1 hx with rfl | hx
      · exact ⟨h1, h2⟩
      · exact ih h3 hx

theorem exact_wire (lim : Limits) {v : PyVal} {e : Bytes} (h : Wire v e) : WF v → Exact lim v e :=
  Wire.rec (motive_1 := fun v e _ => WF v → Exact lim v e) (motive_2 := fun xs b _ => WFList xs → ExactL lim xs b)
    (motive_3 := fun items body _ => (∀ x ∈ items, x.1.length ≤ maxSize ∧ WF x.2) → ExactI lim items body)
    (fun {b ds} h hw d n rest hn => by
      cases hw with
      | bytes hb =>
        rw [← un_bytes h] at hn ⊢
        exact Exp.congr (by simp [levels]) (by simp [Short, ints]) (exact_encBytes lim hb d n rest hn))
    (fun {s ds} h hw d n rest hn => by
      cases hw with
      | text hb =>
        rw [← un_bytes h] at hn ⊢
        exact Exp.congr (by simp [levels]) (by simp [Short, ints]) (exact_encBytes lim hb d n rest hn))
    (fun {n ds} h _ => by
      have := un_nat h
      simp only [addEncode, Option.some.injEq] at this
      rw [← this]; exact exact_int lim _)
    (fun {n ds} h0 h _ => by
      have := un_neg h0 h
      simp only [addEncode, Option.some.injEq] at this
      rw [← this]; exact exact_int lim _)
    (fun _ ih hw => by cases hw with | list h => exact exact_list (ih h))
    (fun _ ih hw => by cases hw with | tuple h => exact exact_tuple (ih h))
    (fun {kvs items body} hp hs hi ih hw => by
      cases hw with
      | dict h _ =>
        refine exact_dict hp (ih fun x hx => ?_)
        have := wfItems_mem h (.bytes x.1, x.2) (hp.mem_iff.2 (List.mem_map.2 ⟨x, hx, rfl⟩))
        refine ⟨?_, this.2⟩
        cases this.1 with
        | bytes hb => exact hb)
    (fun _ => exactL_nil lim)
    (fun hx _ ih1 ih2 hw => by cases hw with | cons h1 h2 => exact exactL_cons (good_of_wire h1 hx) (ih1 h1) (ih2 h2))
    (fun _ => exactI_nil lim)
    (fun {k v r ds a b} hd hv _ ih1 ih2 hw => by
      have h := hw (k, v) (List.mem_cons_self ..)
      rw [← un_bytes hd]
      exact exactI_cons h.1 (good_of_wire h.2 hv) (ih1 h.2) (ih2 fun x hx => hw x (List.mem_cons_of_mem _ hx)))
    h

/-! ### Whole calls -/

theorem decode_wire (lim : Limits) {v : PyVal} {e : Bytes} (hw : WF v) (h : Wire v e) :
    (levels v + 1 ≤ lim.depth → Short lim v → decode lim e = free (Bencode.decode e)) ∧
    (lim.depth < levels v + 1 → Short lim v → decode lim e = .recursion) ∧
    (levels v + 1 ≤ lim.depth → ¬ Short lim v → decode lim e = .raise .value) ∧
    (lim.depth < levels v + 1 → ¬ Short lim v → decode lim e = .recursion ∨ decode lim e = .raise .value) := by
  unfold decode Bencode.decode
  cases hd : lim.depth with
  | zero =>
    exact ⟨fun h => absurd h (by omega), fun _ _ => rfl, fun h => absurd h (by omega), fun _ _ => .inl rfl⟩
  | succ d =>
    have hx := exact_wire lim h hw d (enough e) [] (by unfold enough; omega)
    rw [List.append_nil] at hx
    obtain ⟨h1, h2, h3, h4⟩ := hx
    simp only
    refine ⟨fun f s => ?_, fun f s => ?_, fun f s => ?_, fun f s => ?_⟩
    · rw [h1 (by omega) s]; cases decodeF (enough e) e <;> rfl
    · rw [h2 (by omega) s]
    · rw [h3 (by omega) s]
    · rcases h4 (by omega) s with h | h
      · rw [h]; exact .inl rfl
      · rw [h]; exact .inr rfl

/-! ### The encoder -/

mutual
theorem addEncodeL_ok {lim : Limits} {d : Nat} {v : PyVal} {e : Bytes} (h : addEncodeL lim d v = .ok e) : addEncode v = some e := by
  match d, v with
  | 0, _ => simp only [addEncodeL] at h; exact nomatch h
  | _ + 1, .bytes b => simp only [addEncodeL] at h; injection h with h; simp only [addEncode, h]
  | _ + 1, .text s => simp only [addEncodeL] at h; injection h with h; simp only [addEncode, h]
  | _ + 1, .bool b => rw [addEncodeL] at h; injection h with h; rw [addEncode, h]
  | _ + 1, .int i =>
    rw [addEncodeL] at h
    split at h
    · exact nomatch h
    · injection h with h; rw [addEncode, h]
  | d + 1, .list xs =>
    simp only [addEncodeL] at h
    cases hx : addEncodeListL lim d xs with
    | error x => rw [hx] at h; exact nomatch h
    | ok b => rw [hx] at h; injection h with h; simp only [addEncode, addEncodeListL_ok hx, Option.map_some, ← h]
  | d + 1, .tuple xs =>
    simp only [addEncodeL] at h
    cases hx : addEncodeListL lim d xs with
    | error x => rw [hx] at h; exact nomatch h
    | ok b => rw [hx] at h; injection h with h; simp only [addEncode, addEncodeListL_ok hx, Option.map_some, ← h]
  | d + 1, .dict kvs =>
    simp only [addEncodeL] at h
    cases hx : addEncodeItemsL lim d kvs with
    | error x => rw [hx] at h; exact nomatch h
    | ok b => rw [hx] at h; injection h with h; simp only [addEncode, addEncodeItemsL_ok hx, Option.map_some, ← h]
  | _ + 1, .none => simp only [addEncodeL] at h; exact nomatch h
  | _ + 1, .float _ => simp only [addEncodeL] at h; exact nomatch h
theorem addEncodeListL_ok {lim : Limits} {d : Nat} {xs : List PyVal} {e : Bytes} (h : addEncodeListL lim d xs = .ok e) : addEncodeList xs = some e := by
  match xs with
  | [] => simp only [addEncodeListL] at h; injection h with h; simp only [addEncodeList, h]
  | x :: xs =>
    simp only [addEncodeListL] at h
    cases hx : addEncodeL lim d x with
    | error y => rw [hx] at h; exact nomatch h
    | ok a =>
      cases hy : addEncodeListL lim d xs with
      | error y => rw [hx, hy] at h; exact nomatch h
      | ok b =>
        rw [hx, hy] at h
        injection h with h
        simp only [addEncodeList, addEncodeL_ok hx, addEncodeListL_ok hy, ← h]
        rfl
theorem addEncodeItemsL_ok {lim : Limits} {d : Nat} {kvs : List (PyVal × PyVal)} {es : List (Bytes × Bytes)} (h : addEncodeItemsL lim d kvs = .ok es) :
    addEncodeItems kvs = some es := by
  match d, kvs with
  | _, [] => simp only [addEncodeItemsL] at h; injection h with h; simp only [addEncodeItems, h]
  | 0, (.bytes _, _) :: _ => simp only [addEncodeItemsL] at h; exact nomatch h
  | d + 1, (.bytes k, v) :: r =>
    simp only [addEncodeItemsL] at h
    cases hx : addEncodeL lim (d + 1) v with
    | error y => rw [hx] at h; exact nomatch h
    | ok a =>
      cases hy : addEncodeItemsL lim (d + 1) r with
      | error y => rw [hx, hy] at h; exact nomatch h
      | ok b =>
        rw [hx, hy] at h
        injection h with h
        simp only [addEncodeItems, addEncodeL_ok hx, addEncodeItemsL_ok hy, ← h]
        rfl
  | d, (.none, _) :: _ | d, (.bool _, _) :: _ | d, (.int _, _) :: _ | d, (.float _, _) :: _ | d, (.text _, _) :: _ | d, (.list _, _) :: _
  | d, (.tuple _, _) :: _ | d, (.dict _, _) :: _ => cases d <;> (simp only [addEncodeItemsL] at h; exact nomatch h)
end

mutual
theorem addEncodeL_fit {lim : Limits} {d : Nat} {v : PyVal} {e : Bytes} (hf : levels v ≤ d) (hs : Short lim v) (h : addEncode v = some e) :
    addEncodeL lim d v = .ok e := by
  match d, v with
  | 0, v => exact absurd (levels_pos v) (by omega)
  | _ + 1, .bytes b => simp only [addEncode] at h; injection h with h; simp only [addEncodeL, h]
  | _ + 1, .text s => simp only [addEncode] at h; injection h with h; simp only [addEncodeL, h]
  | _ + 1, .bool b => rw [addEncode] at h; injection h with h; rw [addEncodeL, h]
  | _ + 1, .int i =>
    rw [addEncode] at h
    injection h with h
    rw [addEncodeL, (short_int lim i).1 hs, h]
    rfl
  | d + 1, .list xs =>
    simp only [addEncode] at h
    simp only [levels] at hf
    cases hx : addEncodeList xs with
    | none => rw [hx] at h; exact nomatch h
    | some b =>
      rw [hx] at h; injection h with h
      simp only [addEncodeL, addEncodeListL_fit (d := d) (by omega) ((short_list lim xs).1 hs) hx, Except.map, h]
  | d + 1, .tuple xs =>
    simp only [addEncode] at h
    simp only [levels] at hf
    cases hx : addEncodeList xs with
    | none => rw [hx] at h; exact nomatch h
    | some b =>
      rw [hx] at h; injection h with h
      simp only [addEncodeL, addEncodeListL_fit (d := d) (by omega) ((short_tuple lim xs).1 hs) hx, Except.map, h]
  | d + 1, .dict kvs =>
    simp only [addEncode] at h
    simp only [levels] at hf
    cases hx : addEncodeItems kvs with
    | none => rw [hx] at h; exact nomatch h
    | some b =>
      rw [hx] at h; injection h with h
      simp only [addEncodeL, addEncodeItemsL_fit (d := d) (by omega) (by omega) ((short_dict lim kvs).1 hs) hx, Except.map, h]
  | _ + 1, .none => simp only [addEncode] at h; exact nomatch h
  | _ + 1, .float _ => simp only [addEncode] at h; exact nomatch h
theorem addEncodeListL_fit {lim : Limits} {d : Nat} {xs : List PyVal} {e : Bytes} (hf : levelsList xs ≤ d) (hs : ∀ x ∈ xs, Short lim x)
    (h : addEncodeList xs = some e) : addEncodeListL lim d xs = .ok e := by
  match xs with
  | [] => simp only [addEncodeList] at h; injection h with h; simp only [addEncodeListL, h]
  | x :: xs =>
    simp only [levelsList] at hf
    simp only [addEncodeList, Option.bind_eq_bind, Option.bind_eq_some_iff, Option.pure_def, Option.some.injEq] at h
    obtain ⟨a, ha, b, hb, rfl⟩ := h
    simp only [addEncodeListL, addEncodeL_fit (d := d) (by omega) (hs x (List.mem_cons_self ..)) ha,
      addEncodeListL_fit (d := d) (by omega) (fun y hy => hs y (List.mem_cons_of_mem _ hy)) hb]
    rfl
theorem addEncodeItemsL_fit {lim : Limits} {d : Nat} {kvs : List (PyVal × PyVal)} {es : List (Bytes × Bytes)} (hd : 1 ≤ d)
    (hf : levelsItems kvs ≤ d) (hs : ∀ x ∈ kvs, Short lim x.2) (h : addEncodeItems kvs = some es) : addEncodeItemsL lim d kvs = .ok es := by
  match d, kvs with
  | 0, _ => omega
  | _, [] => simp only [addEncodeItems] at h; injection h with h; simp only [addEncodeItemsL, h]
  | d + 1, (.bytes k, v) :: r =>
    simp only [levelsItems] at hf
    simp only [addEncodeItems, Option.bind_eq_bind, Option.bind_eq_some_iff, Option.pure_def, Option.some.injEq] at h
    obtain ⟨a, ha, b, hb, rfl⟩ := h
    simp only [addEncodeItemsL, addEncodeL_fit (d := d + 1) (v := v) (Nat.le_trans (Nat.le_max_left _ _) hf) (hs (.bytes k, v) (List.mem_cons_self ..)) ha,
      addEncodeItemsL_fit (d := d + 1) (by omega) (by omega) (fun y hy => hs y (List.mem_cons_of_mem _ hy)) hb]
    rfl
  | d + 1, (.none, _) :: _ | d + 1, (.bool _, _) :: _ | d + 1, (.int _, _) :: _ | d + 1, (.float _, _) :: _ | d + 1, (.text _, _) :: _
  | d + 1, (.list _, _) :: _ | d + 1, (.tuple _, _) :: _ | d + 1, (.dict _, _) :: _ => simp only [addEncodeItems] at h; exact nomatch h
end

/-! ### Nested lists -/

theorem nested (lim : Limits) (d : Nat) : ∀ (n f : Nat) (rest : Bytes), d ≤ n → 2 * d + 1 ≤ f →
    decodeL lim f d (List.replicate n 108 ++ rest) = .recursion := by
  induction d with
  | zero => intro n f rest _ hf; exact zero_rec hf _
  | succ d ih =>
    intro n f rest hn hf
    obtain ⟨m, rfl⟩ : ∃ m, n = m + 1 := ⟨n - 1, by omega⟩
    obtain ⟨g, rfl⟩ : ∃ g, f = g + 2 := ⟨f - 2, by omega⟩
    rw [List.replicate_succ, List.cons_append, decodeL, if_neg (by decide), if_neg (by decide), if_pos (by decide), listLoopL,
      ih m g rest (by omega) (by omega)]

/-! ### The client -/

theorem tooLong_reach {lim : Limits} {data : Bytes} (h : OutOfReach lim data) : ∀ k, k ≤ data.length → tooLong lim k = false := by
  intro k hk
  unfold tooLong
  cases hd : lim.digits with
  | none => rfl
  | some m =>
    have := h.2 m hd
    simp only [Bool.and_eq_false_iff, decide_eq_false_iff_not]
    omega

theorem step_same {lim : Limits} {env : WSClient.Env} {s : WSClient.St} {data : Bytes} (h : decode lim data = free (Bencode.decode data)) :
    step lim env s (.binary data) = WSClient.step env s (.binary data) := by
  have hb : onBinary lim data = Dispatcher.onBinary data := by
    unfold onBinary Dispatcher.onBinary
    rw [h]
    cases Bencode.decode data <;> rfl
  simp only [step, WSClient.step, WSClient.Ev.isSocket, if_true, WSClient.onEvent, hb]
  split
  · rfl
  · cases Dispatcher.onBinary data <;> rfl

theorem step_blank {lim : Limits} {env : WSClient.Env} {s : WSClient.St} {data : Bytes}
    (h : decode lim data = .recursion ∨ decode lim data = .raise .value) :
    step lim env s (.binary data) = WSClient.step env s (.binary []) := by
  have hb : onBinary lim data = Dispatcher.onBinary [] := by
    unfold onBinary
    rcases h with h | h <;> rw [h] <;> rfl
  have hd : Dispatcher.onBinary [] = .dropped := rfl
  simp only [step, WSClient.step, WSClient.Ev.isSocket, if_true, WSClient.onEvent, hb, hd]

theorem run_blanked (hist : List (Limits × WSClient.Env × WSClient.Ev)) : ∀ s, ∃ hist', Blanked hist hist' ∧ run s hist = WSClient.run s hist' := by
  induction hist with
  | nil => intro s; exact ⟨[], .nil, rfl⟩
  | cons x hist ih =>
    intro s
    obtain ⟨lim, env, e⟩ := x
    obtain ⟨hist', h1, h2⟩ := ih (step lim env s e).1
    have hcase : step lim env s e = WSClient.step env s e ∨ ∃ data, e = .binary data ∧ ¬ OutOfReach lim data ∧
        step lim env s e = WSClient.step env s (.binary []) := by
      cases e with
      | binary data =>
        rcases decode_rel lim data with h | h
        · exact .inl (step_same h)
        · by_cases ho : OutOfReach lim data
          · exact .inl (step_same (decode_reach ho.1 (tooLong_reach ho)))
          · exact .inr ⟨data, rfl, ho, step_blank h⟩
      | _ => exact .inl rfl
    rcases hcase with h | ⟨data, rfl, ho, h⟩ <;> rw [h] at h2
    · exact ⟨(env, e) :: hist', .same h1, by simp only [run, WSClient.run, h2, h]⟩
    · exact ⟨(env, .binary []) :: hist', .empty ho h1, by simp only [run, WSClient.run, h2, h]⟩

theorem encode_inv {lim : Limits} {v : PyVal} {data : Bytes} (h : encode lim v = .ok data) :
    addEncodeL lim lim.depth v = .ok data ∧ ∃ w, decode lim data = .ok w ∧ isNone w = false := by
  unfold encode at h
  cases ha : addEncodeL lim lim.depth v with
  | error e => rw [ha] at h; exact nomatch h
  | ok e =>
    rw [ha] at h
    simp only at h
    cases hd : decode lim e with
    | ok w =>
      rw [hd] at h
      simp only at h
      split at h
      · exact nomatch h
      · rename_i hn
        injection h with h
        subst h
        exact ⟨rfl, w, hd, by simpa using hn⟩
    | raise x => rw [hd] at h; exact nomatch h
    | recursion => rw [hd] at h; exact nomatch h
    | hang => rw [hd] at h; exact nomatch h

end Verif.Limits
