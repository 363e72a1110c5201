import Verif.Proofs.Bytes
import Verif.Spec.Bencode
/-! Lemmas for the bencode properties. -/
namespace Verif.Bencode
open Verif

/-! ### Sorting of dict items -/

theorem insertItem_perm (x : Bytes × Bytes) (l) : (insertItem x l).Perm (x :: l) := by
  induction l with
  | nil => exact List.Perm.refl _
  | cons y ys ih =>
    simp only [insertItem]; split
    · exact List.Perm.refl _
    · exact (List.Perm.cons y ih).trans (List.Perm.swap x y ys)

theorem sortItems_perm (l) : (sortItems l).Perm l := by
  induction l with
  | nil => exact List.Perm.refl _
  | cons x xs ih => exact (insertItem_perm x _).trans (List.Perm.cons x ih)

theorem insertItem_comm {x y : Bytes × Bytes} (h : x.1 ≠ y.1) (l) :
    insertItem x (insertItem y l) = insertItem y (insertItem x l) := by
  induction l with
  | nil =>
    rcases bytesLt_total h with h1 | h1
    · simp [insertItem, h1, bytesLt_asymm h1]
    · simp [insertItem, h1, bytesLt_asymm h1]
  | cons z zs ih =>
    by_cases hx : bytesLt x.1 z.1 = true <;> by_cases hy : bytesLt y.1 z.1 = true
    · rcases bytesLt_total h with h1 | h1
      · simp [insertItem, h1, bytesLt_asymm h1, hx, hy]
      · simp [insertItem, h1, bytesLt_asymm h1, hx, hy]
    · have hyx : bytesLt y.1 x.1 = false := by
        cases hh : bytesLt y.1 x.1 with
        | false => rfl
        | true => exact absurd (bytesLt_trans hh hx) hy
      simp [insertItem, hx, hy, hyx]
    · have hxy : bytesLt x.1 y.1 = false := by
        cases hh : bytesLt x.1 y.1 with
        | false => rfl
        | true => exact absurd (bytesLt_trans hh hy) hx
      simp [insertItem, hx, hy, hxy]
    · simp [insertItem, hx, hy, ih]

/-- Sorting forgets the insertion order. -/
theorem sortItems_eq_of_perm {l m : List (Bytes × Bytes)} (hp : l.Perm m) (hn : (l.map (·.1)).Nodup) :
    sortItems l = sortItems m := by
  induction hp with
  | nil => rfl
  | cons x _ ih => simp only [List.map_cons, List.nodup_cons] at hn; simp [sortItems, ih hn.2]
  | swap x y l =>
    simp only [List.map_cons, List.nodup_cons, List.mem_cons, not_or] at hn
    simp only [sortItems]
    exact insertItem_comm hn.1.1 _
  | trans h1 h2 ih1 ih2 => rw [ih1 hn, ih2 ((h1.map _).nodup_iff.1 hn)]

theorem perm_map_lift {α β} {f : α → β} {l : List β} {xs : List α} (h : l.Perm (xs.map f)) :
    ∃ ys : List α, ys.Perm xs ∧ ys.map f = l := by
  generalize hm : xs.map f = m at h
  induction h generalizing xs with
  | nil => exact ⟨[], by simp at hm; simp [hm], rfl⟩
  | @cons x l1 l2 _ ih =>
    cases xs with
    | nil => simp at hm
    | cons a as =>
      simp only [List.map_cons, List.cons.injEq] at hm
      obtain ⟨ys, h1, h2⟩ := ih hm.2
      exact ⟨a :: ys, h1.cons a, by simp [hm.1, h2]⟩
  | swap x y l =>
    match xs, hm with
    | [], hm => simp at hm
    | [_], hm => simp at hm
    | a :: b :: as, hm =>
      simp only [List.map_cons, List.cons.injEq] at hm
      exact ⟨b :: a :: as, List.Perm.swap a b as, by simp [hm.1, hm.2.1, hm.2.2]⟩
  | trans _ _ ih1 ih2 =>
    obtain ⟨ys, h1, h2⟩ := ih2 hm
    obtain ⟨zs, h3, h4⟩ := ih1 h2
    exact ⟨zs, h3.trans h1, h4⟩

/-! ### Dict building -/

theorem keyEq_eq {a b : PyVal} (h : keyEq a b = true) : a = b := by
  cases a <;> cases b <;> simp_all [keyEq]

theorem dictSet_append {k v : PyVal} {d : List (PyVal × PyVal)} (h : ∀ p ∈ d, keyEq k p.1 = false) :
    dictSet k v d = d ++ [(k, v)] := by
  induction d with
  | nil => rfl
  | cons p d ih =>
    obtain ⟨k', v'⟩ := p
    have h1 := h (k', v') (by simp)
    simp only [dictSet, h1, Bool.false_eq_true, if_false, List.cons_append]
    rw [ih (fun q hq => h q (by simp [hq]))]

theorem foldl_dictSet {kv d : List (PyVal × PyVal)} (h : ((d ++ kv).map (·.1)).Nodup) :
    kv.foldl (fun d p => dictSet p.1 p.2 d) d = d ++ kv := by
  induction kv generalizing d with
  | nil => simp
  | cons p kv ih =>
    simp only [List.foldl_cons]
    have hd : dictSet p.1 p.2 d = d ++ [p] := by
      apply dictSet_append
      intro q hq
      cases hk : keyEq p.1 q.1 with
      | false => rfl
      | true =>
        have := keyEq_eq hk
        rw [List.map_append, List.nodup_append] at h
        exact absurd this.symm (h.2.2 q.1 (List.mem_map_of_mem hq) p.1 (by simp))
    rw [hd, ih (by simpa using h)]
    simp

theorem mkDict_nodup {kv : List (PyVal × PyVal)} (hk : ∀ p ∈ kv, hashable p.1 = true)
    (h : (kv.map (·.1)).Nodup) : mkDict kv = some kv := by
  have h1 : kv.all (fun p => hashable p.1) = true := by simpa [List.all_eq_true] using hk
  rw [mkDict, if_pos h1, foldl_dictSet (by simpa using h)]
  rfl

/-! ### Reading numbers -/

theorem readInt_append (acc ds rest : Bytes) (h : ∀ b ∈ ds, (!isDigitB b && b != 45) = false) :
    readInt acc (ds ++ rest) = readInt (acc ++ ds) rest := by
  induction ds generalizing acc with
  | nil => simp
  | cons d ds ih =>
    have hd := h d (by simp)
    simp only [List.cons_append, readInt, hd, Bool.false_eq_true, if_false]
    rw [ih _ (fun b hb => h b (by simp [hb]))]; simp

theorem readInt_decInt (i : Int) (rest : Bytes) : readInt [] (decInt i ++ 101 :: rest) = .ok (.int i) rest := by
  rw [readInt_append _ _ _ (decInt_bytes i)]
  simp only [List.nil_append, readInt, pyInt_decInt]
  rfl

theorem sizeLoop_append (n : Nat) (acc ds rest : Bytes) (h : ∀ b ∈ ds, b ≠ 58) :
    sizeLoop (n + ds.length) acc (ds ++ rest) = sizeLoop n (acc ++ ds) rest := by
  induction ds generalizing acc with
  | nil => simp
  | cons d ds ih =>
    have hd : (d == 58) = false := by simpa using h d (by simp)
    rw [List.length_cons, ← Nat.add_assoc]
    simp only [List.cons_append, sizeLoop, hd, Bool.false_eq_true, if_false]
    rw [ih _ (fun b hb => h b (by simp [hb]))]; simp

theorem digit_ne_colon {b : UInt8} (h : isDigitB b = true) : b ≠ 58 := by
  intro hb; subst hb; revert h; decide

theorem readN_append (b rest : Bytes) (h : b.length ≤ maxSize) : readN (b.length : Int) (b ++ rest) = .ok (.bytes b) rest := by
  simp only [readN]
  rw [if_neg (by simp; omega), if_neg (by omega)]
  simp

/-- What it means that `e` is read back as `w`. -/
def Good (e : Bytes) (w : PyVal) : Prop :=
  0 < e.length ∧ isNone w = false ∧ ∀ rest n, 2 * e.length + 1 ≤ n → decodeF n (e ++ rest) = .ok w rest

/-- What it means that `e` is not accepted by the reader. -/
def Bad (e : Bytes) : Prop :=
  0 < e.length ∧ ∀ rest n, 2 * e.length + 1 ≤ n → decodeF n (e ++ rest) = .raise .decode

theorem digit_not_type {b : UInt8} (h : isDigitB b = true) :
    (b == 101) = false ∧ (b == 105) = false ∧ (b == 108) = false ∧ (b == 100) = false := by
  simp only [isDigitB, Bool.and_eq_true, decide_eq_true_eq] at h
  refine ⟨?_, ?_, ?_, ?_⟩ <;>
  · simp only [beq_eq_false_iff_ne, ne_eq]; intro hb; subst hb; revert h; decide

theorem good_encBytes {b : Bytes} (h : b.length ≤ maxSize) : Good (encBytes b) (.bytes b) := by
  refine ⟨by simp [encBytes]; omega, rfl, ?_⟩
  intro rest n hn
  obtain ⟨d, ds, hd⟩ : ∃ d ds, decNat b.length = d :: ds := by
    cases hx : decNat b.length with
    | nil => exact absurd hx (decNat_ne_nil _)
    | cons d ds => exact ⟨d, ds, rfl⟩
  have hall := decNat_all_digits b.length
  rw [hd] at hall
  have ⟨h1, h2, h3, h4⟩ := digit_not_type (hall d (by simp))
  simp only [encBytes, hd, List.cons_append, List.append_assoc, List.length_cons, List.length_append] at hn ⊢
  obtain ⟨m, rfl⟩ : ∃ m, n = (m + 1 + ds.length) + 1 := ⟨n - ds.length - 2, by omega⟩
  simp only [decodeF, h1, h2, h3, h4, Bool.false_eq_true, if_false]
  rw [sizeLoop_append _ _ _ _ (fun x hx => digit_ne_colon (hall x (by simp [hx])))]
  have : [d] ++ ds = decNat b.length := by rw [hd]; rfl
  rw [this]
  simp only [sizeLoop, beq_self_eq_true, if_true, pyInt_decNat, readN_append b rest h]

theorem good_int (i : Int) : Good (105 :: decInt i ++ [101]) (.int i) := by
  refine ⟨by simp, rfl, ?_⟩
  intro rest n hn
  simp only [List.cons_append, List.append_assoc, List.length_cons] at hn ⊢
  obtain ⟨m, rfl⟩ : ∃ m, n = m + 1 := ⟨n - 1, by omega⟩
  simp only [decodeF]
  rw [if_neg (by decide), if_pos (by decide)]
  exact readInt_decInt i rest

theorem bad_bool (b : Bool) : Bad (105 :: (if b then asc "True" else asc "False") ++ [101]) := by
  refine ⟨by simp, ?_⟩
  intro rest n hn
  obtain ⟨m, rfl⟩ : ∃ m, n = m + 1 := ⟨n - 1, by omega⟩
  cases b
  · show decodeF (m + 1) (105 :: 70 :: _) = _
    simp only [decodeF]
    rw [if_neg (by decide), if_pos (by decide)]
    simp only [readInt]
    rw [if_pos (by decide), if_pos (by decide)]
  · show decodeF (m + 1) (105 :: 84 :: _) = _
    simp only [decodeF]
    rw [if_neg (by decide), if_pos (by decide)]
    simp only [readInt]
    rw [if_pos (by decide), if_pos (by decide)]

/-- Encoded items of a list are read back by the list loop. -/
def GoodL (e : Bytes) (ws : List PyVal) : Prop :=
  ∀ rest n acc, 2 * e.length + 2 ≤ n → listLoop n acc (e ++ 101 :: rest) = .ok (.list (acc ++ ws)) rest

def BadL (e : Bytes) : Prop :=
  ∀ rest n acc, 2 * e.length + 2 ≤ n → listLoop n acc (e ++ rest) = .raise .decode

theorem goodL_nil : GoodL [] [] := by
  intro rest n acc hn
  simp only [List.length_nil] at hn
  obtain ⟨m, rfl⟩ : ∃ m, n = m + 2 := ⟨n - 2, by omega⟩
  simp [listLoop, decodeF, isNone]

theorem goodL_cons {a b : Bytes} {w ws} (ha : Good a w) (hb : GoodL b ws) : GoodL (a ++ b) (w :: ws) := by
  intro rest n acc hn
  obtain ⟨h0, hw, ha⟩ := ha
  simp only [List.length_append] at hn
  obtain ⟨m, rfl⟩ : ∃ m, n = m + 1 := ⟨n - 1, by omega⟩
  simp only [listLoop, List.append_assoc]
  rw [ha _ m (by omega)]
  simp only [hw, Bool.false_eq_true, if_false]
  rw [hb rest m _ (by omega)]; simp

theorem badL_head {a : Bytes} (b : Bytes) (ha : Bad a) : BadL (a ++ b) := by
  intro rest n acc hn
  simp only [List.length_append] at hn
  obtain ⟨m, rfl⟩ : ∃ m, n = m + 1 := ⟨n - 1, by omega⟩
  simp only [listLoop, List.append_assoc]
  rw [ha.2 _ m (by omega)]

theorem badL_tail {a b : Bytes} {w} (ha : Good a w) (hb : BadL b) : BadL (a ++ b) := by
  intro rest n acc hn
  obtain ⟨h0, hw, ha⟩ := ha
  simp only [List.length_append] at hn
  obtain ⟨m, rfl⟩ : ∃ m, n = m + 1 := ⟨n - 1, by omega⟩
  simp only [listLoop, List.append_assoc]
  rw [ha _ m (by omega)]
  simp only [hw, Bool.false_eq_true, if_false]
  rw [hb rest m _ (by omega)]

theorem good_list {b : Bytes} {ws} (h : GoodL b ws) : Good (108 :: b ++ [101]) (.list ws) := by
  refine ⟨by simp, rfl, ?_⟩
  intro rest n hn
  simp only [List.cons_append, List.length_cons, List.length_append, List.length_nil] at hn
  obtain ⟨m, rfl⟩ : ∃ m, n = m + 1 := ⟨n - 1, by omega⟩
  simp only [List.cons_append, decodeF, List.append_assoc]
  rw [if_neg (by decide), if_neg (by decide), if_pos (by decide)]
  have := h rest m [] (by omega)
  simpa using this

theorem bad_list {b : Bytes} (h : BadL b) : Bad (108 :: b ++ [101]) := by
  refine ⟨by simp, ?_⟩
  intro rest n hn
  simp only [List.cons_append, List.length_cons, List.length_append, List.length_nil] at hn
  obtain ⟨m, rfl⟩ : ∃ m, n = m + 1 := ⟨n - 1, by omega⟩
  simp only [List.cons_append, decodeF, List.append_assoc]
  rw [if_neg (by decide), if_neg (by decide), if_pos (by decide)]
  exact h _ m [] (by omega)

/-- A dict item: key, encoded value, and what the value is read back as (`none`: it is not accepted). -/
abbrev Trip := Bytes × Bytes × Option PyVal

def Trip.OK (t : Trip) : Prop :=
  t.1.length ≤ maxSize ∧ match t.2.2 with
    | some w => Good t.2.1 w
    | none => Bad t.2.1

def Trip.pair (t : Trip) : Bytes × Bytes := (t.1, t.2.1)

/-- The bytes of the items (bencode.py:86-87). -/
def itemsBytes (l : List (Bytes × Bytes)) : Bytes := l.flatMap (fun kv => encBytes kv.1 ++ kv.2)

theorem dictLoop_good (ts : List (Bytes × Bytes × PyVal)) (h : ∀ t ∈ ts, t.1.length ≤ maxSize ∧ Good t.2.1 t.2.2)
    (rest : Bytes) (n acc) (hn : 2 * (itemsBytes (ts.map fun t => (t.1, t.2.1))).length + 2 ≤ n) :
    dictLoop n acc (itemsBytes (ts.map fun t => (t.1, t.2.1)) ++ 101 :: rest) =
      match mkDict (acc ++ ts.map fun t => (.bytes t.1, t.2.2)) with
      | some d => .ok (.dict d) rest
      | none => .raise .unhashable := by
  induction ts generalizing n acc with
  | nil =>
    simp only [List.map_nil, itemsBytes, List.flatMap_nil, List.length_nil] at hn
    obtain ⟨m, rfl⟩ : ∃ m, n = m + 2 := ⟨n - 2, by omega⟩
    simp [dictLoop, decodeF, isNone, itemsBytes]
    rfl
  | cons t ts ih =>
    obtain ⟨k, e, w⟩ := t
    have ⟨hk, he⟩ := h (k, e, w) (by simp)
    obtain ⟨ek0, ekn, hk⟩ := good_encBytes hk
    obtain ⟨e0, en, he⟩ := he
    simp only [List.map_cons, itemsBytes, List.flatMap_cons, List.length_append] at hn ⊢
    simp only at e0 en he ek0 ekn hk
    obtain ⟨m, rfl⟩ : ∃ m, n = m + 1 := ⟨n - 1, by omega⟩
    simp only [dictLoop, List.append_assoc]
    rw [hk _ m (by omega)]
    simp only [ekn, Bool.false_eq_true, if_false]
    rw [he _ m (by omega)]
    simp only
    have := ih (fun t ht => h t (by simp [ht])) m (acc ++ [(.bytes k, w)]) (by simp only [itemsBytes]; omega)
    simp only [itemsBytes] at this
    rw [this]
    simp

theorem dictLoop_bad (ts : List Trip) (h : ∀ t ∈ ts, t.OK) (hb : ∃ t ∈ ts, t.2.2 = none)
    (rest : Bytes) (n acc) (hn : 2 * (itemsBytes (ts.map Trip.pair)).length + 2 ≤ n) :
    dictLoop n acc (itemsBytes (ts.map Trip.pair) ++ rest) = .raise .decode := by
  induction ts generalizing n acc with
  | nil => simp at hb
  | cons t ts ih =>
    obtain ⟨k, e, w⟩ := t
    have ⟨hk, he⟩ := h (k, e, w) (by simp)
    obtain ⟨ek0, ekn, hk⟩ := good_encBytes hk
    simp only [List.map_cons, itemsBytes, List.flatMap_cons, List.length_append, Trip.pair] at hn ⊢
    simp only at he ek0 ekn hk
    obtain ⟨m, rfl⟩ : ∃ m, n = m + 1 := ⟨n - 1, by omega⟩
    simp only [dictLoop, List.append_assoc]
    rw [hk _ m (by omega)]
    simp only [ekn, Bool.false_eq_true, if_false]
    cases w with
    | none =>
      simp only at he
      rw [he.2 _ m (by omega)]
    | some w =>
      obtain ⟨e0, en, he⟩ := he
      rw [he _ m (by omega)]
      simp only
      refine ih (fun t ht => h t (by simp [ht])) ?_ m _ (by simp only [itemsBytes]; omega)
      obtain ⟨t, ht, htn⟩ := hb
      rcases List.mem_cons.1 ht with rfl | ht
      · simp at htn
      · exact ⟨t, ht, htn⟩

/-! ### The main induction -/

/-- For an encodable value: either it is supported and read back as its bencode view, or it contains a bool and
the reader rejects its encoding. -/
def Fate (v : PyVal) (e : Bytes) : Prop :=
  (Supported v ∧ ∃ w, Same v w ∧ Good e w) ∨ (¬ Supported v ∧ Bad e)

def FateL (xs : List PyVal) (e : Bytes) : Prop :=
  (SupportedList xs ∧ ∃ ws, SameList xs ws ∧ GoodL e ws) ∨ (¬ SupportedList xs ∧ BadL e)

def FateI (kvs : List (PyVal × PyVal)) (es : List (Bytes × Bytes)) : Prop :=
  ∃ ts : List Trip, ts.map Trip.pair = es ∧ (∀ t ∈ ts, t.OK) ∧ (kvs.map (·.1) = ts.map (fun t => .bytes t.1)) ∧
    ((SupportedItems kvs ∧ ∃ us : List (Bytes × Bytes × PyVal), ts = us.map (fun u => (u.1, u.2.1, some u.2.2)) ∧
        SameItems kvs (us.map fun u => (.bytes u.1, u.2.2)))
      ∨ (¬ SupportedItems kvs ∧ ∃ t ∈ ts, t.2.2 = none))

theorem nodup_map_bytes {l : List Bytes} : (l.map PyVal.bytes).Nodup ↔ l.Nodup := by
  rw [List.Nodup, List.pairwise_map]
  simp [List.Nodup]

theorem fate_dict {kvs es} (h : FateI kvs es) (hn : (kvs.map (·.1)).Nodup) :
    Fate (.dict kvs) (100 :: itemsBytes (sortItems es) ++ [101]) := by
  obtain ⟨ts, rfl, hok, hkeys, hcase⟩ := h
  obtain ⟨ss, hperm, hss⟩ := perm_map_lift (sortItems_perm (ts.map Trip.pair))
  rw [← hss]
  rcases hcase with ⟨hsup, us, rfl, hsame⟩ | ⟨hns, hbad⟩
  · left
    refine ⟨.dict hsup, ?_⟩
    obtain ⟨vs, hvp, rfl⟩ := perm_map_lift hperm
    have hmap : (vs.map (fun u => ((u.1, u.2.1, some u.2.2) : Trip))).map Trip.pair = vs.map (fun t => (t.1, t.2.1)) := by
      simp [Trip.pair, Function.comp_def]
    rw [hmap]
    refine ⟨.dict (vs.map fun u => (.bytes u.1, u.2.2)), .dict hsame (hvp.symm.map _), by simp, rfl, ?_⟩
    intro rest n hlen
    simp only [List.cons_append, List.length_cons, List.length_append, List.length_nil] at hlen
    obtain ⟨m, rfl⟩ : ∃ m, n = m + 1 := ⟨n - 1, by omega⟩
    simp only [List.cons_append, decodeF, List.append_assoc]
    rw [if_neg (by decide), if_neg (by decide), if_neg (by decide), if_pos (by decide)]
    have hgood : ∀ t ∈ vs, t.1.length ≤ maxSize ∧ Good t.2.1 t.2.2 := by
      intro t ht
      have := hok (t.1, t.2.1, some t.2.2) (List.mem_map_of_mem (f := fun u => ((u.1, u.2.1, some u.2.2) : Trip)) (hvp.mem_iff.1 ht))
      exact this
    have := dictLoop_good vs hgood rest m [] (by omega)
    simp only [List.nil_append] at this ⊢
    rw [this]
    have hmk : mkDict (vs.map fun u => (.bytes u.1, u.2.2)) = some (vs.map fun u => (PyVal.bytes u.1, u.2.2)) := by
      apply mkDict_nodup
      · intro p hp
        obtain ⟨u, _, rfl⟩ := List.mem_map.1 hp
        rfl
      · rw [List.map_map]
        rw [hkeys, List.map_map] at hn
        exact ((hvp.map _).nodup_iff).2 hn
    rw [hmk]
  · right
    refine ⟨?_, by simp, ?_⟩
    · intro hs; cases hs with | dict h => exact hns h
    · intro rest n hlen
      simp only [List.cons_append, List.length_cons, List.length_append, List.length_nil] at hlen
      obtain ⟨m, rfl⟩ : ∃ m, n = m + 1 := ⟨n - 1, by omega⟩
      simp only [List.cons_append, decodeF, List.append_assoc]
      rw [if_neg (by decide), if_neg (by decide), if_neg (by decide), if_pos (by decide)]
      obtain ⟨t, ht, htn⟩ := hbad
      exact dictLoop_bad ss (fun t ht => hok t (hperm.mem_iff.1 ht)) ⟨t, hperm.mem_iff.2 ht, htn⟩ _ m [] (by omega)

mutual
theorem fate (v : PyVal) (e : Bytes) (h : addEncode v = some e) (hw : WF v) : Fate v e := by
  match v with
  | .bytes b =>
    simp only [addEncode, Option.some.injEq] at h; subst h
    cases hw with
    | bytes hb => exact .inl ⟨.bytes b, _, .bytes b, good_encBytes hb⟩
  | .text s =>
    simp only [addEncode, Option.some.injEq] at h; subst h
    cases hw with
    | text hb => exact .inl ⟨.text s, _, .text s, good_encBytes hb⟩
  | .int i =>
    simp only [addEncode, Option.some.injEq] at h; subst h
    exact .inl ⟨.int i, _, .int i, good_int i⟩
  | .bool b =>
    simp only [addEncode, Option.some.injEq] at h; subst h
    exact .inr ⟨(by intro hs; cases hs), bad_bool b⟩
  | .none => simp [addEncode] at h
  | .float t => simp [addEncode] at h
  | .list xs =>
    simp only [addEncode, Option.map_eq_some_iff] at h
    obtain ⟨b, hb, rfl⟩ := h
    cases hw with
    | list hwl =>
      rcases fateL xs b hb hwl with ⟨h1, ws, h2, h3⟩ | ⟨h1, h2⟩
      · exact .inl ⟨.list h1, _, .list h2, good_list h3⟩
      · exact .inr ⟨(by intro hs; cases hs with | list h => exact h1 h), bad_list h2⟩
  | .tuple xs =>
    simp only [addEncode, Option.map_eq_some_iff] at h
    obtain ⟨b, hb, rfl⟩ := h
    cases hw with
    | tuple hwl =>
      rcases fateL xs b hb hwl with ⟨h1, ws, h2, h3⟩ | ⟨h1, h2⟩
      · exact .inl ⟨.tuple h1, _, .tuple h2, good_list h3⟩
      · exact .inr ⟨(by intro hs; cases hs with | tuple h => exact h1 h), bad_list h2⟩
  | .dict kvs =>
    simp only [addEncode, Option.map_eq_some_iff] at h
    obtain ⟨es, hes, rfl⟩ := h
    cases hw with
    | dict hwi hn => exact fate_dict (fateI kvs es hes hwi) hn
theorem fateL (xs : List PyVal) (e : Bytes) (h : addEncodeList xs = some e) (hw : WFList xs) : FateL xs e := by
  match xs with
  | [] =>
    simp only [addEncodeList, Option.some.injEq] at h; subst h
    exact .inl ⟨.nil, [], .nil, goodL_nil⟩
  | x :: xs =>
    simp only [addEncodeList, Option.bind_eq_bind, Option.bind_eq_some_iff, Option.pure_def, Option.some.injEq] at h
    obtain ⟨a, ha, b, hb, rfl⟩ := h
    cases hw with
    | cons hx hxs =>
      rcases fate x a ha hx with ⟨h1, w, h2, h3⟩ | ⟨h1, h2⟩
      · rcases fateL xs b hb hxs with ⟨g1, ws, g2, g3⟩ | ⟨g1, g2⟩
        · exact .inl ⟨.cons h1 g1, _, .cons h2 g2, goodL_cons h3 g3⟩
        · exact .inr ⟨(by intro hs; cases hs with | cons _ h => exact g1 h), badL_tail h3 g2⟩
      · exact .inr ⟨(by intro hs; cases hs with | cons h _ => exact h1 h), badL_head b h2⟩
theorem fateI (kvs : List (PyVal × PyVal)) (es : List (Bytes × Bytes)) (h : addEncodeItems kvs = some es) (hw : WFItems kvs) :
    FateI kvs es := by
  match kvs with
  | [] =>
    simp only [addEncodeItems, Option.some.injEq] at h; subst h
    exact ⟨[], rfl, by simp, rfl, .inl ⟨.nil, [], rfl, .nil⟩⟩
  | (.bytes k, v) :: r =>
    simp only [addEncodeItems, Option.bind_eq_bind, Option.bind_eq_some_iff, Option.pure_def, Option.some.injEq] at h
    obtain ⟨e, he, es', hes, rfl⟩ := h
    cases hw with
    | cons hk hv hr =>
      have hk : k.length ≤ maxSize := by cases hk with | bytes h => exact h
      obtain ⟨ts, rfl, hok, hkeys, hcase⟩ := fateI r es' hes hr
      rcases fate v e he hv with ⟨h1, w, h2, h3⟩ | ⟨h1, h2⟩
      · refine ⟨(k, e, some w) :: ts, rfl, ?_, by simp [hkeys], ?_⟩
        · intro t ht
          rcases List.mem_cons.1 ht with rfl | ht
          · exact ⟨hk, h3⟩
          · exact hok t ht
        · rcases hcase with ⟨g1, us, rfl, g2⟩ | ⟨g1, t, ht, g2⟩
          · exact .inl ⟨.cons h1 g1, (k, e, w) :: us, rfl, .cons h2 g2⟩
          · exact .inr ⟨(by intro hs; cases hs with | cons _ h => exact g1 h), t, by simp [ht], g2⟩
      · refine ⟨(k, e, none) :: ts, rfl, ?_, by simp [hkeys], ?_⟩
        · intro t ht
          rcases List.mem_cons.1 ht with rfl | ht
          · exact ⟨hk, h2⟩
          · exact hok t ht
        · exact .inr ⟨(by intro hs; cases hs with | cons h _ => exact h1 h), (k, e, none), by simp, rfl⟩
  | (.none, _) :: _ => simp [addEncodeItems] at h
  | (.bool _, _) :: _ => simp [addEncodeItems] at h
  | (.int _, _) :: _ => simp [addEncodeItems] at h
  | (.float _, _) :: _ => simp [addEncodeItems] at h
  | (.text _, _) :: _ => simp [addEncodeItems] at h
  | (.list _, _) :: _ => simp [addEncodeItems] at h
  | (.tuple _, _) :: _ => simp [addEncodeItems] at h
  | (.dict _, _) :: _ => simp [addEncodeItems] at h
end

mutual
theorem addEncode_supported {v : PyVal} (h : Supported v) : ∃ e, addEncode v = some e := by
  match v, h with
  | .bytes b, _ => exact ⟨_, rfl⟩
  | .text b, _ => exact ⟨_, rfl⟩
  | .int b, _ => exact ⟨_, rfl⟩
  | .list xs, .list h => obtain ⟨e, he⟩ := addEncodeList_supported h; exact ⟨_, by simp only [addEncode, he, Option.map_some]; rfl⟩
  | .tuple xs, .tuple h => obtain ⟨e, he⟩ := addEncodeList_supported h; exact ⟨_, by simp only [addEncode, he, Option.map_some]; rfl⟩
  | .dict kvs, .dict h => obtain ⟨e, he⟩ := addEncodeItems_supported h; exact ⟨_, by simp only [addEncode, he, Option.map_some]; rfl⟩
theorem addEncodeList_supported {xs : List PyVal} (h : SupportedList xs) : ∃ e, addEncodeList xs = some e := by
  match xs, h with
  | [], _ => exact ⟨_, rfl⟩
  | x :: xs, .cons h1 h2 =>
    obtain ⟨a, ha⟩ := addEncode_supported h1
    obtain ⟨b, hb⟩ := addEncodeList_supported h2
    exact ⟨_, by simp only [addEncodeList, ha, hb, Option.bind_eq_bind, Option.bind_some]; rfl⟩
theorem addEncodeItems_supported {kvs : List (PyVal × PyVal)} (h : SupportedItems kvs) : ∃ e, addEncodeItems kvs = some e := by
  match kvs, h with
  | [], _ => exact ⟨_, rfl⟩
  | (.bytes k, v) :: r, .cons h1 h2 =>
    obtain ⟨a, ha⟩ := addEncode_supported h1
    obtain ⟨b, hb⟩ := addEncodeItems_supported h2
    exact ⟨_, by simp only [addEncodeItems, ha, hb, Option.bind_eq_bind, Option.bind_some]; rfl⟩
end

theorem decode_good {e w} (h : Good e w) : decode e = .ok w := by
  have := h.2.2 [] (enough e) (by simp only [enough]; omega)
  rw [List.append_nil] at this
  simp only [decode, this]

theorem decode_bad {e} (h : Bad e) : decode e = .raise .decode := by
  have := h.2 [] (enough e) (by simp only [enough]; omega)
  rw [List.append_nil] at this
  simp only [decode, this]

theorem encode_good {v e} (h : addEncode v = some e) {w} (hg : Good e w) : encode v = .ok e := by
  simp only [encode, h, decode_good hg, hg.2.1, Bool.false_eq_true, if_false]

theorem encode_ok_addEncode {v e} (h : encode v = .ok e) : addEncode v = some e := by
  unfold encode at h
  split at h
  · simp at h
  · rename_i data hd
    split at h
    · split at h
      · simp at h
      · injection h with h; rw [hd, h]
    · simp at h
    · simp at h

theorem encode_ok {v e} (hw : WF v) (h : encode v = .ok e) : addEncode v = some e ∧ Supported v ∧ ∃ w, Same v w ∧ Good e w := by
  have ha := encode_ok_addEncode h
  refine ⟨ha, ?_⟩
  rcases fate v e ha hw with hf | ⟨_, hb⟩
  · exact hf
  · simp [encode, ha, decode_bad hb] at h

/-! ### Fuel -/

theorem readInt_consumes {acc inp v r} (h : readInt acc inp = .ok v r) : r.length < inp.length := by
  induction inp generalizing acc with
  | nil => simp [readInt] at h
  | cons c inp ih =>
    simp only [readInt] at h
    split at h
    · split at h
      · simp at h
      · split at h
        · simp only [DRes.ok.injEq] at h; obtain ⟨_, rfl⟩ := h; simp
        · simp at h
    · have := ih h; simp only [List.length_cons]; omega

theorem readN_consumes {size inp v r} (h : readN size inp = .ok v r) : r.length ≤ inp.length := by
  simp only [readN] at h
  split at h
  · simp at h
  · split at h
    · simp only [DRes.ok.injEq] at h; obtain ⟨_, rfl⟩ := h; simp
    · simp only [DRes.ok.injEq] at h; obtain ⟨_, rfl⟩ := h; simp

theorem sizeLoop_consumes {n acc inp v r} (h : sizeLoop n acc inp = .ok v r) : r.length ≤ inp.length := by
  induction n generalizing acc inp with
  | zero => simp [sizeLoop] at h
  | succ n ih =>
    cases inp with
    | nil => simp only [sizeLoop] at h; exact ih h
    | cons c inp =>
      simp only [sizeLoop] at h
      split at h
      · split at h
        · have := readN_consumes h; simp only [List.length_cons]; omega
        · simp at h
      · have := ih h; simp only [List.length_cons]; omega

theorem consumes (n : Nat) :
    (∀ inp v r, decodeF n inp = .ok v r → r.length < inp.length) ∧
    (∀ acc inp v r, listLoop n acc inp = .ok v r → r.length < inp.length) ∧
    (∀ acc inp v r, dictLoop n acc inp = .ok v r → r.length < inp.length) := by
  induction n with
  | zero => simp [decodeF, listLoop, dictLoop]
  | succ n ih =>
    obtain ⟨ih1, ih2, ih3⟩ := ih
    refine ⟨?_, ?_, ?_⟩
    · intro inp v r h
      cases inp with
      | nil => simp [decodeF] at h
      | cons t inp =>
        simp only [List.length_cons]
        simp only [decodeF] at h
        split at h
        · simp only [DRes.ok.injEq] at h; obtain ⟨_, rfl⟩ := h; omega
        · split at h
          · have := readInt_consumes h; omega
          · split at h
            · have := ih2 _ _ _ _ h; omega
            · split at h
              · have := ih3 _ _ _ _ h; omega
              · have := sizeLoop_consumes h; omega
    · intro acc inp v r h
      simp only [listLoop] at h
      split at h
      · rename_i v' r' hd
        have := ih1 _ _ _ hd
        split at h
        · simp only [DRes.ok.injEq] at h; obtain ⟨_, rfl⟩ := h; exact this
        · have := ih2 _ _ _ _ h; omega
      · simp at h
      · simp at h
    · intro acc inp v r h
      simp only [dictLoop] at h
      split at h
      · rename_i v' r' hd
        have := ih1 _ _ _ hd
        split at h
        · split at h
          · simp only [DRes.ok.injEq] at h; obtain ⟨_, rfl⟩ := h; exact this
          · simp at h
        · split at h
          · rename_i hd2
            have := ih1 _ _ _ hd2
            have := ih3 _ _ _ _ h; omega
          · simp at h
          · simp at h
      · simp at h
      · simp at h

theorem sizeLoop_nil (n acc) : sizeLoop n acc [] = .out := by
  induction n with
  | zero => rfl
  | succ n ih => simpa only [sizeLoop] using ih

theorem sizeLoop_fuel {n acc inp m} (h : sizeLoop n acc inp ≠ .out) (hm : inp.length ≤ m) :
    sizeLoop m acc inp = sizeLoop n acc inp := by
  induction n generalizing acc inp m with
  | zero => simp [sizeLoop] at h
  | succ n ih =>
    cases inp with
    | nil => exact absurd (sizeLoop_nil _ _) h
    | cons c inp =>
      simp only [List.length_cons] at hm
      obtain ⟨m, rfl⟩ : ∃ k, m = k + 1 := ⟨m - 1, by omega⟩
      simp only [sizeLoop] at h ⊢
      split
      · rfl
      · rename_i hc
        rw [if_neg hc] at h
        exact ih h (by omega)

/-- A run that ended with some fuel ends in the same way with every fuel that is at least twice the length of the
input plus one (plus two for the loops). -/
theorem fuel (n : Nat) :
    (∀ inp m, decodeF n inp ≠ .out → 2 * inp.length + 1 ≤ m → decodeF m inp = decodeF n inp) ∧
    (∀ acc inp m, listLoop n acc inp ≠ .out → 2 * inp.length + 2 ≤ m → listLoop m acc inp = listLoop n acc inp) ∧
    (∀ acc inp m, dictLoop n acc inp ≠ .out → 2 * inp.length + 2 ≤ m → dictLoop m acc inp = dictLoop n acc inp) := by
  induction n with
  | zero => simp [decodeF, listLoop, dictLoop]
  | succ n ih =>
    obtain ⟨ih1, ih2, ih3⟩ := ih
    refine ⟨?_, ?_, ?_⟩
    · intro inp m h hm
      obtain ⟨m, rfl⟩ : ∃ k, m = k + 1 := ⟨m - 1, by omega⟩
      cases inp with
      | nil => simp [decodeF]
      | cons t inp =>
        simp only [List.length_cons] at hm
        simp only [decodeF] at h ⊢
        repeat' split
        · rfl
        · rfl
        · rename_i h1 h2 h3
          rw [if_neg h1, if_neg h2, if_pos h3] at h
          exact ih2 _ _ _ h (by omega)
        · rename_i h1 h2 h3 h4
          rw [if_neg h1, if_neg h2, if_neg h3, if_pos h4] at h
          exact ih3 _ _ _ h (by omega)
        · rename_i h1 h2 h3 h4
          rw [if_neg h1, if_neg h2, if_neg h3, if_neg h4] at h
          exact sizeLoop_fuel h (by omega)
    · intro acc inp m h hm
      obtain ⟨m, rfl⟩ : ∃ k, m = k + 1 := ⟨m - 1, by omega⟩
      simp only [listLoop] at h ⊢
      have hd : decodeF n inp ≠ .out := by intro hd; simp [hd] at h
      rw [ih1 inp m hd (by omega)]
      split
      · rename_i v r hv
        simp only [hv] at h
        have := (consumes n).1 _ _ _ hv
        split
        · rfl
        · rename_i hn
          rw [if_neg hn] at h
          exact ih2 _ _ _ h (by omega)
      · rfl
      · rfl
    · intro acc inp m h hm
      obtain ⟨m, rfl⟩ : ∃ k, m = k + 1 := ⟨m - 1, by omega⟩
      simp only [dictLoop] at h ⊢
      have hd : decodeF n inp ≠ .out := by intro hd; simp [hd] at h
      rw [ih1 inp m hd (by omega)]
      split
      · rename_i v r hv
        simp only [hv] at h
        have := (consumes n).1 _ _ _ hv
        split
        · rfl
        · rename_i hn
          rw [if_neg hn] at h
          have hd2 : decodeF n r ≠ .out := by intro hd2; simp [hd2] at h
          rw [ih1 r m hd2 (by omega)]
          split
          · rename_i v' r' hv'
            simp only [hv'] at h
            have := (consumes n).1 _ _ _ hv'
            exact ih3 _ _ _ h (by omega)
          · rfl
          · rfl
      · rfl
      · rfl

/-- `enough data` is enough fuel: `decode` hangs exactly when no number of steps suffices. -/
theorem fuel_enough (data : Bytes) : decode data = .hang ↔ ∀ n, decodeF n data = .out := by
  constructor
  · intro h n
    by_cases hn : decodeF n data = .out
    · exact hn
    · have := (fuel n).1 data (enough data) hn (by simp only [enough]; omega)
      simp only [decode, this] at h
      split at h
      · simp at h
      · simp at h
      · rename_i ho; exact absurd ho hn
  · intro h
    simp only [decode, h]

theorem decode_ok_iff {data v} : decode data = .ok v ↔ ∃ n r, decodeF n data = .ok v r := by
  constructor
  · intro h
    simp only [decode] at h
    split at h
    · rename_i v' r hd; injection h with h; subst h; exact ⟨_, r, hd⟩
    · simp at h
    · simp at h
  · rintro ⟨n, r, h⟩
    have := (fuel n).1 data (enough data) (by simp [h]) (by simp only [enough]; omega)
    simp only [decode, this, h]

/-! ### More input after a prefix -/

theorem readInt_more {acc p v r} (s : Bytes) (h : readInt acc p = .ok v r) : readInt acc (p ++ s) = .ok v (r ++ s) := by
  induction p generalizing acc with
  | nil => simp [readInt] at h
  | cons c p ih =>
    simp only [readInt, List.cons_append] at h ⊢
    split at h
    · rename_i hc
      rw [if_pos hc]
      split at h
      · simp at h
      · rename_i he
        rw [if_neg he]
        split at h
        · rename_i hp
          simp only [DRes.ok.injEq] at h ⊢
          obtain ⟨h1, h2⟩ := h
          exact ⟨h1, by rw [h2]⟩
        · simp at h
    · rename_i hc
      rw [if_neg hc]
      exact ih h

theorem readInt_int {acc p v r} (h : readInt acc p = .ok v r) : ∃ i, v = .int i := by
  induction p generalizing acc with
  | nil => simp [readInt] at h
  | cons c p ih =>
    simp only [readInt] at h
    split at h
    · split at h
      · simp at h
      · split at h
        · simp only [DRes.ok.injEq] at h; exact ⟨_, h.1.symm⟩
        · simp at h
    · exact ih h

theorem readN_more {size p v r} (s : Bytes) (h : readN size p = .ok v r) :
    (readN size (p ++ s) = .ok v (r ++ s) ∨ r = []) ∧ ∃ b, v = .bytes b := by
  simp only [readN] at h ⊢
  split at h
  · simp at h
  · rename_i hb
    rw [if_neg hb]
    split at h
    · simp only [DRes.ok.injEq] at h
      exact ⟨.inr h.2.symm, _, h.1.symm⟩
    · rename_i hneg
      rw [if_neg hneg]
      simp only [DRes.ok.injEq] at h
      obtain ⟨rfl, rfl⟩ := h
      refine ⟨?_, _, rfl⟩
      by_cases hl : size.toNat ≤ p.length
      · left; rw [List.take_append_of_le_length hl, List.drop_append_of_le_length hl]
      · right; exact List.drop_eq_nil_of_le (by omega)

theorem sizeLoop_more {n acc p v r} (s : Bytes) (h : sizeLoop n acc p = .ok v r) :
    (sizeLoop n acc (p ++ s) = .ok v (r ++ s) ∨ r = []) ∧ ∃ b, v = .bytes b := by
  induction n generalizing acc p with
  | zero => simp [sizeLoop] at h
  | succ n ih =>
    cases p with
    | nil => rw [sizeLoop_nil] at h; simp at h
    | cons c p =>
      simp only [sizeLoop, List.cons_append] at h ⊢
      split at h
      · rename_i hc
        rw [if_pos hc]
        split at h
        · exact readN_more s h
        · simp at h
      · rename_i hc
        rw [if_neg hc]
        exact ih h

theorem decodeF_nil_ne_ok {n v r} : decodeF n [] ≠ .ok v r := by cases n <;> simp [decodeF]
theorem listLoop_nil_ne_ok {n acc v r} : listLoop n acc [] ≠ .ok v r := by
  intro h; have := (consumes n).2.1 _ _ _ _ h; simp at this
theorem dictLoop_nil_ne_ok {n acc v r} : dictLoop n acc [] ≠ .ok v r := by
  intro h; have := (consumes n).2.2 _ _ _ _ h; simp at this

/-- If the reader returns on `p`, then it returns the same on `p ++ s`, leaving `s` unread as well; the only exception is a
byte string cut short at the end of `p`. -/
theorem more (n : Nat) (s : Bytes) :
    (∀ p v r, decodeF n p = .ok v r → decodeF n (p ++ s) = .ok v (r ++ s) ∨ (r = [] ∧ ∃ b, v = .bytes b)) ∧
    (∀ acc p v r, listLoop n acc p = .ok v r → listLoop n acc (p ++ s) = .ok v (r ++ s) ∧ ∃ l, v = .list l) ∧
    (∀ acc p v r, dictLoop n acc p = .ok v r → dictLoop n acc (p ++ s) = .ok v (r ++ s) ∧ ∃ l, v = .dict l) := by
  induction n with
  | zero => simp [decodeF, listLoop, dictLoop]
  | succ n ih =>
    obtain ⟨ih1, ih2, ih3⟩ := ih
    refine ⟨?_, ?_, ?_⟩
    · intro p v r h
      cases p with
      | nil => simp [decodeF] at h
      | cons t p =>
        simp only [decodeF, List.cons_append] at h ⊢
        split at h
        · rename_i h1
          rw [if_pos h1]
          simp only [DRes.ok.injEq] at h; obtain ⟨rfl, rfl⟩ := h
          exact .inl rfl
        · rename_i h1
          rw [if_neg h1]
          split at h
          · rename_i h2
            rw [if_pos h2]
            exact .inl (readInt_more s h)
          · rename_i h2
            rw [if_neg h2]
            split at h
            · rename_i h3
              rw [if_pos h3]
              exact .inl (ih2 _ _ _ _ h).1
            · rename_i h3
              rw [if_neg h3]
              split at h
              · rename_i h4
                rw [if_pos h4]
                exact .inl (ih3 _ _ _ _ h).1
              · rename_i h4
                rw [if_neg h4]
                have ⟨h5, h6⟩ := sizeLoop_more s h
                rcases h5 with h5 | h5
                · exact .inl h5
                · exact .inr ⟨h5, h6⟩
    · intro acc p v r h
      simp only [listLoop] at h ⊢
      split at h
      · rename_i v' r' hd
        rcases ih1 _ _ _ hd with hm | ⟨rfl, b, rfl⟩
        · rw [hm]
          simp only
          split at h
          · rename_i hn
            rw [if_pos hn]
            simp only [DRes.ok.injEq] at h; obtain ⟨rfl, rfl⟩ := h
            exact ⟨rfl, _, rfl⟩
          · rename_i hn
            rw [if_neg hn]
            exact ih2 _ _ _ _ h
        · simp only [isNone, Bool.false_eq_true, if_false] at h
          exact absurd h listLoop_nil_ne_ok
      · simp at h
      · simp at h
    · intro acc p v r h
      simp only [dictLoop] at h ⊢
      split at h
      · rename_i v' r' hd
        rcases ih1 _ _ _ hd with hm | ⟨rfl, b, rfl⟩
        · rw [hm]
          simp only
          split at h
          · rename_i hn
            rw [if_pos hn]
            split at h
            · simp only [DRes.ok.injEq] at h; obtain ⟨rfl, rfl⟩ := h
              exact ⟨rfl, _, rfl⟩
            · simp at h
          · rename_i hn
            rw [if_neg hn]
            split at h
            · rename_i v2 r2 hd2
              rcases ih1 _ _ _ hd2 with hm2 | ⟨rfl, b, rfl⟩
              · rw [hm2]
                exact ih3 _ _ _ _ h
              · exact absurd h dictLoop_nil_ne_ok
            · simp at h
            · simp at h
        · simp only [isNone, Bool.false_eq_true, if_false] at h
          split at h
          · rename_i hd2; exact absurd hd2 decodeF_nil_ne_ok
          · simp at h
          · simp at h
      · simp at h
      · simp at h

end Verif.Bencode
