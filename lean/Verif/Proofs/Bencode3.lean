import Verif.Proofs.Bencode2
/-! The bencode format (C89). -/
namespace Verif.Bencode
open Verif

theorem dec_decNat (n : Nat) : Dec n (decNat n) := by
  refine ⟨decNat_ne_nil n, fun d hd => ?_, ?_, ?_⟩
  · have := decNat_all_digits n d hd
    simpa [isDigitB] using this
  · induction n using decNat_induct with
    | h1 n h =>
      rw [decNat_eq, if_pos h]
      simp
      omega
    | h2 n h ih =>
      rw [decNat_eq, if_neg h, List.foldl_append, ih]
      simp only [List.foldl_cons, List.foldl_nil]
      rw [u8_ofNat_toNat (by omega)]
      omega
  · induction n using decNat_induct with
    | h1 n h =>
      rw [decNat_eq, if_pos h]
      intro h0
      simpa using h0
    | h2 n h ih =>
      rw [decNat_eq, if_neg h]
      intro h0
      have h0 : (decNat (n / 10)).head? = some 48 := by
        cases hd : decNat (n / 10) with
        | nil => exact absurd hd (decNat_ne_nil _)
        | cons a l => rw [hd] at h0; simpa using h0
      have hz := ih h0
      have hv : n / 10 = 0 := by
        have := pyInt_decNat (n / 10)
        rw [hz] at this
        have h2 : pyInt [48] = some 0 := by decide
        rw [h2] at this
        simp at this
        omega
      omega

theorem insertItem_sorted {x : Bytes × Bytes} {l : List (Bytes × Bytes)} (h : l.Pairwise (fun a b => bytesLt a.1 b.1 = true))
    (hx : ∀ y ∈ l, x.1 ≠ y.1) : (insertItem x l).Pairwise (fun a b => bytesLt a.1 b.1 = true) := by
  induction l with
  | nil => simp [insertItem]
  | cons y ys ih =>
    simp only [insertItem]
    rw [List.pairwise_cons] at h
    split
    · rename_i hlt
      refine List.pairwise_cons.2 ⟨?_, List.pairwise_cons.2 h⟩
      intro z hz
      rcases List.mem_cons.1 hz with rfl | hz
      · exact hlt
      · exact bytesLt_trans hlt (h.1 z hz)
    · rename_i hlt
      refine List.pairwise_cons.2 ⟨?_, ih h.2 (fun z hz => hx z (by simp [hz]))⟩
      intro z hz
      rcases List.mem_cons.1 ((insertItem_perm x ys).mem_iff.1 hz) with rfl | hz
      · rcases bytesLt_total (hx y (by simp)) with h1 | h1
        · exact absurd h1 hlt
        · exact h1
      · exact h.1 z hz

theorem sortItems_sorted {l : List (Bytes × Bytes)} (hn : (l.map (·.1)).Nodup) :
    (sortItems l).Pairwise (fun a b => bytesLt a.1 b.1 = true) := by
  induction l with
  | nil => simp [sortItems]
  | cons x xs ih =>
    simp only [List.map_cons, List.nodup_cons] at hn
    refine insertItem_sorted (ih hn.2) fun y hy => ?_
    intro he
    exact hn.1 (he ▸ List.mem_map_of_mem (f := (·.1)) ((sortItems_perm xs).mem_iff.1 hy))

theorem wire_enc (b : Bytes) : encBytes b = decNat b.length ++ asc ":" ++ b := by
  simp only [encBytes, show asc ":" = [58] by decide]; simp

theorem wire_items {us : List (Bytes × Bytes × PyVal)} (h : ∀ u ∈ us, Wire u.2.2 u.2.1) :
    WireItems (us.map fun u => (u.1, u.2.2)) (us.flatMap fun u => encBytes u.1 ++ u.2.1) := by
  induction us with
  | nil => exact .nil
  | cons u us ih =>
    have := WireItems.cons (dec_decNat u.1.length) (h u (by simp)) (ih fun x hx => h x (by simp [hx]))
    simpa [wire_enc] using this

mutual
theorem wire (v : PyVal) (e : Bytes) (h : addEncode v = some e) (hw : WF v) (hs : Supported v) : Wire v e := by
  match v, hs with
  | .bytes b, _ =>
    simp only [addEncode, Option.some.injEq] at h; subst h
    rw [wire_enc]; exact .bytes (dec_decNat _)
  | .text s, _ =>
    simp only [addEncode, Option.some.injEq] at h; subst h
    rw [wire_enc]; exact .text (dec_decNat _)
  | .int (.ofNat n), _ =>
    simp only [addEncode, Option.some.injEq] at h; subst h
    exact .nat (dec_decNat n)
  | .int (.negSucc n), _ =>
    simp only [addEncode, Option.some.injEq] at h; subst h
    exact Wire.neg (n := n + 1) (by omega) (dec_decNat (n + 1))
  | .list xs, .list hs =>
    simp only [addEncode, Option.map_eq_some_iff] at h
    obtain ⟨b, hb, rfl⟩ := h
    cases hw with
    | list hwl => exact .list (wireL xs b hb hwl hs)
  | .tuple xs, .tuple hs =>
    simp only [addEncode, Option.map_eq_some_iff] at h
    obtain ⟨b, hb, rfl⟩ := h
    cases hw with
    | tuple hwl => exact .tuple (wireL xs b hb hwl hs)
  | .dict kvs, .dict hs =>
    simp only [addEncode, Option.map_eq_some_iff] at h
    obtain ⟨es, hes, rfl⟩ := h
    cases hw with
    | dict hwi hn =>
      obtain ⟨us, rfl, rfl, hu⟩ := wireI kvs es hes hwi hs
      obtain ⟨vs, hvp, hvs⟩ := perm_map_lift (sortItems_perm (us.map fun u => (u.1, u.2.1)))
      rw [← hvs, List.flatMap_map]
      refine .dict (items := vs.map fun u => (u.1, u.2.2)) ?_ ?_ (wire_items fun u hu' => hu u (hvp.mem_iff.1 hu'))
      · rw [List.map_map]; exact (hvp.symm.map _)
      · have hnk : ((us.map fun u => (u.1, u.2.1)).map (·.1)).Nodup := by
          rw [← nodup_map_bytes]
          simpa [List.map_map, Function.comp_def] using hn
        have := sortItems_sorted hnk
        rw [← hvs, List.pairwise_map] at this
        rw [List.pairwise_map]
        exact this
theorem wireL (xs : List PyVal) (e : Bytes) (h : addEncodeList xs = some e) (hw : WFList xs) (hs : SupportedList xs) :
    WireList xs e := by
  match xs, hs with
  | [], _ => simp only [addEncodeList, Option.some.injEq] at h; subst h; exact .nil
  | x :: xs, .cons h1 h2 =>
    simp only [addEncodeList, Option.bind_eq_bind, Option.bind_eq_some_iff, Option.pure_def, Option.some.injEq] at h
    obtain ⟨a, ha, b, hb, rfl⟩ := h
    cases hw with
    | cons hx hxs => exact .cons (wire x a ha hx h1) (wireL xs b hb hxs h2)
theorem wireI (kvs : List (PyVal × PyVal)) (es : List (Bytes × Bytes)) (h : addEncodeItems kvs = some es) (hw : WFItems kvs)
    (hs : SupportedItems kvs) : ∃ us : List (Bytes × Bytes × PyVal), kvs = us.map (fun u => (.bytes u.1, u.2.2)) ∧
      es = us.map (fun u => (u.1, u.2.1)) ∧ ∀ u ∈ us, Wire u.2.2 u.2.1 := by
  match kvs, hs with
  | [], _ => simp only [addEncodeItems, Option.some.injEq] at h; subst h; exact ⟨[], rfl, rfl, by simp⟩
  | (.bytes k, v) :: r, .cons h1 h2 =>
    simp only [addEncodeItems, Option.bind_eq_bind, Option.bind_eq_some_iff, Option.pure_def, Option.some.injEq] at h
    obtain ⟨e, he, es', hes, rfl⟩ := h
    cases hw with
    | cons hk hv hr =>
      obtain ⟨us, rfl, rfl, hu⟩ := wireI r es' hes hr h2
      refine ⟨(k, e, v) :: us, rfl, rfl, ?_⟩
      intro u hu'
      rcases List.mem_cons.1 hu' with rfl | hu'
      · exact wire _ _ he hv h1
      · exact hu u hu'
end

end Verif.Bencode
