import Verif.Proofs.Bencode2
import Verif.Proofs.Bencode3
/-!
The notation of a value is unique: lemmas for C89.
-/
namespace Verif.Bencode
open Verif

theorem dec_value_snoc (q : Bytes) (d : UInt8) : (q ++ [d]).foldl (fun a d => a * 10 + (d.toNat - 48)) 0 =
    q.foldl (fun a d => a * 10 + (d.toNat - 48)) 0 * 10 + (d.toNat - 48) := by simp [List.foldl_append]

theorem snoc_of_ne_nil {α} (l : List α) (h : l ≠ []) : ∃ q d, l = q ++ [d] :=
  ⟨l.dropLast, l.getLast h, (List.dropLast_concat_getLast h).symm⟩

theorem dec_unique {n : Nat} {ds : Bytes} (h : Dec n ds) : ds = decNat n := by
  induction hl : ds.length using Nat.strongRecOn generalizing ds n with
  | ind l ih =>
    subst hl
    obtain ⟨h1, h2, h3, h4⟩ := h
    obtain ⟨q, d, rfl⟩ := snoc_of_ne_nil ds h1
    rw [dec_value_snoc] at h3
    have hd := h2 d (by simp)
    have hu : ∀ k, k = d.toNat - 48 → UInt8.ofNat (48 + k) = d := by
      rintro _ rfl
      rw [show 48 + (d.toNat - 48) = d.toNat by omega]
      exact UInt8.ofNat_toNat
    cases q with
    | nil =>
      simp at h3
      rw [decNat_eq, if_pos (by omega), hu n (by omega)]; rfl
    | cons a q =>
      have hq : Dec ((a :: q).foldl (fun a d => a * 10 + (d.toNat - 48)) 0) (a :: q) := by
        refine ⟨by simp, fun x hx => h2 x (List.mem_append_left _ hx), rfl, fun hh => ?_⟩
        have := h4 (by simpa using hh)
        simp at this
      have e := ih _ (by simp) hq rfl
      generalize hm : (a :: q).foldl (fun a d => a * 10 + (d.toNat - 48)) 0 = m at *
      have hpos : 0 < m := by
        rcases Nat.eq_zero_or_pos m with h0 | h0
        · rw [h0] at e
          have : decNat 0 = [48] := by decide
          rw [this] at e
          have := h4 (by rw [e]; rfl)
          rw [e] at this
          simp at this
        · exact h0
      rw [decNat_eq, if_neg (by omega), show n / 10 = m by omega, ← e, hu (n % 10) (by omega)]

theorem insertItem_least {x : Bytes × Bytes} {l : List (Bytes × Bytes)} (h : ∀ y ∈ l, bytesLt x.1 y.1 = true) : insertItem x l = x :: l := by
  cases l with
  | nil => rfl
  | cons y l => simp [insertItem, h y (by simp)]

theorem sortItems_fixed {l : List (Bytes × Bytes)} (h : l.Pairwise (fun a b => bytesLt a.1 b.1 = true)) : sortItems l = l := by
  induction l with
  | nil => rfl
  | cons x l ih =>
    rw [List.pairwise_cons] at h
    simp only [sortItems, ih h.2]
    exact insertItem_least h.1

theorem sorted_nodup {l : List (Bytes × Bytes)} (h : l.Pairwise (fun a b => bytesLt a.1 b.1 = true)) : (l.map (·.1)).Nodup := by
  rw [List.Nodup, List.pairwise_map]
  exact h.imp fun hlt he => by rw [he, bytesLt_irrefl] at hlt; exact Bool.noConfusion hlt

theorem un_bytes {b ds : Bytes} (h : Dec b.length ds) : encBytes b = ds ++ asc ":" ++ b := by
  rw [wire_enc, dec_unique h]

/-- The items of a dict with their encodings. -/
def ItemsOf (items : List (Bytes × PyVal)) (body : Bytes) : Prop :=
  ∃ es, addEncodeItems (items.map fun kv => (.bytes kv.1, kv.2)) = some es ∧ es.map (·.1) = items.map (·.1) ∧
    es.flatMap (fun kv => encBytes kv.1 ++ kv.2) = body

theorem un_dict {kvs : List (PyVal × PyVal)} {items : List (Bytes × PyVal)} {body : Bytes}
    (h1 : kvs.Perm (items.map fun kv => (.bytes kv.1, kv.2))) (h2 : items.Pairwise (fun a b => bytesLt a.1 b.1 = true))
    (h3 : ItemsOf items body) : addEncode (.dict kvs) = some (asc "d" ++ body ++ asc "e") := by
  obtain ⟨es, he, hk, hb⟩ := h3
  obtain ⟨es', he', hp⟩ := items_perm h1.symm he
  have hs : es.Pairwise (fun a b => bytesLt a.1 b.1 = true) := by
    have : (items.map (·.1)).Pairwise (fun a b => bytesLt a b = true) := by rw [List.pairwise_map]; exact h2
    rw [← hk, List.pairwise_map] at this
    exact this
  have : sortItems es' = es := by rw [← sortItems_eq_of_perm hp (sorted_nodup hs), sortItems_fixed hs]
  simp only [addEncode, he', Option.map_some, this, hb]
  rfl

theorem un_cons {k : Bytes} {v : PyVal} {r : List (Bytes × PyVal)} {ds a b : Bytes} (h1 : Dec k.length ds) (h2 : addEncode v = some a)
    (h3 : ItemsOf r b) : ItemsOf ((k, v) :: r) (ds ++ asc ":" ++ k ++ a ++ b) := by
  obtain ⟨es, he, hk, hb⟩ := h3
  refine ⟨(k, a) :: es, items_cons_intro h2 he, by simp [hk], ?_⟩
  simp only [List.flatMap_cons, hb, un_bytes h1]

theorem un_nat {n : Nat} {ds : Bytes} (h : Dec n ds) : addEncode (.int n) = some (asc "i" ++ ds ++ asc "e") := by
  rw [dec_unique h]; rfl

theorem un_neg {n : Nat} {ds : Bytes} (h0 : 0 < n) (h : Dec n ds) : addEncode (.int (-n)) = some (asc "i-" ++ ds ++ asc "e") := by
  obtain ⟨m, rfl⟩ : ∃ m, n = m + 1 := ⟨n - 1, by omega⟩
  rw [dec_unique h]; rfl

theorem wire_unique {v : PyVal} {e : Bytes} (h : Wire v e) : addEncode v = some e :=
  Wire.rec (motive_1 := fun v e _ => addEncode v = some e) (motive_2 := fun xs b _ => addEncodeList xs = some b)
    (motive_3 := fun items body _ => ItemsOf items body)
    (fun h => by simp only [addEncode, un_bytes h]) (fun h => by simp only [addEncode, un_bytes h]) un_nat un_neg
    (fun _ ih => by simp only [addEncode, ih, Option.map_some]; rfl)
    (fun _ ih => by simp only [addEncode, ih, Option.map_some]; rfl)
    (fun h1 h2 _ ih => un_dict h1 h2 ih)
    rfl (fun _ _ ih1 ih2 => by simp [addEncodeList, ih1, ih2])
    ⟨[], rfl, rfl, rfl⟩ (fun h1 _ _ ih1 ih2 => un_cons h1 ih1 ih2) h

theorem wire_supported {v : PyVal} {e : Bytes} (h : Wire v e) : Supported v :=
  Wire.rec (motive_1 := fun v _ _ => Supported v) (motive_2 := fun xs _ _ => SupportedList xs)
    (motive_3 := fun items _ _ => SupportedItems (items.map fun (kv : Bytes × PyVal) => (PyVal.bytes kv.1, kv.2)))
    (fun _ => .bytes _) (fun _ => .text _) (fun _ => .int _) (fun _ _ => .int _) (fun _ ih => .list ih) (fun _ ih => .tuple ih)
    (fun h1 _ _ ih => .dict (supportedItems_perm h1.symm ih))
    .nil (fun _ _ ih1 ih2 => .cons ih1 ih2) .nil (fun _ _ _ ih1 ih2 => .cons ih1 ih2) h

end Verif.Bencode
