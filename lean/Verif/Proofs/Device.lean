import Verif.Spec.Device
import Verif.Proofs.Text
/-!
Lemmas for C80-C86 and C95.
-/
namespace Verif.Device
open Verif

theorem isSep_iff (c : Char) : isSep c = true ↔ Separator c := by simp [isSep, Separator]

theorem isSep_false {c : Char} (h : ¬ Separator c) : isSep c = false := by
  cases hs : isSep c with
  | false => rfl
  | true => exact absurd ((isSep_iff c).1 hs) h

/-- The pieces that are not empty. -/
theorem laid_pieces {t : Text} {ws : List Text} (h : Laid t ws) : (splitP isSep t).filter (fun t => !t.isEmpty) = ws := by
  induction h with
  | empty => rfl
  | separator hc _ ih => simp only [splitP, (isSep_iff _).2 hc, if_true]; simpa using ih
  | @last w hw =>
    rw [splitP_word isSep w (fun c hc => isSep_false (hw.2 c hc))]
    simp [hw.1]
  | @word w c t ws hw hc _ ih =>
    rw [splitP_append isSep w c t (fun c hc => isSep_false (hw.2 c hc)) ((isSep_iff c).2 hc)]
    simp [hw.1, ih]

theorem laid_words {t : Text} {ws : List Text} (h : Laid t ws) : ∀ w ∈ ws, Word w := by
  induction h with
  | empty => exact fun w hw => nomatch hw
  | separator _ _ ih => exact ih
  | last hw => exact fun w h => (List.mem_singleton.1 h) ▸ hw
  | word hw _ _ ih => exact List.forall_mem_cons.2 ⟨hw, ih⟩

/-- Each text is made of words. -/
theorem laid_exists (t : Text) : ∃ ws, Laid t ws := by
  have key : ∀ n (t : Text), t.length ≤ n → ∃ ws, Laid t ws := by
    intro n
    induction n with
    | zero =>
      intro t ht
      cases t with
      | nil => exact ⟨_, .empty⟩
      | cons c t => simp at ht
    | succ n ih =>
      intro t ht
      have e : t = t.takeWhile (fun c => !isSep c) ++ t.dropWhile (fun c => !isSep c) := List.takeWhile_append_dropWhile.symm
      have hw : ∀ c ∈ t.takeWhile (fun c => !isSep c), ¬ Separator c := by
        intro c hc
        have := List.all_eq_true.1 (List.all_takeWhile (p := fun c => !isSep c) (l := t)) c hc
        rw [← isSep_iff]
        simpa using this
      cases hd : t.dropWhile (fun c => !isSep c) with
      | nil =>
        rw [hd, List.append_nil] at e
        rw [← e] at hw
        cases t with
        | nil => exact ⟨_, .empty⟩
        | cons c t => exact ⟨_, .last ⟨by simp, hw⟩⟩
      | cons c r =>
        have hc : Separator c := by
          rw [← isSep_iff]
          have : ∀ (l : Text) c r, l.dropWhile (fun c => !isSep c) = c :: r → isSep c = true := by
            intro l
            induction l with
            | nil => intro c r h; simp at h
            | cons x l ih =>
              intro c r h
              simp only [List.dropWhile_cons] at h
              split at h
              · exact ih c r h
              · rename_i hx
                injection h with h1 h2
                subst h1
                simpa using hx
          exact this t c r hd
        rw [hd] at e
        obtain ⟨ws, hws⟩ := ih r (by
          have := congrArg List.length e
          simp only [List.length_append, List.length_cons] at this
          omega)
        rw [e]
        cases hx : t.takeWhile (fun c => !isSep c) with
        | nil => exact ⟨ws, .separator hc hws⟩
        | cons x w =>
          rw [hx] at hw
          exact ⟨_, .word ⟨by simp, hw⟩ hc hws⟩
  exact key t.length t (Nat.le_refl _)

theorem strip_word {w : Text} (h : ∀ c ∈ w, ¬ Separator c) : stripWith isSpaceC w = w := by
  have hs : ∀ x ∈ w, isSpaceC x = false := by
    intro x hx
    cases hx' : isSpaceC x with
    | false => rfl
    | true => exact absurd (.inr hx') (h x hx)
  have := stripWith_eq isSpaceC (a := []) (b := []) (t := w) (by simp) (by simp) (fun x hx => hs x (List.mem_of_mem_head? hx))
    (fun x hx => hs x (List.mem_of_mem_getLast? hx))
  simpa using this

/-! ### cpuinfo -/

theorem isSpaceB_iff (x : UInt8) : isSpaceB x = true ↔ x ∈ blanks := by
  have h : ∀ n < 256, isSpaceB (UInt8.ofNat n) = true ↔ UInt8.ofNat n ∈ blanks := by decide +kernel
  have := h x.toNat x.toNat_lt
  rwa [UInt8.ofNat_toNat] at this

theorem lowerB_eq (x : UInt8) : lowerB x = (letters.lookup x).getD x := by
  have h : ∀ n < 256, lowerB (UInt8.ofNat n) = (letters.lookup (UInt8.ofNat n)).getD (UInt8.ofNat n) := by decide +kernel
  have := h x.toNat x.toNat_lt
  rwa [UInt8.ofNat_toNat] at this

theorem lower_eq (s : Bytes) : lower s = s.map lowerB := by
  unfold lower
  exact List.map_congr_left fun x _ => (lowerB_eq x).symm

theorem trimmed_iff (s t : Bytes) : Trimmed s t ↔ t = stripWith isSpaceB s := by
  simp only [Trimmed, ← isSpaceB_iff, Bool.not_eq_true]
  constructor
  · rintro ⟨a, b, e, ha, hb, h1, h2⟩
    rw [e, stripWith_eq isSpaceB ha hb h1 h2]
  · rintro rfl
    exact stripWith_parts isSpaceB s

theorem partition_some (line key value : Bytes) : partitionColon line = some (key, value) ↔ line = key ++ 58 :: value ∧ 58 ∉ key := by
  unfold partitionColon
  induction line generalizing key value with
  | nil => simp
  | cons x l ih =>
    by_cases hx : x = 58
    · subst hx
      simp only [List.contains_cons, BEq.rfl, Bool.true_or, if_true, List.takeWhile_cons, List.dropWhile_cons, bne_self_eq_false,
        Bool.false_eq_true, if_false, List.drop_succ_cons, List.drop_zero, Option.some.injEq, Prod.mk.injEq]
      constructor
      · rintro ⟨rfl, rfl⟩; simp
      · rintro ⟨h1, h2⟩
        cases key with
        | nil => simp only [List.nil_append, List.cons.injEq, true_and] at h1; exact ⟨rfl, h1⟩
        | cons y k =>
          simp only [List.cons_append, List.cons.injEq] at h1
          exact absurd (by simp [h1.1]) h2
    · have hb : (x != 58) = true := by simp [hx]
      have hc : (58 == x) = false := by simp [Ne.symm hx]
      simp only [List.contains_cons, hc, Bool.false_or, List.takeWhile_cons, List.dropWhile_cons, hb, if_true]
      constructor
      · intro h
        split at h
        · rename_i hl
          injection h with h
          injection h with h1 h2
          obtain ⟨h3, h4⟩ := (ih (l.takeWhile (· != 58)) value).1 (by rw [if_pos hl, h2])
          subst h1
          refine ⟨by simp only [List.cons_append, ← h3], ?_⟩
          simp [h4, Ne.symm hx]
        · exact nomatch h
      · rintro ⟨h1, h2⟩
        cases key with
        | nil => simp only [List.nil_append, List.cons.injEq] at h1; exact absurd h1.1 hx
        | cons y k =>
          simp only [List.cons_append, List.cons.injEq] at h1
          obtain ⟨rfl, h1⟩ := h1
          have := (ih k value).2 ⟨h1, fun h => h2 (List.mem_cons_of_mem _ h)⟩
          split at this
          · rename_i hl
            injection this with this
            injection this with h3 h4
            rw [if_pos hl, h3, h4]
          · exact nomatch this

/-- The value of a line. -/
theorem revisionIn_iff (line v : Bytes) : revisionIn line = some v ↔ IsEntry line v := by
  unfold revisionIn
  constructor
  · intro h
    cases hp : partitionColon line with
    | none => rw [hp] at h; exact nomatch h
    | some kv =>
      obtain ⟨key, value⟩ := kv
      rw [hp] at h
      simp only at h
      split at h
      · rename_i hk
        injection h with h
        obtain ⟨h1, h2⟩ := (partition_some line key value).1 hp
        exact ⟨key, value, _, _, h1, h2, (trimmed_iff _ _).2 rfl, (lower_eq _).trans hk, (trimmed_iff _ _).2 rfl,
          h.symm.trans (lower_eq _).symm⟩
      · exact nomatch h
  · rintro ⟨key, value, k, v', h1, h2, h3, h4, h5, h6⟩
    rw [(partition_some line key value).2 ⟨h1, h2⟩]
    rw [trimmed_iff] at h3 h5
    subst h3; subst h5; subst h6
    rw [lower_eq] at h4
    have h4 : (stripWith isSpaceB key).map lowerB = revisionKey := h4
    simp only [h4, if_true, lower_eq]

theorem strip_newline (s : Bytes) : stripWith isSpaceB (s ++ [10]) = stripWith isSpaceB s := by
  obtain ⟨a, b, e, ha, hb, h1, h2⟩ := stripWith_parts isSpaceB s
  have : s ++ [10] = a ++ stripWith isSpaceB s ++ (b ++ [10]) := by
    rw [← List.append_assoc, ← e]
  rw [this, stripWith_eq isSpaceB ha ?_ h1 h2]
  intro x hx
  rcases List.mem_append.1 hx with hx | hx
  · exact hb x hx
  · rw [List.mem_singleton] at hx; subst hx; rfl

theorem revisionIn_newline (l : Bytes) : revisionIn (l ++ [10]) = revisionIn l := by
  have : ∀ v, revisionIn (l ++ [10]) = some v ↔ revisionIn l = some v := by
    intro v
    rw [revisionIn_iff, revisionIn_iff]
    constructor
    · rintro ⟨key, value, k, v', h1, h2, h3, h4, h5, h6⟩
      have hv : value ≠ [] := by
        rintro rfl
        have := congrArg List.getLast? h1
        simp at this
      have e : value = value.dropLast ++ [value.getLast hv] := (List.dropLast_concat_getLast hv).symm
      rw [e, ← List.cons_append, ← List.append_assoc] at h1
      obtain ⟨h7, h8⟩ := List.append_inj' h1 rfl
      simp only [List.cons.injEq, and_true] at h8
      refine ⟨key, value.dropLast, k, v', h7, h2, h3, h4, ?_, h6⟩
      rw [trimmed_iff] at h5 ⊢
      rw [h5]
      conv => lhs; rw [e, ← h8, strip_newline]
    · rintro ⟨key, value, k, v', h1, h2, h3, h4, h5, h6⟩
      refine ⟨key, value ++ [10], k, v', by rw [h1]; simp, h2, h3, h4, ?_, h6⟩
      rw [trimmed_iff] at h5 ⊢
      rw [strip_newline, h5]
  cases h : revisionIn l with
  | some v => exact (this v).2 h
  | none =>
    cases h' : revisionIn (l ++ [10]) with
    | none => rfl
    | some v => rw [(this v).1 h'] at h; exact nomatch h

theorem lines_append (l r : Bytes) (h : 10 ∉ l) : lines (l ++ 10 :: r) = (l ++ [10]) :: lines r := by
  induction l with
  | nil => simp [lines]
  | cons x l ih =>
    have hx : (x == 10) = false := by
      have : x ≠ 10 := fun e => h (by simp [e])
      simp [this]
    simp only [List.cons_append, lines, hx, Bool.false_eq_true, if_false]
    rw [ih (fun hm => h (List.mem_cons_of_mem _ hm))]

theorem lines_last (l : Bytes) (h : 10 ∉ l) (hne : l ≠ []) : lines l = [l] := by
  induction l with
  | nil => exact absurd rfl hne
  | cons x l ih =>
    have hx : (x == 10) = false := by
      have : x ≠ 10 := fun e => h (by simp [e])
      simp [this]
    simp only [lines, hx, Bool.false_eq_true, if_false]
    cases l with
    | nil => rfl
    | cons y l => rw [ih (fun hm => h (List.mem_cons_of_mem _ hm)) (by simp)]

/-- The first revision found in a file. -/
theorem find_file (ls : List Bytes) (last : Bytes) (hl : ∀ l ∈ ls, 10 ∉ l) (hlast : 10 ∉ last) :
    (lines (fileOf ls last)).findSome? revisionIn = (ls ++ [last]).findSome? revisionIn := by
  induction ls with
  | nil =>
    simp only [fileOf, List.map_nil, List.flatten_nil, List.nil_append]
    cases last with
    | nil => rfl
    | cons x l => rw [lines_last _ hlast (by simp)]
  | cons l ls ih =>
    rw [List.forall_mem_cons] at hl
    have : fileOf (l :: ls) last = l ++ 10 :: fileOf ls last := by simp [fileOf]
    rw [this, lines_append _ _ hl.1]
    simp only [List.findSome?_cons, List.cons_append, revisionIn_newline, ih hl.2]

theorem fileOf_exists (data : Bytes) : ∃ ls last, data = fileOf ls last ∧ (∀ l ∈ ls, 10 ∉ l) ∧ 10 ∉ last := by
  induction data with
  | nil => exact ⟨[], [], rfl, by simp, by simp⟩
  | cons b r ih =>
    obtain ⟨ls, last, e, h1, h2⟩ := ih
    by_cases hb : b = 10
    · subst hb
      exact ⟨[] :: ls, last, by simp [fileOf, e], by simpa using h1, h2⟩
    · cases ls with
      | nil =>
        refine ⟨[], b :: last, ?_, by simp, by simp [Ne.symm hb, h2]⟩
        rw [e]; simp [fileOf]
      | cons l ls =>
        rw [List.forall_mem_cons] at h1
        refine ⟨(b :: l) :: ls, last, ?_, ?_, h2⟩
        · rw [e]; simp [fileOf]
        · rw [List.forall_mem_cons]
          exact ⟨by simp [Ne.symm hb, h1.1], h1.2⟩

/-! ### Interfaces -/

theorem byte_decimal : ∀ n : Fin 256, (decNat n.val).map (fun y => Char.ofNat y.toNat) = (toString n.val).toList := by decide +kernel

theorem byte_decimal' (x : UInt8) : (decNat x.toNat).map (fun y => Char.ofNat y.toNat) = (toString x.toNat).toList :=
  byte_decimal ⟨x.toNat, x.toNat_lt⟩

theorem inetNtoa_eq (r : Record) : inetNtoa [r.a, r.b, r.c, r.d] = some r.address := by
  have e : [r.a, r.b, r.c, r.d].map (fun x => (decNat x.toNat).map (fun y => Char.ofNat y.toNat)) =
      [r.a, r.b, r.c, r.d].map (fun x => (toString x.toNat).toList) := List.map_congr_left (fun x _ => byte_decimal' x)
  simp only [inetNtoa, e, Record.address]
  simp [String.toList_append]

theorem interface_eq {size : Nat} {r : Record} (h : r.Valid size) :
    interface r.bytes = some (r.name.map asciiReplace, r.address) := by
  obtain ⟨h1, h2, h3, h4⟩ := h
  have e20 : r.bytes.drop 20 = [r.a, r.b, r.c, r.d] ++ r.filler := by
    have hl : (r.name ++ List.replicate (16 - r.name.length) 0 ++ r.family).length = 20 := by simp [h3]; omega
    unfold Record.bytes
    rw [List.append_assoc _ [r.a, r.b, r.c, r.d], List.drop_left' hl]
  have en : r.bytes.takeWhile (· != 0) = r.name := by
    unfold Record.bytes
    have hr : List.replicate (16 - r.name.length) (0 : UInt8) = 0 :: List.replicate (15 - r.name.length) 0 := by
      have : 16 - r.name.length = (15 - r.name.length) + 1 := by omega
      rw [this, List.replicate_succ]
    rw [hr]
    simp only [List.append_assoc, List.cons_append]
    rw [List.takeWhile_append_of_pos]
    · simp
    · intro x hx
      have : x ≠ 0 := fun e => h2 (e ▸ hx)
      simpa using this
  simp only [interface, e20, en]
  have : ([r.a, r.b, r.c, r.d] ++ r.filler).take 4 = [r.a, r.b, r.c, r.d] := List.take_left' rfl
  rw [this, inetNtoa_eq]
  rfl

theorem bytes_length {size : Nat} {r : Record} (h : r.Valid size) : r.bytes.length = size := by
  obtain ⟨h1, h2, h3, h4⟩ := h
  simp only [Record.bytes, List.length_append, List.length_replicate, List.length_cons, List.length_nil, h3]
  omega

theorem interfacesF_eq {size : Nat} (hs : 0 < size) (rs : List Record) (hv : ∀ r ∈ rs, r.Valid size) (rest : Bytes) (fuel : Nat)
    (hf : rs.length < fuel ∨ rs.length = fuel) :
    interfacesF size fuel (size * rs.length) ((rs.map Record.bytes).flatten ++ rest) =
      some (rs.map (fun r => (r.name.map asciiReplace, r.address))) := by
  induction rs generalizing fuel with
  | nil => cases fuel <;> simp [interfacesF]
  | cons r rs ih =>
    rw [List.forall_mem_cons] at hv
    cases fuel with
    | zero => simp at hf
    | succ fuel =>
      have hne : size * (r :: rs).length ≠ 0 := by
        simp only [List.length_cons]
        exact Nat.ne_of_gt (Nat.mul_pos hs (by omega))
      simp only [interfacesF, if_neg hne]
      have e : ((r :: rs).map Record.bytes).flatten ++ rest = r.bytes ++ ((rs.map Record.bytes).flatten ++ rest) := by simp
      rw [e, List.take_left' (bytes_length hv.1), List.drop_left' (bytes_length hv.1), interface_eq hv.1]
      have hsub : size * (r :: rs).length - size = size * rs.length := by
        simp only [List.length_cons, Nat.mul_add, Nat.mul_one, Nat.add_sub_cancel]
      rw [hsub, ih hv.2 fuel (by simp only [List.length_cons] at hf; omega)]
      rfl

/-! ### Device information -/

/-- What stays the same about the cached dict. -/
structure Kept (h0 h : Heap) (c l : Nat) : Prop where
  cache : h.cache = some c
  dict : h.dicts c = h0.dicts c
  list : h.lists l = h0.lists l
  lt : c < h.nDicts

theorem kept_step {h0 h : Heap} {c l : Nat} (k : Kept h0 h c l) (op : MetaOp) (h1 : ∀ key v, op ≠ .set c key v)
    (h2 : ∀ v, op ≠ .change l v) : Kept h0 (metaStep h op) c l := by
  cases op with
  | get f =>
    simp only [metaStep, getMeta, k.cache]
    refine ⟨rfl, ?_, k.list, Nat.lt_succ_of_lt k.lt⟩
    have : c ≠ h.nDicts := Nat.ne_of_lt k.lt
    simp only [setAt, if_neg this]
    exact k.dict
  | set d key v =>
    have : c ≠ d := fun e => h1 key v (by rw [e])
    refine ⟨k.cache, ?_, k.list, k.lt⟩
    simp only [metaStep, setAt, if_neg this]
    exact k.dict
  | change i v =>
    have : l ≠ i := fun e => h2 v (by rw [e])
    refine ⟨k.cache, k.dict, ?_, k.lt⟩
    simp only [metaStep, setAt, if_neg this]
    exact k.list

theorem kept_run {h0 h : Heap} {c l : Nat} (k : Kept h0 h c l) (ops : List MetaOp) (h1 : ∀ key v, .set c key v ∉ ops)
    (h2 : ∀ v, .change l v ∉ ops) : Kept h0 (metaRun h ops) c l := by
  induction ops generalizing h with
  | nil => exact k
  | cons op ops ih =>
    refine ih (kept_step k op (fun key v e => h1 key v (by simp [e])) (fun v e => h2 v (by simp [e])))
      (fun key v hm => h1 key v (List.mem_cons_of_mem _ hm)) (fun v hm => h2 v (List.mem_cons_of_mem _ hm))

end Verif.Device
