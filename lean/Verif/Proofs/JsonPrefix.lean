import Verif.Proofs.JsonValue
import Verif.Proofs.Library
/-! Lemmas for C155: JSON that has been cut. -/
namespace Verif.JsonText
open Verif Library

variable {fval : Text → Json}

theorem digit_open {c : Char} (h : isDigit c = true) : ¬ (c = '"' ∨ c = '[' ∨ c = '{') := by
  rintro (rfl | rfl | rfl) <;> revert h <;> decide

theorem int_open {s : Text} {i : Int} (h : IntLit s i) : ∃ c t, s = c :: t ∧ ¬ (c = '"' ∨ c = '[' ∨ c = '{') := by
  have key : ∀ {t : Text} {n : Nat}, NatLit t n → ∃ c r, t = c :: r ∧ ¬ (c = '"' ∨ c = '[' ∨ c = '{') := by
    intro t n ht
    have := digits_sound ht.1
    cases t with
    | nil => exact absurd rfl this.1
    | cons c r => exact ⟨c, r, rfl, digit_open (this.2.1 c (.head _))⟩
  cases h with
  | pos h => exact key h
  | neg h => exact ⟨'-', _, rfl, by decide⟩

/-- A string, an array or an object ends by itself: whatever follows is left over. -/
theorem read_closed {s : Text} {v : Json} (h : Denotes fval s v) {c : Char} {t : Text} (hs : s = c :: t) (hc : c = '"' ∨ c = '[' ∨ c = '{')
    (r : Text) {n : Nat} (hl : s.length ≤ n) : value fval n (s ++ r) = some (v, r) := by
  obtain ⟨n, rfl⟩ : ∃ k, n = k + 1 := ⟨n - 1, by rw [hs] at hl; simp at hl; omega⟩
  obtain ⟨-, ihe, ihm⟩ := read (fval := fval) n
  cases h with
  | null => injection hs with h1 _; subst h1; exact absurd hc (by decide)
  | true => injection hs with h1 _; subst h1; exact absurd hc (by decide)
  | false => injection hs with h1 _; subst h1; exact absurd hc (by decide)
  | int h =>
    obtain ⟨d, u, rfl, hd⟩ := int_open h
    injection hs with h1 _
    exact absurd (h1 ▸ hc) hd
  | float h =>
    obtain ⟨i, f, e, k, rfl, h, -⟩ := h
    obtain ⟨d, u, rfl, hd⟩ := int_open h
    injection hs with h1 _
    exact absurd (h1 ▸ hc) hd
  | extra h =>
    simp only [extras, List.mem_cons, List.not_mem_nil, or_false] at h
    rcases h with rfl | rfl | rfl <;> (injection hs with h1 _; subst h1; exact absurd hc (by decide))
  | str h =>
    obtain ⟨t, e, ht⟩ := str_scan h r
    rw [e, value, ht]
    rfl
  | @empty w h =>
    rw [List.cons_append, List.append_assoc, value, skipWs_append h, List.cons_append, skipWs_cons (by unfold Space; decide)]
    rfl
  | @arr w s l h he =>
    have hb := elements_begins he
    rw [List.cons_append, List.append_assoc, List.append_assoc, value, skip_begins hb _ h]
    have := ihe s l r he (by simp at hl; omega)
    obtain ⟨c, t, rfl, h1, h2⟩ := hb
    split
    · rename_i e
      injection e with e _
      exact absurd (by rw [e]; decide) h2
    · show Option.map _ (elements fval n (c :: t ++ ']' :: r)) = _
      rw [this]
      rfl
  | @emptyObj w h =>
    rw [List.cons_append, List.append_assoc, value, skipWs_append h, List.cons_append, skipWs_cons (by unfold Space; decide)]
    rfl
  | @obj w s l h he =>
    have hb := members_begins he
    have := ihm s l r he (by simp at hl; omega)
    obtain ⟨t, rfl⟩ := hb
    rw [List.cons_append, List.append_assoc, List.append_assoc, value, skipWs_append h, List.cons_append, skipWs_cons (by unfold Space; decide)]
    split
    · rename_i e
      injection e with e _
      exact absurd e (by decide)
    · show Option.map _ (members fval n ('"' :: t ++ '}' :: r)) = _
      rw [this]
      rfl

theorem spaces_append {s t : Text} (h : Spaces (s ++ t)) : Spaces t := fun c hc => h c (List.mem_append.2 (.inr hc))

theorem document_ne {s : Text} {v : Json} (h : Document fval s v) : s ≠ [] := by
  obtain ⟨⟨c, t, rfl, -⟩, -⟩ := document_ascii h
  simp

/-- White space before the first other character. -/
theorem spaces_unique {w w' : Text} {c d : Char} {t t' : Text} (h : w ++ c :: t = w' ++ d :: t') (hw : Spaces w) (hw' : Spaces w')
    (hc : ¬ Space c) (hd : ¬ Space d) : w = w' ∧ c = d ∧ t = t' := by
  have e := congrArg skipWs h
  rw [skipWs_append hw, skipWs_append hw', skipWs_cons hc, skipWs_cons hd] at e
  rw [e] at h
  injection e with e1 e2
  exact ⟨List.append_cancel_right h, e1, e2⟩

/-- The text, without the last part, is no JSON. -/
theorem cut_text {s u : Text} {v : Json} (h : Document fval (s ++ u) v) {w r : Text} {c : Char} (he : s ++ u = w ++ c :: r) (hw : Spaces w)
    (hc : c = '"' ∨ c = '[' ∨ c = '{') (hu : ¬ Spaces u) : loads fval s = none := by
  cases hl : loads fval s with
  | none => rfl
  | some x =>
    exfalso
    obtain ⟨w1, t1, z1, rfl, hw1, hd, hz1⟩ := (loads_iff fval s x).1 hl
    obtain ⟨d, t, rfl, hsp, -⟩ := denotes_begins hd
    have hsc : ¬ Space c := by rcases hc with rfl | rfl | rfl <;> (unfold Space; decide)
    obtain ⟨rfl, rfl, -⟩ := spaces_unique (t := t ++ z1 ++ u) (t' := r) (by rw [← he]; simp) hw1 hw hsp hsc
    have hlv := (loads_iff fval _ _).2 h
    rw [loads] at hlv
    have e1 : skipWs (w1 ++ (d :: t ++ z1) ++ u) = d :: t ++ (z1 ++ u) := by
      rw [List.append_assoc, skipWs_append hw1, List.append_assoc, List.cons_append, skipWs_cons hsp]
    rw [e1, read_closed hd rfl hc (z1 ++ u) (by simp; omega)] at hlv
    simp only at hlv
    split at hlv
    · rename_i hem
      obtain ⟨w2, hw2, hw2'⟩ := skipWs_split (z1 ++ u)
      rw [List.isEmpty_iff.1 hem, List.append_nil] at hw2
      exact hu (spaces_append (hw2 ▸ hw2'))
    · exact (nomatch hlv)

/-- A beginning of a text in UTF-8 that is itself in UTF-8 is that of a beginning of the text. -/
theorem utf8_prefix {t s : Text} {rest : Bytes} (h : utf8Encode t ++ rest = utf8Encode s) : ∃ u, s = t ++ u ∧ rest = utf8Encode u := by
  induction t generalizing s with
  | nil => exact ⟨s, rfl, by simpa [utf8Encode] using h⟩
  | cons c t ih =>
    cases s with
    | nil =>
      have := congrArg firstChar h
      rw [utf8_cons, List.append_assoc, firstChar_encoded] at this
      exact (nomatch this)
    | cons d s =>
      have hf := congrArg firstChar h
      rw [utf8_cons, List.append_assoc, firstChar_encoded, utf8_cons, firstChar_encoded] at hf
      injection hf with hf
      injection hf with hf _
      subst hf
      rw [utf8_cons, List.append_assoc, utf8_cons] at h
      obtain ⟨u, rfl, hu⟩ := ih (List.append_cancel_left h)
      exact ⟨u, rfl, hu⟩

theorem space_bytes {u : Text} (h : Spaces u) : ∀ x ∈ utf8Encode u, x = 32 ∨ x = 9 ∨ x = 10 ∨ x = 13 := by
  intro x hx'
  obtain ⟨c, hc, hx⟩ := List.mem_flatMap.1 hx'
  have := h c hc
  clear h hc hx'
  simp only [Space, List.mem_cons, List.not_mem_nil, or_false] at this
  rcases this with rfl | rfl | rfl | rfl <;> (revert hx; revert x; decide)

theorem cut_bytes (other : Enc → Bytes → Option Text) {D : Text} {v : Json} (h : Document fval D v) {w r : Text} {c : Char} (he : D = w ++ c :: r)
    (hw : Spaces w) (hc : c = '"' ∨ c = '[' ∨ c = '{') {b rest : Bytes} (hb : b ++ rest = utf8Encode D)
    (hr : ¬ ∀ x ∈ rest, x = 32 ∨ x = 9 ∨ x = 10 ∨ x = 13) : loadsBytes fval other b = none := by
  obtain ⟨⟨a, t, hD, ha⟩, hn⟩ := document_ascii h
  have hd : detectEncoding b = .utf8 := by
    cases b with
    | nil => rfl
    | cons x b =>
      have hx : x = UInt8.ofNat a.toNat := by
        rw [hD, utf8Encode, List.flatMap_cons, encode_ascii ha] at hb
        exact (List.cons.inj hb).1
      refine detect_utf8 ?_ ?_
      · rw [hx, u8_ofNat_toNat (by omega)]; exact ha
      · intro y hy
        refine utf8_nonzero hn y ?_
        rw [← hb]
        exact List.mem_append.2 (.inl hy)
  rw [loadsBytes, hd]
  simp only
  cases hu : utf8Decode b with
  | none => rfl
  | some s =>
    rw [Option.bind_some]
    rw [decode_sound _ b s (Nat.le_refl _) hu] at hb
    obtain ⟨u, rfl, rfl⟩ := utf8_prefix hb
    exact cut_text h he hw hc (fun hs => hr (space_bytes hs))

/-! ### What `json.dumps` writes ends with the closing character -/

theorem dumpsList_last (ftext : Option Int → Nat → Text) (l : List Json) : ∃ t, dumpsList ftext l = t ++ [']'] := by
  induction l with
  | nil => exact ⟨[], rfl⟩
  | cons v l ih =>
    obtain ⟨t, ht⟩ := ih
    exact ⟨',' :: ' ' :: (dumps ftext v ++ t), by rw [dumpsList, ht]; simp⟩

theorem dumpsObj_last (ftext : Option Int → Nat → Text) (l : List (Text × Json)) : ∃ t, dumpsObj ftext l = t ++ ['}'] := by
  induction l with
  | nil => exact ⟨[], rfl⟩
  | cons v l ih =>
    obtain ⟨t, ht⟩ := ih
    exact ⟨',' :: ' ' :: (dumpString v.1 ++ ':' :: ' ' :: (dumps ftext v.2 ++ t)), by rw [dumpsObj, ht]; simp⟩

theorem dumps_ends (ftext : Option Int → Nat → Text) {v : Json} (hv : Closed v) : ∃ c t d, dumps ftext v = c :: (t ++ [d]) ∧
    (c = '"' ∨ c = '[' ∨ c = '{') ∧ (d = '"' ∨ d = ']' ∨ d = '}') := by
  cases v with
  | str s => exact ⟨'"', _, '"', by rw [dumps, dumpString], by decide, by decide⟩
  | arr l =>
    cases l with
    | nil => exact ⟨'[', [], ']', by rw [dumps]; rfl, by decide, by decide⟩
    | cons v l =>
      obtain ⟨t, ht⟩ := dumpsList_last ftext l
      exact ⟨'[', dumps ftext v ++ t, ']', by rw [dumps, ht, List.append_assoc], by decide, by decide⟩
  | obj l =>
    cases l with
    | nil => exact ⟨'{', [], '}', by rw [dumps]; rfl, by decide, by decide⟩
    | cons v l =>
      obtain ⟨t, ht⟩ := dumpsObj_last ftext l
      exact ⟨'{', dumpString v.1 ++ ':' :: ' ' :: (dumps ftext v.2 ++ t), '}', by rw [dumps, ht]; simp, by decide, by decide⟩
  | _ => exact hv.elim

end Verif.JsonText
