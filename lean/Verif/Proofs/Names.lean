import Verif.Spec.Names
import Verif.Spec.Library
import Verif.Proofs.Library
import Verif.Proofs.JsonValue
/-!
Lemmas about names that are not UTF-8.
-/
namespace Verif.Names
open Verif JsonText Library

theorem encode_cons (c : Char) : ∃ a l, String.utf8EncodeChar c = a :: l := by
  cases he : String.utf8EncodeChar c with
  | nil =>
    have := utf8Decode_encodeChar c []
    rw [he] at this
    exact nomatch this
  | cons a l => exact ⟨a, l, rfl⟩

theorem fsDecodeF_drop (n : Nat) (bs : Bytes) : fsDecodeF n bs = fsDecodeF 0 (bs.drop n) := by
  induction n generalizing bs with
  | zero => rfl
  | succ n ih =>
    cases bs with
    | nil => rfl
    | cons a r => exact ih r

theorem fsDecode_cons (a : UInt8) (r : Bytes) : fsDecode (a :: r) = match firstChar (a :: r) with
    | some (c, n) => c.toNat :: fsDecode (r.drop n)
    | none => (0xdc00 + a.toNat) :: fsDecode r := by
  simp only [fsDecode, fsDecodeF]
  cases firstChar (a :: r) with
  | none => rfl
  | some x => simp only; rw [fsDecodeF_drop]

theorem stands (n : Nat) (bs : Bytes) (hn : bs.length ≤ n) : Stands bs (fsDecode bs) := by
  induction n generalizing bs with
  | zero =>
    cases bs with
    | nil => exact .nil
    | cons a r => simp at hn
  | succ n ih =>
    cases bs with
    | nil => exact .nil
    | cons a r =>
      rw [fsDecode_cons]
      cases hf : firstChar (a :: r) with
      | none => exact .byte (firstChar_none hf) (ih r (by simpa using hn))
      | some x =>
        obtain ⟨c, k⟩ := x
        obtain ⟨_, h3⟩ := firstChar_sound hf
        rw [h3]
        exact .char (ih _ (by simp only [List.length_drop, List.length_cons] at hn ⊢; omega))

theorem stands_unique {bs : Bytes} {s : Points} (h : Stands bs s) : fsDecode bs = s := by
  induction h with
  | nil => rfl
  | @char c r s _ ih =>
    have hf := firstChar_encoded c r
    obtain ⟨a, l, e⟩ := encode_cons c
    rw [e, List.cons_append] at hf ⊢
    rw [fsDecode_cons, hf]
    simp [ih]
  | @byte b r s hb _ ih =>
    rw [fsDecode_cons]
    cases hf : firstChar (b :: r) with
    | none => simp only [ih]
    | some x => exact absurd (firstChar_sound hf).2 (hb _ _)

/-- At a byte below 128 a character begins. -/
theorem byte_high {b : UInt8} {r : Bytes} (h : ∀ c r', b :: r ≠ String.utf8EncodeChar c ++ r') : 128 ≤ b.toNat := by
  refine Nat.le_of_not_lt fun hb => ?_
  have hc : (Char.ofNat b.toNat).toNat = b.toNat := ofNat_scalar (.inl (by omega))
  refine h (Char.ofNat b.toNat) r ?_
  rw [encode_ascii (by omega), hc, UInt8.ofNat_toNat]
  rfl

theorem scalar_char (c : Char) : scalar? 0 c.toNat = some c := (scalar?_iff 0 _ c).2 ⟨Nat.zero_le _, rfl⟩

theorem scalar_surrogate {p : Nat} (h1 : 0xd800 ≤ p) (h2 : p < 0xe000) : scalar? 0 p = none := by
  cases h : scalar? 0 p with
  | none => rfl
  | some c =>
    have h3 : c.toNat = p := ((scalar?_iff 0 p c).1 h).2
    have := char_scalar c
    omega

theorem encodePoint_char (c : Char) : fsEncodePoint c.toNat = some (String.utf8EncodeChar c) := by
  have := char_scalar c
  unfold fsEncodePoint
  rw [if_neg (by omega), scalar_char]
  rfl

theorem encodePoint_byte {b : UInt8} (h : 128 ≤ b.toNat) : fsEncodePoint (0xdc00 + b.toNat) = some [b] := by
  have := b.toNat_lt
  unfold fsEncodePoint
  rw [if_pos (by omega), Nat.add_sub_cancel_left, UInt8.ofNat_toNat]

theorem encode_stands {bs : Bytes} {s : Points} (h : Stands bs s) : fsEncode s = some bs := by
  induction h with
  | nil => rfl
  | @char c r s _ ih => simp [fsEncode, encodePoint_char, ih]
  | @byte b r s hb _ ih => simp [fsEncode, encodePoint_byte (byte_high hb), ih]

theorem encode_points (t : Text) : fsEncode (points t) = some (utf8Encode t) := by
  induction t with
  | nil => rfl
  | cons c t ih =>
    have ih : fsEncode (t.map Char.toNat) = some (utf8Encode t) := ih
    simp [points, fsEncode, encodePoint_char, ih, utf8_cons]

/-! ### JSON -/

theorem units_unique {t : Text} {v v' : List Nat} (h : Units t v) (h' : Units t v') : v = v' := by
  induction h generalizing v' with
  | nil => cases h'; rfl
  | @plain c s v h1 h2 h3 _ ih =>
    cases h' with
    | plain _ _ _ h => rw [ih h]
    | short _ _ => exact absurd rfl h3
    | unicode _ _ => exact absurd rfl h3
  | @short c x s v h _ ih =>
    generalize ht : '\\' :: c :: s = t at h'
    cases h' with
    | nil => exact (nomatch ht)
    | plain _ _ h3 _ => injection ht with e _; exact absurd e.symm h3
    | @short c' x' s' v' h2 h' =>
      injection ht with _ ht; injection ht with e1 e2
      subst e1 e2
      have h1 := (unescape_iff c x).1 h
      rw [(unescape_iff c x').1 h2] at h1
      injection h1 with h1
      rw [ih h', h1]
    | unicode hu _ =>
      obtain ⟨a, b, c', d, rfl⟩ := unicode_form hu
      injection ht with _ ht; injection ht with e _
      have h1 := (unescape_iff c x).1 h
      rw [e, unescape_u] at h1
      exact (nomatch h1)
  | @unicode u n s v h _ ih =>
    obtain ⟨a, b, c, d, rfl⟩ := unicode_form h
    generalize ht : '\\' :: (['u', a, b, c, d] ++ s) = t at h'
    cases h' with
    | nil => exact (nomatch ht)
    | plain _ _ h3 _ => injection ht with e _; exact absurd e.symm h3
    | @short c' x' s' v' h2 h' =>
      injection ht with _ ht; injection ht with e1 e2
      have h1 := (unescape_iff c' x').1 h2
      rw [← e1, unescape_u] at h1
      exact (nomatch h1)
    | unicode hu h' =>
      obtain ⟨a', b', c', d', rfl⟩ := unicode_form hu
      injection ht with _ ht; injection ht with _ ht; injection ht with e1 ht; injection ht with e2 ht; injection ht with e3 ht
      injection ht with e4 e5
      subst e1 e2 e3 e4 e5
      have h1 := (hex4_iff a b c d n).1 h
      rw [(hex4_iff a b c d _).1 hu] at h1
      injection h1 with h1
      rw [ih h', h1]

theorem joined_unique {v : List Nat} {s s' : Points} (h : Joined v s) (h' : Joined v s') : s = s' := by
  induction h generalizing s' with
  | nil => cases h'; rfl
  | @pair a l r s h1 h2 h3 h4 _ ih =>
    cases h' with
    | pair _ _ _ _ h => rw [ih h]
    | single hn _ => have := hn h1 h2 l r rfl; omega
  | @single n r s hn _ ih =>
    cases h' with
    | @pair _ l r' s' h1 h2 h3 h4 h => have := hn h1 h2 l r' rfl; omega
    | single _ h => rw [ih h]

/-- The code units of a code point. -/
def units (p : Nat) : List Nat := if p < 65536 then [p] else [55296 + (p - 65536) / 1024, 56320 + (p - 65536) % 1024]

theorem units_escape (c : Char) {s : Text} {v : List Nat} (h : Units s v) : Units (escapeChar c ++ s) (units c.toNat ++ v) := by
  have hx (x : Char) (hl : x.toNat < 65536) : units x.toNat ++ v = x.toNat :: v := by unfold units; rw [if_pos hl]; rfl
  unfold escapeChar
  split
  · rename_i e; subst e; rw [hx _ (by decide)]; exact .short (by decide) h
  split
  · rename_i e; subst e; rw [hx _ (by decide)]; exact .short (by decide) h
  split
  · rename_i e; subst e; rw [hx _ (by decide)]; exact .short (by decide) h
  split
  · rename_i e; subst e; rw [hx _ (by decide)]; exact .short (by decide) h
  split
  · rename_i e; subst e; rw [hx _ (by decide)]; exact .short (by decide) h
  split
  · rename_i e; rw [char_of e, hx _ (by decide)]; exact .short (by decide) h
  split
  · rename_i e; rw [char_of e, hx _ (by decide)]; exact .short (by decide) h
  rename_i h1 h2 _ _ _ _ _
  split
  · rename_i e; rw [hx _ (by omega)]; exact .plain e.1 h1 h2 h
  split
  · rename_i e
    obtain ⟨u, hu, hu'⟩ := unicodeEscape_unicode e
    rw [hu, hx _ e]
    exact .unicode hu' h
  · rename_i e
    have hc := char_scalar c
    obtain ⟨u, hu, hu'⟩ := unicodeEscape_unicode (n := 55296 + (c.toNat - 65536) / 1024) (by omega)
    obtain ⟨w, hw, hw'⟩ := unicodeEscape_unicode (n := 56320 + (c.toNat - 65536) % 1024) (by omega)
    rw [hu, hw]
    have := Units.unicode hu' (.unicode hw' h)
    unfold units
    rw [if_neg e]
    simpa using this

/-- A code point that is not a high surrogate. -/
def Fine (p : Nat) : Prop := p < 1114112 ∧ (p < 55296 ∨ 56320 ≤ p)

theorem fine_stands {bs : Bytes} {s : Points} (h : Stands bs s) : ∀ p ∈ s, Fine p := by
  induction h with
  | nil => intro p hp; exact (nomatch hp)
  | @char c r s _ ih =>
    intro p hp
    rcases List.mem_cons.1 hp with rfl | hp
    · have := char_scalar c
      unfold Fine
      omega
    · exact ih p hp
  | @byte b r s hb _ ih =>
    intro p hp
    rcases List.mem_cons.1 hp with rfl | hp
    · have := b.toNat_lt
      unfold Fine
      omega
    · exact ih p hp

theorem units_escapePoint {p : Nat} (hp : Fine p) {s : Text} {v : List Nat} (h : Units s v) : Units (escapePoint p ++ s) (units p ++ v) := by
  unfold escapePoint
  cases hs : scalar? 0 p with
  | some c =>
    have hc : c.toNat = p := ((scalar?_iff 0 p c).1 hs).2
    subst hc
    exact units_escape c h
  | none =>
    have hl : p < 57344 := by
      refine Nat.lt_of_not_le fun hn => ?_
      have hc : (Char.ofNat p).toNat = p := ofNat_scalar (.inr ⟨by omega, hp.1⟩)
      rw [← hc, scalar_char] at hs
      exact (nomatch hs)
    obtain ⟨u, hu, hu'⟩ := unicodeEscape_unicode (n := p) (by omega)
    simp only [hu, units]
    rw [if_pos (by omega)]
    exact .unicode hu' h

theorem reads_escape (s : Points) (hs : ∀ p ∈ s, Fine p) : Reads (escapePoints s) s := by
  induction s with
  | nil => exact ⟨[], .nil, .nil⟩
  | cons p s ih =>
    obtain ⟨v, h1, h2⟩ := ih fun q hq => hs q (List.mem_cons_of_mem _ hq)
    have hp := hs p List.mem_cons_self
    refine ⟨units p ++ v, units_escapePoint hp h1, ?_⟩
    unfold Fine at hp
    unfold units
    split
    · exact .single (by omega) h2
    · have := Joined.pair (h := 55296 + (p - 65536) / 1024) (l := 56320 + (p - 65536) % 1024) (by omega) (by omega) (by omega) (by omega) h2
      rwa [show 0x10000 + (55296 + (p - 65536) / 1024 - 0xd800) * 0x400 + (56320 + (p - 65536) % 1024 - 0xdc00) = p by omega] at this

/-! ### Paths -/

theorem encode_slash {c : Char} (h : (0x2f : UInt8) ∈ String.utf8EncodeChar c) : String.utf8EncodeChar c = [0x2f] := by
  obtain ⟨l, r, e⟩ := List.append_of_mem h
  have hc := char_scalar c
  have hv : c.val.toNat = c.toNat := rfl
  unfold String.utf8EncodeChar at h ⊢
  simp only [hv] at h ⊢
  split
  · rename_i h1
    rw [if_pos h1] at h
    rw [← List.mem_singleton.1 h]
  · rename_i h1
    rw [if_neg h1] at h
    have key (n : Nat) (h1 : 47 < n) (h2 : n < 256) (e : (0x2f : UInt8) = UInt8.ofNat n) : False := by
      have := congrArg UInt8.toNat e
      rw [UInt8.toNat_ofNat_of_lt' h2] at this
      have h3 : (0x2f : UInt8).toNat = 47 := rfl
      omega
    split at h
    · simp only [List.mem_cons, List.not_mem_nil, or_false] at h
      rcases h with h | h <;> exact (key _ (by omega) (by omega) h).elim
    · split at h
      · simp only [List.mem_cons, List.not_mem_nil, or_false] at h
        rcases h with h | h | h <;> exact (key _ (by omega) (by omega) h).elim
      · simp only [List.mem_cons, List.not_mem_nil, or_false] at h
        rcases h with h | h | h | h <;> exact (key _ (by omega) (by omega) h).elim

theorem stands_slash {a b : Bytes} {s s' : Points} (h : Stands a s) (h' : Stands b s') : Stands (a ++ 0x2f :: b) (s ++ 0x2f :: s') := by
  induction h with
  | nil =>
    have := Stands.char (c := '/') h'
    exact this
  | @char c r s _ ih =>
    rw [List.append_assoc]
    exact .char ih
  | @byte x r s hb _ ih =>
    refine .byte (fun c r' e => ?_) ih
    have e : (x :: r) ++ 0x2f :: b = String.utf8EncodeChar c ++ r' := e
    rcases List.append_eq_append_iff.1 e with ⟨l, e1, e2⟩ | ⟨l, e1, e2⟩
    · cases l with
      | nil => exact hb c [] (by rw [e1]; simp)
      | cons y l =>
        injection e2 with e2 _
        subst e2
        have h1 := encode_slash (c := c) (by rw [e1]; simp)
        rw [h1] at e1
        have := congrArg List.length e1
        simp at this
    · exact hb c l e1

/-! ### Lengths -/

theorem ignore_length {p : Bytes} {t : Text} (h : Ignoring p t) : (utf8Encode t).length ≤ p.length ∧ ((utf8Encode t).length = p.length → p = utf8Encode t) := by
  induction h with
  | nil => exact ⟨Nat.le_refl _, fun _ => rfl⟩
  | @char c r t _ ih =>
    rw [utf8_cons, List.length_append, List.length_append]
    refine ⟨by omega, fun e => ?_⟩
    rw [← ih.2 (by omega)]
  | @skip b r t _ _ ih =>
    rw [List.length_cons]
    exact ⟨by omega, fun e => by omega⟩

theorem encode_head (t : Text) : (utf8Encode t).head? = some 0x2f ↔ t.head? = some '/' := by
  cases t with
  | nil => exact ⟨fun h => (nomatch h), fun h => (nomatch h)⟩
  | cons c t =>
    obtain ⟨a, l, e⟩ := encode_cons c
    rw [utf8_cons]
    constructor
    · intro h
      rw [e] at h
      injection h with h
      have h1 := encode_slash (c := c) (by rw [e, h]; simp)
      have h2 : String.utf8EncodeChar '/' = [0x2f] := by decide +kernel
      have h3 := firstChar_encoded c []
      have h4 := firstChar_encoded '/' []
      rw [h1, ← h2, h4] at h3
      injection h3 with h3
      injection h3 with h3 _
      rw [← h3]
      rfl
    · intro h
      injection h with h
      subst h
      rfl

theorem encode_absPath (t : Text) : utf8Encode (Services.absPath t) = FromRoot (utf8Encode t) := by
  unfold Services.absPath FromRoot
  by_cases h : t.head? = some '/'
  · rw [if_pos h, if_pos ((encode_head t).2 h)]
  · rw [if_neg h, if_neg fun h' => h ((encode_head t).1 h')]
    rfl

/-! ### NUL -/

theorem passed_points (t : Text) : passed (points t) = if (0 : UInt8) ∈ utf8Encode t then none else some (utf8Encode t) := by
  unfold passed
  simp only [encode_points, Option.bind_eq_bind, Option.bind_some, List.contains_iff_mem]

theorem passed_iff (t : Text) (b : Bytes) : passed (points t) = some b ↔ b = utf8Encode t ∧ (0 : UInt8) ∉ b := by
  rw [passed_points]
  constructor
  · intro h
    split at h
    · exact (nomatch h)
    · rename_i hn
      injection h with h
      subst h
      exact ⟨rfl, hn⟩
  · rintro ⟨rfl, hn⟩
    rw [if_neg hn]

theorem ignore_subset {p : Bytes} {t : Text} (h : Ignoring p t) : ∀ x ∈ utf8Encode t, x ∈ p := by
  induction h with
  | nil => intro x hx; exact hx
  | @char c r t _ ih =>
    intro x hx
    rw [utf8_cons] at hx
    rcases List.mem_append.1 hx with h | h
    · exact List.mem_append_left _ h
    · exact List.mem_append_right _ (ih x h)
  | @skip b r t _ _ ih =>
    intro x hx
    exact List.mem_cons_of_mem _ (ih x hx)

theorem root_nul {p : Bytes} : (0 : UInt8) ∈ FromRoot p ↔ (0 : UInt8) ∈ p := by
  unfold FromRoot
  split
  · exact Iff.rfl
  · rw [List.mem_cons]
    exact ⟨fun h => h.resolve_left (by decide), .inr⟩

end Verif.Names
