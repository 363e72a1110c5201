import Verif.Model.JsonText
import Verif.Spec.JsonText
/-! Lemmas for C151: characters, numbers and strings. -/
namespace Verif.JsonText
open Verif

theorem isWs_iff (c : Char) : isWs c = true ↔ Space c := by simp [isWs, Space, or_assoc]

theorem skipWs_append {w : Text} (h : Spaces w) (r : Text) : skipWs (w ++ r) = skipWs r := by
  induction w with
  | nil => rfl
  | cons c w ih =>
    rw [skipWs, List.cons_append, List.dropWhile_cons, if_pos ((isWs_iff c).2 (h c (.head _)))]
    exact ih fun c hc => h c (.tail _ hc)

theorem skipWs_cons {c : Char} (h : ¬ Space c) (r : Text) : skipWs (c :: r) = c :: r := by
  rw [skipWs, List.dropWhile_cons, if_neg (by rwa [isWs_iff])]

theorem skipWs_split (s : Text) : ∃ w, s = w ++ skipWs s ∧ Spaces w := by
  induction s with
  | nil => exact ⟨[], rfl, fun c h => (nomatch h)⟩
  | cons c s ih =>
    by_cases h : Space c
    · obtain ⟨w, h1, h2⟩ := ih
      refine ⟨c :: w, ?_, List.forall_mem_cons.2 ⟨h, h2⟩⟩
      rw [skipWs, List.dropWhile_cons, if_pos ((isWs_iff c).2 h), List.cons_append]
      exact congrArg (c :: ·) h1
    · exact ⟨[], by rw [skipWs_cons h]; rfl, fun c h => (nomatch h)⟩

theorem skipWs_all {w : Text} (h : Spaces w) : skipWs w = [] := by
  have := skipWs_append h []
  rwa [List.append_nil] at this

/-! ### Digits -/

theorem char_of {c : Char} {k : Nat} (h : c.toNat = k) : c = Char.ofNat k := by rw [← h, Char.ofNat_toNat]

theorem dec1_iff (c : Char) (n : Nat) : Dec1 c n ↔ isDigit c = true ∧ n = c.toNat - 48 := by
  simp only [Dec1, isDigit, Bool.and_eq_true, decide_eq_true_eq]
  constructor
  · intro h
    have hn : n < 10 := by
      obtain ⟨h1, -⟩ := List.getElem?_eq_some_iff.1 h
      exact h1
    have : ∀ m : Fin 10, ∀ c ∈ decDigits[m.val]?, (48 ≤ c.toNat ∧ c.toNat ≤ 57) ∧ m.val = c.toNat - 48 := by decide
    exact this ⟨n, hn⟩ c h
  · rintro ⟨⟨h1, h2⟩, rfl⟩
    have : ∀ k : Fin 10, decDigits[k.val]? = some (Char.ofNat (k.val + 48)) := by decide
    have := this ⟨c.toNat - 48, by omega⟩
    rw [this, show c.toNat - 48 + 48 = c.toNat by omega, Char.ofNat_toNat]

theorem hex1_iff (c : Char) (n : Nat) : Hex1 c n ↔ hexVal c = some n := by
  constructor
  · intro h
    have h1 : ∀ m : Fin 16, ∀ c ∈ lowHex[m.val]?, hexVal c = some m.val := by decide
    have h2 : ∀ m : Fin 16, ∀ c ∈ highHex[m.val]?, hexVal c = some m.val := by decide
    rcases h with h | h
    · exact h1 ⟨n, (List.getElem?_eq_some_iff.1 h).1⟩ c h
    · exact h2 ⟨n, (List.getElem?_eq_some_iff.1 h).1⟩ c h
  · intro h
    have h1 : ∀ k : Fin 10, Hex1 (Char.ofNat (k.val + 48)) k.val := by unfold Hex1; decide
    have h2 : ∀ k : Fin 6, Hex1 (Char.ofNat (k.val + 97)) (k.val + 10) := by unfold Hex1; decide
    have h3 : ∀ k : Fin 6, Hex1 (Char.ofNat (k.val + 65)) (k.val + 10) := by unfold Hex1; decide
    unfold hexVal at h
    split at h
    · rename_i hc
      injection h with h
      have := h1 ⟨n, by omega⟩
      rwa [show n + 48 = c.toNat by omega, Char.ofNat_toNat] at this
    · split at h
      · rename_i hc
        injection h with h
        have := h2 ⟨n - 10, by omega⟩
        rwa [show n - 10 + 97 = c.toNat by omega, Char.ofNat_toNat, show n - 10 + 10 = n by omega] at this
      · split at h
        · rename_i hc
          injection h with h
          have := h3 ⟨n - 10, by omega⟩
          rwa [show n - 10 + 65 = c.toNat by omega, Char.ofNat_toNat, show n - 10 + 10 = n by omega] at this
        · exact (nomatch h)

theorem digitsVal_snoc (s : Text) (c : Char) : digitsVal (s ++ [c]) = 10 * digitsVal s + (c.toNat - 48) := by
  simp [digitsVal]

theorem digits_sound {s : Text} {n : Nat} (h : Digits s n) : s ≠ [] ∧ (∀ c ∈ s, isDigit c = true) ∧ digitsVal s = n := by
  induction h with
  | one h =>
    obtain ⟨h1, h2⟩ := (dec1_iff _ _).1 h
    exact ⟨by simp, by simpa using h1, by simp [digitsVal, h2]⟩
  | more h h' ih =>
    obtain ⟨h1, h2⟩ := (dec1_iff _ _).1 h'
    refine ⟨by simp, ?_, by rw [digitsVal_snoc, ih.2.2, h2]⟩
    intro c hc
    rcases List.mem_append.1 hc with hc | hc
    · exact ih.2.1 c hc
    · rw [List.mem_singleton.1 hc]; exact h1

theorem digits_complete (n : Nat) : ∀ s : Text, s.length = n → s ≠ [] → (∀ c ∈ s, isDigit c = true) → Digits s (digitsVal s) := by
  induction n with
  | zero => intro s h hne _; exact absurd (List.eq_nil_of_length_eq_zero h) hne
  | succ n ih =>
    intro s h hne hd
    rcases List.eq_nil_or_concat s with rfl | ⟨t, c, rfl⟩
    · exact absurd rfl hne
    rw [List.concat_eq_append] at h hd ⊢
    have hc : Dec1 c (c.toNat - 48) := (dec1_iff _ _).2 ⟨hd c (by simp), rfl⟩
    rw [digitsVal_snoc]
    by_cases ht : t = []
    · subst ht
      have := Digits.one hc
      simpa [digitsVal] using this
    · exact .more (ih t (by simpa using h) ht fun c hc => hd c (by simp [hc])) hc

theorem digits_iff (s : Text) (n : Nat) : Digits s n ↔ s ≠ [] ∧ (∀ c ∈ s, isDigit c = true) ∧ digitsVal s = n :=
  ⟨digits_sound, fun ⟨h1, h2, h3⟩ => h3 ▸ digits_complete _ s rfl h1 h2⟩

/-! ### Strings -/

theorem hex4_iff (a b c d : Char) (n : Nat) : Unicode ['u', a, b, c, d] n ↔ hex4 a b c d = some n := by
  constructor
  · rintro ⟨h1, h2, h3, h4⟩
    rw [hex1_iff] at h1 h2 h3 h4
    simp only [hex4, h1, h2, h3, h4, Option.some.injEq]
    omega
  · intro h
    unfold hex4 at h
    split at h
    · rename_i i j k l h1 h2 h3 h4
      injection h with h
      have := Unicode.mk ((hex1_iff _ _).2 h1) ((hex1_iff _ _).2 h2) ((hex1_iff _ _).2 h3) ((hex1_iff _ _).2 h4)
      rwa [show ((i * 16 + j) * 16 + k) * 16 + l = n by omega] at this
    · exact (nomatch h)

theorem unescape_iff (c x : Char) : (c, x) ∈ shortEscapes ↔ unescape c = some x := by
  unfold unescape shortEscapes
  constructor
  · intro h
    simp only [List.mem_cons, Prod.mk.injEq, List.not_mem_nil, or_false] at h
    rcases h with ⟨rfl, rfl⟩ | ⟨rfl, rfl⟩ | ⟨rfl, rfl⟩ | ⟨rfl, rfl⟩ | ⟨rfl, rfl⟩ | ⟨rfl, rfl⟩ | ⟨rfl, rfl⟩ | ⟨rfl, rfl⟩ <;> decide
  · intro h
    repeat' split at h
    all_goals first
      | (injection h with h; subst h; subst_vars; decide)
      | exact (nomatch h)

theorem unescape_u : unescape 'u' = none := by decide

theorem char_scalar (c : Char) : c.toNat < 55296 ∨ 57343 < c.toNat ∧ c.toNat < 1114112 := c.valid

theorem ofNat_scalar {n : Nat} (h : n < 55296 ∨ 57343 < n ∧ n < 1114112) : (Char.ofNat n).toNat = n := by
  have hv : n.isValidChar := h
  rw [Char.ofNat, dif_pos hv]
  rfl

theorem hex4_lt {a b c d : Char} {n : Nat} (h : hex4 a b c d = some n) : n < 65536 := by
  have key : ∀ {c n}, hexVal c = some n → n < 16 := by
    intro c n h
    rw [← hex1_iff] at h
    rcases h with h | h <;> exact (List.getElem?_eq_some_iff.1 h).1
  unfold hex4 at h
  split at h
  · rename_i i j k l h1 h2 h3 h4
    injection h with h
    have := key h1; have := key h2; have := key h3; have := key h4
    omega
  · exact (nomatch h)

theorem unicode_form {u : Text} {n : Nat} (h : Unicode u n) : ∃ a b c d, u = ['u', a, b, c, d] := by
  cases h
  exact ⟨_, _, _, _, rfl⟩

theorem scan_inner {s v : Text} (h : Inner s v) (r : Text) : scanString (s ++ '"' :: r) = some (v, r) := by
  induction h with
  | nil => simp [scanString]
  | @plain c s v h1 h2 h3 _ ih =>
    rw [List.cons_append]
    unfold scanString
    split
    · rename_i e; exact (nomatch e)
    · rename_i e; injection e with e; exact absurd e h2
    · rename_i e; injection e with e; exact absurd e h3
    · rename_i e; injection e with e; exact absurd e h3
    · rename_i e
      injection e with e1 e2
      subst e1 e2
      rw [if_neg (by simp; exact ⟨h1, h3⟩), ih]
      rfl
  | @short c x s v h _ ih =>
    have hu := (unescape_iff c x).1 h
    rw [List.cons_append, List.cons_append]
    unfold scanString
    split
    · rename_i e; exact (nomatch e)
    · rename_i e; injection e with e; exact absurd e (by decide)
    · rename_i e
      injection e with _ e; injection e with e _
      rw [e, unescape_u] at hu; exact (nomatch hu)
    · rename_i e
      injection e with _ e; injection e with e1 e2
      subst e1 e2
      rw [hu, ih]
      rfl
    · rename_i h1 h2 e
      injection e with e1 e2
      exact (h2 _ _ e1.symm e2.symm).elim
  | @unicode u x s v h _ ih =>
    obtain ⟨a, b, c, d, rfl⟩ := unicode_form h
    have hn := (hex4_iff a b c d _).1 h
    have hx := char_scalar x
    show scanString ('\\' :: 'u' :: a :: b :: c :: d :: (s ++ '"' :: r)) = _
    rw [scanString]
    simp only [hn]
    rw [if_neg (by omega), if_neg (by omega), ih, Char.ofNat_toNat]
    rfl
  | @pair u hi w lo x s v h h' h1 h2 h3 h4 hx _ ih =>
    obtain ⟨a, b, c, d, rfl⟩ := unicode_form h
    obtain ⟨a', b', c', d', rfl⟩ := unicode_form h'
    have hn := (hex4_iff a b c d _).1 h
    have hm := (hex4_iff a' b' c' d' _).1 h'
    show scanString ('\\' :: 'u' :: a :: b :: c :: d :: '\\' :: 'u' :: a' :: b' :: c' :: d' :: (s ++ '"' :: r)) = _
    rw [scanString]
    simp only [hn]
    rw [if_pos (by omega)]
    simp only [hm]
    rw [if_pos (by omega), ih, ← hx, Char.ofNat_toNat]
    rfl

theorem scan_sound (n : Nat) : ∀ t v r : Text, t.length ≤ n → scanString t = some (v, r) → ∃ s, t = s ++ '"' :: r ∧ Inner s v := by
  induction n with
  | zero =>
    intro t v r hl h
    rw [List.eq_nil_of_length_eq_zero (Nat.le_zero.1 hl)] at h
    exact (nomatch h)
  | succ n ih =>
    intro t v r hl h
    unfold scanString at h
    split at h
    · exact (nomatch h)
    · injection h with h
      injection h with h1 h2
      exact ⟨[], by rw [← h2]; rfl, by rw [← h1]; exact .nil⟩
    · rename_i a b c d r'
      split at h
      · exact (nomatch h)
      · rename_i m hm
        have hlt := hex4_lt hm
        split at h
        · rename_i hr
          split at h
          · rename_i e f g k r''
            split at h
            · exact (nomatch h)
            · rename_i m' hm'
              split at h
              · rename_i hr'
                cases hs : scanString r'' with
                | none => rw [hs] at h; exact (nomatch h)
                | some y =>
                  rw [hs] at h
                  injection h with h
                  injection h with h1 h2
                  obtain ⟨s, e1, e2⟩ := ih r'' y.1 y.2 (by simp only [List.length_cons] at hl; omega) hs
                  refine ⟨'\\' :: (['u', a, b, c, d] ++ '\\' :: (['u', e, f, g, k] ++ s)), by rw [e1, h2]; rfl, ?_⟩
                  rw [← h1]
                  refine .pair ((hex4_iff _ _ _ _ _).2 hm) ((hex4_iff _ _ _ _ _).2 hm') hr.1 (by omega) hr'.1 (by omega) ?_ e2
                  exact ofNat_scalar (by omega)
              · exact (nomatch h)
          · exact (nomatch h)
        · split at h
          · exact (nomatch h)
          · rename_i h1 h2
            cases hs : scanString r' with
            | none => rw [hs] at h; exact (nomatch h)
            | some y =>
              rw [hs] at h
              injection h with h
              injection h with h3 h4
              obtain ⟨s, e1, e2⟩ := ih r' y.1 y.2 (by simp only [List.length_cons] at hl; omega) hs
              refine ⟨'\\' :: (['u', a, b, c, d] ++ s), by rw [e1, h4]; rfl, ?_⟩
              rw [← h3]
              refine .unicode ?_ e2
              rw [ofNat_scalar (by omega)]
              exact (hex4_iff _ _ _ _ _).2 hm
    · rename_i c r' _
      split at h
      · exact (nomatch h)
      · rename_i x hx
        cases hs : scanString r' with
        | none => rw [hs] at h; exact (nomatch h)
        | some y =>
          rw [hs] at h
          injection h with h
          injection h with h1 h2
          obtain ⟨s, e1, e2⟩ := ih r' y.1 y.2 (by simp only [List.length_cons] at hl; omega) hs
          exact ⟨'\\' :: c :: s, by rw [e1, h2]; rfl, by rw [← h1]; exact .short ((unescape_iff c x).2 hx) e2⟩
    · rename_i c r' hq _ _
      split at h
      · exact (nomatch h)
      · rename_i hc
        cases hs : scanString r' with
        | none => rw [hs] at h; exact (nomatch h)
        | some y =>
          rw [hs] at h
          injection h with h
          injection h with h1 h2
          obtain ⟨s, e1, e2⟩ := ih r' y.1 y.2 (by simp only [List.length_cons] at hl; omega) hs
          simp only [Bool.or_eq_true, decide_eq_true_eq, beq_iff_eq, not_or] at hc
          exact ⟨c :: s, by rw [e1, h2]; rfl, by rw [← h1]; exact .plain (by omega) (fun e => hq e) hc.2 e2⟩

end Verif.JsonText
