import Verif.Spec.Library
import Verif.Proofs.Bytes
import Verif.Proofs.Text
import Verif.Proofs.Path
/-!
Lemmas for `Verif.Props.Library`.
-/
namespace Verif.Library
open Verif

theorem scalar?_iff (lo n : Nat) (c : Char) : scalar? lo n = some c ↔ lo ≤ n ∧ c.val.toNat = n := by
  constructor
  · intro h
    simp only [scalar?] at h
    split at h
    · rename_i hlo
      split at h
      · rename_i hv
        injection h with h
        refine ⟨hlo, ?_⟩
        subst h
        have hlt : n < 4294967296 := by simp only [Nat.isValidChar] at hv; omega
        simp only [Char.ofNatAux, UInt32.toNat]
        rfl
      · exact nomatch h
    · exact nomatch h
  · rintro ⟨h1, rfl⟩
    exact scalar?_val lo c h1

theorem cont?_iff (b : UInt8) (x : Nat) : cont? b = some x ↔ b.toNat = 128 + x ∧ x < 64 := by
  simp only [cont?]
  have := b.toNat_lt
  split
  · simp only [Option.some.injEq]; omega
  · simp only [reduceCtorEq, false_iff]; omega

theorem byte_eq {a : UInt8} {n : Nat} (h : a.toNat = n) : UInt8.ofNat n = a := by
  rw [← h, UInt8.ofNat_toNat]

/-- The first character of some data. -/
theorem firstChar_sound {bs : Bytes} {c : Char} {n : Nat} (h : firstChar bs = some (c, n)) :
    (String.utf8EncodeChar c).length = n + 1 ∧ bs = String.utf8EncodeChar c ++ bs.drop (n + 1) := by
  cases bs with
  | nil => exact nomatch h
  | cons a r =>
    have ha := a.toNat_lt
    simp only [firstChar] at h
    split at h
    · rename_i h1
      simp only [Option.map_eq_some_iff, Prod.mk.injEq] at h
      obtain ⟨c', h2, rfl, rfl⟩ := h
      obtain ⟨_, h2⟩ := (scalar?_iff _ _ _).1 h2
      have e : String.utf8EncodeChar c' = [a] := by
        unfold String.utf8EncodeChar
        simp only [h2]
        rw [if_pos (by omega), byte_eq rfl]
      rw [e]
      exact ⟨rfl, rfl⟩
    · rename_i h1
      split at h
      · rename_i h2
        split at h
        · rename_i b r
          simp only [Option.bind_eq_bind, Option.bind_eq_some_iff, Option.pure_def, Option.some.injEq, Prod.mk.injEq] at h
          obtain ⟨x, h3, c', h4, rfl, rfl⟩ := h
          obtain ⟨h3, h5⟩ := (cont?_iff _ _).1 h3
          obtain ⟨h4, h6⟩ := (scalar?_iff _ _ _).1 h4
          have e : String.utf8EncodeChar c' = [a, b] := by
            unfold String.utf8EncodeChar
            simp only [h6]
            rw [if_neg (by omega), if_pos (by omega), byte_eq (a := a) (by omega), byte_eq (a := b) (by omega)]
          rw [e]
          exact ⟨rfl, rfl⟩
        · exact nomatch h
      · rename_i h2
        split at h
        · rename_i h2'
          split at h
          · rename_i b b' r
            simp only [Option.bind_eq_bind, Option.bind_eq_some_iff, Option.pure_def, Option.some.injEq, Prod.mk.injEq] at h
            obtain ⟨x, h3, y, h3', c', h4, rfl, rfl⟩ := h
            obtain ⟨h3, h5⟩ := (cont?_iff _ _).1 h3
            obtain ⟨h3', h5'⟩ := (cont?_iff _ _).1 h3'
            obtain ⟨h4, h6⟩ := (scalar?_iff _ _ _).1 h4
            have e : String.utf8EncodeChar c' = [a, b, b'] := by
              unfold String.utf8EncodeChar
              simp only [h6]
              rw [if_neg (by omega), if_neg (by omega), if_pos (by omega), byte_eq (a := a) (by omega), byte_eq (a := b) (by omega),
                byte_eq (a := b') (by omega)]
            rw [e]
            exact ⟨rfl, rfl⟩
          · exact nomatch h
        · rename_i h2'
          split at h
          · rename_i h2''
            split at h
            · rename_i b b' b'' r
              simp only [Option.bind_eq_bind, Option.bind_eq_some_iff, Option.pure_def, Option.some.injEq, Prod.mk.injEq] at h
              obtain ⟨x, h3, y, h3', z, h3'', c', h4, rfl, rfl⟩ := h
              obtain ⟨h3, h5⟩ := (cont?_iff _ _).1 h3
              obtain ⟨h3', h5'⟩ := (cont?_iff _ _).1 h3'
              obtain ⟨h3'', h5''⟩ := (cont?_iff _ _).1 h3''
              obtain ⟨h4, h6⟩ := (scalar?_iff _ _ _).1 h4
              have e : String.utf8EncodeChar c' = [a, b, b', b''] := by
                unfold String.utf8EncodeChar
                simp only [h6]
                rw [if_neg (by omega), if_neg (by omega), if_neg (by omega), byte_eq (a := a) (by omega), byte_eq (a := b) (by omega),
                  byte_eq (a := b') (by omega), byte_eq (a := b'') (by omega)]
              rw [e]
              exact ⟨rfl, rfl⟩
            · exact nomatch h
          · exact nomatch h

theorem firstChar_encoded (c : Char) (r : Bytes) :
    firstChar (String.utf8EncodeChar c ++ r) = some (c, (String.utf8EncodeChar c).length - 1) := by
  have hlt : c.val.toNat < 1114112 := by
    have := c.valid; simp only [UInt32.isValidChar, Nat.isValidChar] at this; omega
  unfold String.utf8EncodeChar
  simp only
  split
  · have h1 : (UInt8.ofNat c.val.toNat).toNat = c.val.toNat := u8_ofNat_toNat (by omega)
    simp only [List.cons_append, List.nil_append, firstChar, h1]
    rw [if_pos (by omega), scalar?_val 0 c (by omega)]
    rfl
  · split
    · have h1 : (UInt8.ofNat (c.val.toNat / 64 % 32 + 192)).toNat = c.val.toNat / 64 % 32 + 192 := u8_ofNat_toNat (by omega)
      simp only [List.cons_append, List.nil_append, firstChar, h1]
      rw [if_neg (by omega), if_pos (by omega), cont?_ofNat _ (by omega)]
      have : (c.val.toNat / 64 % 32 + 192) % 32 * 64 + c.val.toNat % 64 = c.val.toNat := by omega
      simp only [Option.bind_eq_bind, Option.bind_some, this]
      rw [scalar?_val 128 c (by omega)]
      rfl
    · split
      · have h1 : (UInt8.ofNat (c.val.toNat / 4096 % 16 + 224)).toNat = c.val.toNat / 4096 % 16 + 224 := u8_ofNat_toNat (by omega)
        simp only [List.cons_append, List.nil_append, firstChar, h1]
        rw [if_neg (by omega), if_neg (by omega), if_pos (by omega), cont?_ofNat _ (by omega), cont?_ofNat _ (by omega)]
        have : (c.val.toNat / 4096 % 16 + 224) % 16 * 4096 + c.val.toNat / 64 % 64 * 64 + c.val.toNat % 64 = c.val.toNat := by omega
        simp only [Option.bind_eq_bind, Option.bind_some, this]
        rw [scalar?_val 2048 c (by omega)]
        rfl
      · have h1 : (UInt8.ofNat (c.val.toNat / 262144 % 8 + 240)).toNat = c.val.toNat / 262144 % 8 + 240 := u8_ofNat_toNat (by omega)
        simp only [List.cons_append, List.nil_append, firstChar, h1]
        rw [if_neg (by omega), if_neg (by omega), if_neg (by omega), if_pos (by omega), cont?_ofNat _ (by omega), cont?_ofNat _ (by omega),
          cont?_ofNat _ (by omega)]
        have : (c.val.toNat / 262144 % 8 + 240) % 8 * 262144 + c.val.toNat / 4096 % 64 * 4096 + c.val.toNat / 64 % 64 * 64 + c.val.toNat % 64 =
          c.val.toNat := by omega
        simp only [Option.bind_eq_bind, Option.bind_some, this]
        rw [scalar?_val 65536 c (by omega)]
        rfl

theorem firstChar_none {bs : Bytes} (h : firstChar bs = none) : ∀ c r, bs ≠ String.utf8EncodeChar c ++ r := by
  rintro c r rfl
  rw [firstChar_encoded] at h
  exact nomatch h

theorem utf8_cons (c : Char) (t : Text) : utf8Encode (c :: t) = String.utf8EncodeChar c ++ utf8Encode t := rfl

theorem decode_sound (n : Nat) (bs : Bytes) (t : Text) (hn : bs.length ≤ n) (h : utf8Decode bs = some t) : bs = utf8Encode t := by
  induction n generalizing bs t with
  | zero =>
    cases bs with
    | nil => simp only [utf8Decode, Option.some.injEq] at h; subst h; rfl
    | cons a r => simp at hn
  | succ n ih =>
    cases bs with
    | nil => simp only [utf8Decode, Option.some.injEq] at h; subst h; rfl
    | cons a r =>
      rw [utf8Decode_cons] at h
      simp only [Option.bind_eq_some_iff, Option.map_eq_some_iff] at h
      obtain ⟨⟨c, k⟩, h1, t', h2, rfl⟩ := h
      obtain ⟨_, h3⟩ := firstChar_sound h1
      rw [utf8_cons, h3, ← ih _ t' (by simp only [List.length_drop, List.length_cons] at hn ⊢; omega) h2]
      rfl

theorem ignore_cons (a : UInt8) (r : Bytes) : utf8DecodeIgnore (a :: r) = match firstChar (a :: r) with
    | some (c, n) => c :: utf8DecodeIgnore (r.drop n)
    | none => utf8DecodeIgnore r := by
  simp only [utf8DecodeIgnore, decodeIgnoreF]
  cases firstChar (a :: r) with
  | none => rfl
  | some x => simp only; rw [decodeIgnoreF_drop]

theorem ignoring (n : Nat) (bs : Bytes) (hn : bs.length ≤ n) : Ignoring bs (utf8DecodeIgnore bs) := by
  induction n generalizing bs with
  | zero =>
    cases bs with
    | nil => exact .nil
    | cons a r => simp at hn
  | succ n ih =>
    cases bs with
    | nil => exact .nil
    | cons a r =>
      rw [ignore_cons]
      cases hf : firstChar (a :: r) with
      | none => exact .skip (firstChar_none hf) (ih r (by simpa using hn))
      | some x =>
        obtain ⟨c, k⟩ := x
        obtain ⟨_, h3⟩ := firstChar_sound hf
        rw [h3]
        exact .char (ih _ (by simp only [List.length_drop, List.length_cons] at hn ⊢; omega))

theorem ignoring_unique {bs : Bytes} {t : Text} (h : Ignoring bs t) : utf8DecodeIgnore bs = t := by
  induction h with
  | nil => rfl
  | @char c r t _ ih =>
    have hf := firstChar_encoded c r
    obtain ⟨a, l, e⟩ : ∃ a l, String.utf8EncodeChar c = a :: l := by
      cases he : String.utf8EncodeChar c with
      | nil =>
        have := utf8Decode_encodeChar c []
        rw [he] at this
        exact nomatch this
      | cons a l => exact ⟨a, l, rfl⟩
    rw [e, List.cons_append] at hf ⊢
    rw [ignore_cons, hf]
    simp [ih]
  | @skip b r t hb _ ih =>
    rw [ignore_cons]
    cases hf : firstChar (b :: r) with
    | none => exact ih
    | some x => exact absurd (firstChar_sound hf).2 (hb _ _)

theorem bytesLt_sound {a b : Bytes} (h : bytesLt a b = true) : Before a b := by
  induction a generalizing b with
  | nil =>
    cases b with
    | nil => exact nomatch h
    | cons y s => exact .inl ⟨y :: s, by simp, rfl⟩
  | cons x a ih =>
    cases b with
    | nil => exact nomatch h
    | cons y b =>
      simp only [bytesLt] at h
      split at h
      · rename_i hx; exact .inr ⟨[], x, y, a, b, rfl, rfl, hx⟩
      · split at h
        · exact nomatch h
        · have e : x = y := UInt8.toNat_inj.1 (by omega)
          subst e
          rcases ih h with ⟨c, h1, rfl⟩ | ⟨p, u, v, r, s, rfl, rfl, h1⟩
          · exact .inl ⟨c, h1, rfl⟩
          · exact .inr ⟨x :: p, u, v, r, s, rfl, rfl, h1⟩

theorem bytesLt_complete {a b : Bytes} (h : Before a b) : bytesLt a b = true := by
  have hp : ∀ p a b : Bytes, bytesLt (p ++ a) (p ++ b) = bytesLt a b := by
    intro p a b
    induction p with
    | nil => rfl
    | cons x p ih => simp [bytesLt, ih]
  rcases h with ⟨c, h1, rfl⟩ | ⟨p, x, y, r, s, rfl, rfl, h1⟩
  · have := hp a [] c
    rw [List.append_nil] at this
    rw [this]
    cases c with
    | nil => exact absurd rfl h1
    | cons y s => rfl
  · rw [hp]
    simp [bytesLt, h1]

theorem pieces_split (sep : Char) (s : Text) : Pieces sep s (splitOn sep s) := by
  induction s with
  | nil => exact .last (by simp)
  | cons x s ih =>
    simp only [splitOn]
    split
    · rename_i hx
      subst hx
      exact .more (p := []) (by simp) ih
    · rename_i hx
      generalize splitOn sep s = ps at ih ⊢
      cases ih with
      | last h => exact .last (by simp [h, Ne.symm hx])
      | @more p s ps h h2 => exact .more (p := x :: p) (by simp [h, Ne.symm hx]) h2

theorem pieces_unique {sep : Char} {s : Text} {ps : List Text} (h : Pieces sep s ps) : splitOn sep s = ps := by
  induction h with
  | last h => exact splitOn_plain sep _ h
  | more h _ ih => rw [splitOn_append, splitOn_plain sep _ h, ih]; rfl

/-- Directory and name are unique. -/
theorem parts_unique {p h t h' t' : Text} (a : Parts p h t) (b : Parts p h' t') : h = h' ∧ t = t' := by
  -- both say: `p = d ++ t`, where `d` is empty or ends with a slash, and `h` is `d` without the slashes at its end unless it has only slashes
  have key : ∀ {h t : Text}, Parts p h t → t = (splitOn '/' p).getLastD [] ∧ ∃ d, p = d ++ t ∧
      ((h = d ∧ ∀ c ∈ d, c = '/') ∨ ∃ s, s ≠ [] ∧ (∀ c ∈ s, c = '/') ∧ d = h ++ s ∧ ∃ c, h.getLast? = some c ∧ c ≠ '/') := by
    intro h t ⟨h1, h2⟩
    have hl : ∀ d : Text, d.getLast? = some '/' → (splitOn '/' (d ++ t)).getLastD [] = t := by
      intro d hd
      obtain ⟨d', rfl⟩ := List.getLast?_eq_some_iff.1 hd
      rw [List.append_assoc, List.singleton_append, splitOn_append, splitOn_plain _ t h1]
      simp
    rcases h2 with ⟨rfl, h2⟩ | ⟨s, h2, h3, rfl, h4⟩
    · refine ⟨?_, h, rfl, .inl ⟨rfl, h2⟩⟩
      cases h with
      | nil => rw [List.nil_append, splitOn_plain _ t h1]; rfl
      | cons x h =>
        refine (hl (x :: h) ?_).symm
        rw [List.getLast?_eq_some_getLast (by simp)]
        congr 1
        exact h2 _ (List.getLast_mem _)
    · refine ⟨?_, h ++ s, rfl, .inr ⟨s, h2, h3, rfl, h4⟩⟩
      refine (hl (h ++ s) ?_).symm
      rw [List.getLast?_append, List.getLast?_eq_some_getLast h2]
      simp only [Option.some_or, Option.some.injEq]
      exact h3 _ (List.getLast_mem _)
  obtain ⟨a1, d, a2, a3⟩ := key a
  obtain ⟨b1, d', b2, b3⟩ := key b
  have ht : t = t' := a1.trans b1.symm
  subst ht
  have hd : d = d' := List.append_cancel_right (a2.symm.trans b2)
  subst hd
  refine ⟨?_, rfl⟩
  have strip : ∀ {h s : Text}, (∀ c ∈ s, c = '/') → (∃ c, h.getLast? = some c ∧ c ≠ '/') → ((h ++ s).reverse.dropWhile (· == '/')).reverse = h := by
    rintro h s hs ⟨c, hc, hne⟩
    obtain ⟨h', rfl⟩ := List.getLast?_eq_some_iff.1 hc
    rw [List.reverse_append, List.dropWhile_append_of_pos (by simpa using hs)]
    simp [hne]
  rcases a3 with ⟨rfl, a3⟩ | ⟨s, a3, a4, a5, a6⟩
  · rcases b3 with ⟨rfl, b3⟩ | ⟨s, b3, b4, rfl, c, b5, b6⟩
    · rfl
    · exact absurd (a3 c (List.mem_append_left _ (List.mem_of_getLast? b5))) b6
  · rcases b3 with ⟨rfl, b3⟩ | ⟨s', b3, b4, b5, b6⟩
    · obtain ⟨c, a6, a7⟩ := a6
      subst a5
      exact absurd (b3 c (List.mem_append_left _ (List.mem_of_getLast? a6))) a7
    · rw [← strip a4 a6, ← a5, b5, strip b4 b6]

theorem parts_split (p : Text) : Parts p (Path.split p).1 (Path.split p).2 := by
  obtain ⟨h1, h2, h3⟩ := splitLast_spec p
  refine ⟨split_noslash p, ?_⟩
  simp only [Path.split]
  split
  · rename_i hall
    exact .inl ⟨h1.symm, by simpa using hall⟩
  · rename_i hall
    right
    generalize (Path.splitLast p).1 = d at h1 h3 hall
    have hd := List.takeWhile_append_dropWhile (p := fun x : Char => x == '/') (l := d.reverse)
    have hd : (d.reverse.dropWhile (· == '/')).reverse ++ (d.reverse.takeWhile (· == '/')).reverse = d := by
      rw [← List.reverse_append, hd, List.reverse_reverse]
    refine ⟨(d.reverse.takeWhile (· == '/')).reverse, ?_, ?_, ?_, ?_⟩
    · rcases h3 with rfl | ⟨h, rfl⟩
      · simp at hall
      · simp
    · intro c hc
      have := List.all_eq_true.1 (List.all_takeWhile (p := fun x : Char => x == '/') (l := d.reverse)) c (by simpa using hc)
      simpa using this
    · simp only [hd, h1]
    · cases hw : d.reverse.dropWhile (· == '/') with
      | nil =>
        exfalso
        apply hall
        rw [hw] at hd
        rw [← hd, List.reverse_nil, List.nil_append, List.all_reverse]
        exact List.all_takeWhile
      | cons x r =>
        refine ⟨x, by simp, ?_⟩
        have := List.head_dropWhile_not (fun x : Char => x == '/') (l := d.reverse) (by rw [hw]; simp)
        simpa [hw] using this

theorem splitext_sound (p : Text) : Extension p (Path.splitext p).1 (Path.splitext p).2 := by
  have hd := List.takeWhile_append_dropWhile (p := fun x : Char => x != '.') (l := p.reverse)
  have hp : (p.reverse.dropWhile (· != '.')).reverse ++ (p.reverse.takeWhile (· != '.')).reverse = p := by
    rw [← List.reverse_append, hd, List.reverse_reverse]
  have hno : '.' ∉ (p.reverse.takeWhile (· != '.')).reverse := by
    intro hm
    have := List.all_eq_true.1 (List.all_takeWhile (p := fun x : Char => x != '.') (l := p.reverse)) '.' (by simpa using hm)
    simp at this
  simp only [Path.splitext]
  cases hw : p.reverse.dropWhile (· != '.') with
  | nil =>
    rw [hw, List.reverse_nil, List.nil_append] at hp
    rw [hp, if_pos rfl]
    exact ⟨by simp, .inr ⟨rfl, [], p, rfl, (fun _ h => nomatch h), by rw [← hp]; exact hno⟩⟩
  | cons x r =>
    have hx : x = '.' := by
      have := List.head_dropWhile_not (fun x : Char => x != '.') (l := p.reverse) (by rw [hw]; simp)
      simpa [hw] using this
    subst hx
    generalize (p.reverse.takeWhile (· != '.')).reverse = ext at hp hno
    rw [hw, List.reverse_cons, List.append_assoc, List.singleton_append] at hp
    have hlen := congrArg List.length hp
    simp only [List.length_append, List.length_cons] at hlen
    rw [if_neg (by omega)]
    have htake : p.take (p.length - ext.length - 1) = r.reverse := by
      rw [← hp, List.take_left']
      simp only [List.length_append, List.length_cons]
      omega
    rw [htake]
    split
    · rename_i hall
      refine ⟨by simp, .inr ⟨rfl, r.reverse ++ ['.'], ext, by rw [← hp]; simp, ?_, hno⟩⟩
      intro c hc
      rcases List.mem_append.1 hc with hc | hc
      · simpa using List.all_eq_true.1 hall c hc
      · simpa using hc
    · rename_i hall
      refine ⟨hp.symm, .inl ⟨ext, rfl, hno, ?_⟩⟩
      simpa using hall

theorem extension_unique {p b e b' e' : Text} (h : Extension p b e) (h' : Extension p b' e') : b = b' ∧ e = e' := by
  have last : ∀ {x y u v : Text}, '.' ∉ u → '.' ∉ v → x ++ '.' :: u = y ++ '.' :: v → x = y ∧ u = v := by
    intro x y u v hu hv he
    have h1 := congrArg (splitOn '.') he
    rw [splitOn_append, splitOn_append, splitOn_plain _ u hu, splitOn_plain _ v hv] at h1
    have h2 := (List.append_inj' h1 rfl).2
    injection h2 with h2 _
    subst h2
    exact ⟨List.append_cancel_right he, rfl⟩
  have clash : ∀ {b x dots rest : Text}, '.' ∉ x → (∃ c ∈ b, c ≠ '.') → (∀ c ∈ dots, c = '.') → '.' ∉ rest → b ++ '.' :: x ≠ dots ++ rest := by
    rintro b x dots rest hx ⟨c, hc, hne⟩ hdots hrest he
    rcases List.eq_nil_or_concat dots with rfl | ⟨dots, d, rfl⟩
    · exact hrest (by rw [List.nil_append] at he; rw [← he]; simp)
    · have hd : d = '.' := hdots d (by simp)
      subst hd
      rw [List.concat_eq_append, List.append_assoc, List.singleton_append] at he
      obtain ⟨rfl, _⟩ := last hx hrest he
      exact hne (hdots c (by simp [hc]))
  obtain ⟨h1, h2⟩ := h
  obtain ⟨h3, h4⟩ := h'
  rcases h2 with ⟨x, rfl, hx, hb⟩ | ⟨rfl, dots, rest, h5, h6, h7⟩
  · rcases h4 with ⟨y, rfl, hy, hb'⟩ | ⟨rfl, dots, rest, h5, h6, h7⟩
    · obtain ⟨rfl, rfl⟩ := last hx hy (h1.symm.trans h3)
      exact ⟨rfl, rfl⟩
    · exact absurd (h1.symm.trans h5) (clash hx hb h6 h7)
  · rcases h4 with ⟨y, rfl, hy, hb'⟩ | ⟨rfl, _⟩
    · exact absurd (h3.symm.trans h5) (clash hy hb' h6 h7)
    · rw [List.append_nil] at h1 h3
      exact ⟨h1.symm.trans h3, rfl⟩

end Verif.Library
