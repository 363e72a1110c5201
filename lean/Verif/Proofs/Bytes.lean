import Verif.Py.Bytes
/-! Lemmas about the Python primitives of `Py/Bytes.lean`. -/
namespace Verif

theorem u8_ofNat_toNat {n : Nat} (h : n < 256) : (UInt8.ofNat n).toNat = n := by
  simp [UInt8.toNat_ofNat']; omega

theorem scalar?_val (lo : Nat) (c : Char) (h : lo ≤ c.val.toNat) : scalar? lo c.val.toNat = some c := by
  have hv : c.val.toNat.isValidChar := c.valid
  simp only [scalar?, h, if_true, hv, dite_true]
  rfl

theorem cont?_ofNat (n : Nat) (h : n < 64) : cont? (UInt8.ofNat (n + 128)) = some n := by
  have h1 : (UInt8.ofNat (n + 128)).toNat = n + 128 := u8_ofNat_toNat (by omega)
  simp only [cont?, h1]
  rw [if_pos (by omega)]
  congr 1; omega

theorem utf8Decode_encodeChar (c : Char) (r : Bytes) :
    utf8Decode (String.utf8EncodeChar c ++ r) = (utf8Decode r).map (c :: ·) := by
  have hlt : c.val.toNat < 1114112 := by
    have := c.valid; simp only [UInt32.isValidChar, Nat.isValidChar] at this; omega
  unfold String.utf8EncodeChar
  simp only
  split
  · rename_i h
    have h1 : (UInt8.ofNat c.val.toNat).toNat = c.val.toNat := u8_ofNat_toNat (by omega)
    simp only [List.cons_append, List.nil_append]
    rw [utf8Decode.eq_def (_ :: _)]
    simp only [h1]
    rw [if_pos (by omega), scalar?_val 0 c (by omega)]
    cases utf8Decode r <;> rfl
  · split
    · have h1 : (UInt8.ofNat (c.val.toNat / 64 % 32 + 192)).toNat = c.val.toNat / 64 % 32 + 192 := u8_ofNat_toNat (by omega)
      simp only [List.cons_append, List.nil_append]
      rw [utf8Decode.eq_def (_ :: _)]
      simp only [h1]
      rw [if_neg (by omega), if_pos (by omega), cont?_ofNat _ (by omega)]
      have : (c.val.toNat / 64 % 32 + 192) % 32 * 64 + c.val.toNat % 64 = c.val.toNat := by omega
      simp only [Option.bind_eq_bind, Option.bind_some, this]
      rw [scalar?_val 128 c (by omega)]
      cases utf8Decode r <;> rfl
    · split
      · have h1 : (UInt8.ofNat (c.val.toNat / 4096 % 16 + 224)).toNat = c.val.toNat / 4096 % 16 + 224 := u8_ofNat_toNat (by omega)
        simp only [List.cons_append, List.nil_append]
        rw [utf8Decode.eq_def (_ :: _)]
        simp only [h1]
        rw [if_neg (by omega), if_neg (by omega), if_pos (by omega), cont?_ofNat _ (by omega), cont?_ofNat _ (by omega)]
        have : (c.val.toNat / 4096 % 16 + 224) % 16 * 4096 + c.val.toNat / 64 % 64 * 64 + c.val.toNat % 64 = c.val.toNat := by omega
        simp only [Option.bind_eq_bind, Option.bind_some, this]
        rw [scalar?_val 2048 c (by omega)]
        cases utf8Decode r <;> rfl
      · have h1 : (UInt8.ofNat (c.val.toNat / 262144 % 8 + 240)).toNat = c.val.toNat / 262144 % 8 + 240 := u8_ofNat_toNat (by omega)
        simp only [List.cons_append, List.nil_append]
        rw [utf8Decode.eq_def (_ :: _)]
        simp only [h1]
        rw [if_neg (by omega), if_neg (by omega), if_neg (by omega), if_pos (by omega), cont?_ofNat _ (by omega), cont?_ofNat _ (by omega), cont?_ofNat _ (by omega)]
        have : (c.val.toNat / 262144 % 8 + 240) % 8 * 262144 + c.val.toNat / 4096 % 64 * 4096 + c.val.toNat / 64 % 64 * 64 + c.val.toNat % 64 = c.val.toNat := by omega
        simp only [Option.bind_eq_bind, Option.bind_some, this]
        rw [scalar?_val 65536 c (by omega)]
        cases utf8Decode r <;> rfl

/-- `s.encode("utf-8").decode("utf-8") == s`. -/
theorem utf8Decode_encode (s : Text) : utf8Decode (utf8Encode s) = some s := by
  induction s with
  | nil => rfl
  | cons c s ih =>
    have : utf8Encode (c :: s) = String.utf8EncodeChar c ++ utf8Encode s := rfl
    rw [this, utf8Decode_encodeChar, ih]; rfl

theorem utf8Encode_injective {s t : Text} (h : utf8Encode s = utf8Encode t) : s = t := by
  have := congrArg utf8Decode h
  simpa [utf8Decode_encode] using this

theorem isDigitB_dec (d : Nat) (h : d < 10) : isDigitB (UInt8.ofNat (48 + d)) = true := by
  have : (UInt8.ofNat (48 + d)).toNat = 48 + d := u8_ofNat_toNat (by omega)
  simp only [isDigitB, this, Bool.and_eq_true, decide_eq_true_eq]; omega

theorem decNatF_fuel (f g n : Nat) (hf : n < f) (hg : n < g) : decNatF f n = decNatF g n := by
  induction f generalizing g n with
  | zero => omega
  | succ f ih =>
    cases g with
    | zero => omega
    | succ g =>
      simp only [decNatF]
      split
      · rfl
      · rw [ih g (n / 10) (by omega) (by omega)]

theorem decNat_eq (n : Nat) :
    decNat n = if n < 10 then [UInt8.ofNat (48 + n)] else decNat (n / 10) ++ [UInt8.ofNat (48 + n % 10)] := by
  simp only [decNat]
  rw [decNatF]
  split
  · rfl
  · rw [decNatF_fuel n (n / 10 + 1) (n / 10) (by omega) (by omega)]

theorem decNat_induct (P : Nat → Prop) (h1 : ∀ n, n < 10 → P n) (h2 : ∀ n, ¬ n < 10 → P (n / 10) → P n) (n : Nat) : P n := by
  induction n using Nat.strongRecOn with
  | _ n ih =>
    by_cases h : n < 10
    · exact h1 n h
    · exact h2 n h (ih _ (by omega))

theorem decNat_ne_nil (n : Nat) : decNat n ≠ [] := by
  rw [decNat_eq]; split <;> simp

theorem decNat_all_digits (n : Nat) : ∀ b ∈ decNat n, isDigitB b = true := by
  induction n using decNat_induct with
  | h1 n h => rw [decNat_eq, if_pos h]; intro b hb; simp only [List.mem_singleton] at hb; subst hb; exact isDigitB_dec n h
  | h2 n h ih =>
    rw [decNat_eq, if_neg h]; intro b hb
    rw [List.mem_append] at hb
    rcases hb with hb | hb
    · exact ih b hb
    · simp only [List.mem_singleton] at hb; subst hb; exact isDigitB_dec _ (Nat.mod_lt _ (by omega))

theorem parseDigits_decNat (n : Nat) (r : Bytes) (l : Bool) :
    parseDigits 0 l (decNat n ++ r) = parseDigits n true r := by
  induction n using decNat_induct generalizing r l with
  | h1 n h =>
    rw [decNat_eq, if_pos h]
    simp only [List.cons_append, List.nil_append, parseDigits, isDigitB_dec n h, if_true]
    rw [u8_ofNat_toNat (by omega)]; congr 1; omega
  | h2 n h ih =>
    rw [decNat_eq, if_neg h]
    rw [List.append_assoc, ih]
    simp only [List.cons_append, List.nil_append, parseDigits, isDigitB_dec _ (Nat.mod_lt n (by omega : 10 > 0)), if_true]
    rw [u8_ofNat_toNat (by omega)]; congr 1; omega

theorem isDigitB_not_space {b : UInt8} (h : isDigitB b = true) : isSpaceB b = false := by
  simp [isDigitB, isSpaceB] at *; omega

theorem stripRight_of_all_not_space (bs : Bytes) (h : ∀ b ∈ bs, isSpaceB b = false) : stripRight bs = bs := by
  induction bs with
  | nil => rfl
  | cons b bs ih =>
    have hb := h b (by simp)
    have := ih (fun x hx => h x (by simp [hx]))
    simp only [stripRight, this]
    cases bs with
    | nil => simp [hb]
    | cons => rfl

theorem dropWhile_not_space (bs : Bytes) (h : ∀ b ∈ bs, isSpaceB b = false) : bs.dropWhile isSpaceB = bs := by
  cases bs with
  | nil => rfl
  | cons b bs => simp [List.dropWhile, h b (by simp)]

theorem pyInt_digits (bs : Bytes) (h : ∀ b ∈ bs, isDigitB b = true) :
    pyInt bs = (parseDigits 0 false bs).map Int.ofNat := by
  have hs : ∀ b ∈ bs, isSpaceB b = false := fun b hb => isDigitB_not_space (h b hb)
  simp only [pyInt]
  rw [stripRight_of_all_not_space _ hs, dropWhile_not_space _ hs]
  cases bs with
  | nil => rfl
  | cons b bs =>
    have hb := h b (by simp)
    split
    · rename_i heq; injection heq with h1 _; subst h1; exact absurd hb (by decide)
    · rename_i heq; injection heq with h1 _; subst h1; exact absurd hb (by decide)
    · rfl

theorem pyInt_decNat (n : Nat) : pyInt (decNat n) = some (n : Int) := by
  rw [pyInt_digits _ (decNat_all_digits n)]
  have := parseDigits_decNat n [] false
  rw [List.append_nil] at this
  rw [this]; rfl

/-- `int("{}".format(i).encode()) == i`. -/
theorem pyInt_decInt (i : Int) : pyInt (decInt i) = some i := by
  cases i with
  | ofNat n => exact pyInt_decNat n
  | negSucc n =>
    have hs : ∀ b ∈ (45 :: decNat (n + 1) : Bytes), isSpaceB b = false := by
      intro b hb
      rcases List.mem_cons.1 hb with h | h
      · subst h; decide
      · exact isDigitB_not_space (decNat_all_digits _ b h)
    simp only [pyInt, decInt]
    rw [stripRight_of_all_not_space _ hs, dropWhile_not_space _ hs]
    have := parseDigits_decNat (n + 1) [] false
    rw [List.append_nil] at this
    simp only [this, parseDigits, if_true, Option.map_some]
    rfl

theorem decInt_ne_nil (i : Int) : decInt i ≠ [] := by
  cases i with
  | ofNat n => exact decNat_ne_nil n
  | negSucc n => simp [decInt]

/-- Bytes of a formatted integer are digits or `-`. -/
theorem decInt_bytes (i : Int) : ∀ b ∈ decInt i, (!isDigitB b && b != 45) = false := by
  intro b hb
  cases i with
  | ofNat n => simp [decNat_all_digits n b hb]
  | negSucc n =>
    rcases List.mem_cons.1 hb with h | h
    · subst h; rfl
    · simp [decNat_all_digits _ b h]

theorem bytesLt_irrefl (a : Bytes) : bytesLt a a = false := by
  induction a with
  | nil => rfl
  | cons x xs ih => simp [bytesLt, ih]

theorem bytesLt_asymm {a b : Bytes} (h : bytesLt a b = true) : bytesLt b a = false := by
  induction a generalizing b with
  | nil => cases b <;> simp_all [bytesLt]
  | cons x xs ih =>
    cases b with
    | nil => simp [bytesLt] at h
    | cons y ys =>
      simp only [bytesLt] at h ⊢
      split at h
      · rw [if_neg (by omega), if_pos (by omega)]
      · split at h
        · simp at h
        · rw [if_neg (by omega), if_neg (by omega)]; exact ih h

theorem bytesLt_total {a b : Bytes} (h : a ≠ b) : bytesLt a b = true ∨ bytesLt b a = true := by
  induction a generalizing b with
  | nil => cases b <;> simp_all [bytesLt]
  | cons x xs ih =>
    cases b with
    | nil => simp [bytesLt]
    | cons y ys =>
      simp only [bytesLt]
      by_cases h1 : x.toNat < y.toNat
      · simp [h1]
      · by_cases h2 : y.toNat < x.toNat
        · simp [h2]
        · rw [if_neg h1, if_neg h2, if_neg h2, if_neg h1]
          apply ih
          intro he; subst he
          exact h (by congr 1; exact UInt8.toNat_inj.1 (by omega))

theorem bytesLt_trans {a b c : Bytes} (h1 : bytesLt a b = true) (h2 : bytesLt b c = true) : bytesLt a c = true := by
  induction a generalizing b c with
  | nil => cases b <;> cases c <;> simp_all [bytesLt]
  | cons x xs ih =>
    cases b with
    | nil => simp [bytesLt] at h1
    | cons y ys =>
      cases c with
      | nil => simp [bytesLt] at h2
      | cons z zs =>
        simp only [bytesLt] at *
        split at h1
        · split at h2
          · rw [if_pos (by omega)]
          · split at h2
            · simp at h2
            · rw [if_pos (by omega)]
        · split at h1
          · simp at h1
          · split at h2
            · rw [if_pos (by omega)]
            · split at h2
              · simp at h2
              · rw [if_neg (by omega), if_neg (by omega)]; exact ih h1 h2

end Verif
