/-!
Python byte strings and text, and the conversions between them that the agent uses.

These definitions model the *Python runtime*, not the repository: `bytes`, `str`, `str.encode("utf-8")`,
`bytes.decode("utf-8")`, `int(b"...")`, `"{}".format(n)`.
-/
namespace Verif

/-- Python `bytes`. -/
abbrev Bytes := List UInt8
/-- Python `str`, restricted to Unicode scalar values (no lone surrogates: those can not be UTF-8 encoded). -/
abbrev Text := List Char

/-- A byte-string literal: `b!"abc"`-like helper for ASCII literals of the source. -/
def asc (s : String) : Bytes := s.toList.map (fun c => UInt8.ofNat c.toNat)

/-- Python `s.encode("utf-8")`. -/
def utf8Encode (s : Text) : Bytes := s.flatMap String.utf8EncodeChar

/-- A UTF-8 continuation byte `10xxxxxx`: its six payload bits. -/
def cont? (b : UInt8) : Option Nat := if b.toNat / 64 = 2 then some (b.toNat % 64) else none

/-- The character with code point `n` if `n` is a Unicode scalar value and at least `lo` (no overlong forms). -/
def scalar? (lo n : Nat) : Option Char :=
  if lo ≤ n then (if h : n.isValidChar then some (Char.ofNatAux n h) else none) else none

/-- Python `data.decode("utf-8")` (strict): `none` is `UnicodeDecodeError`. -/
def utf8Decode : Bytes → Option Text
  | [] => some []
  | a :: r =>
    if a.toNat < 128 then do
      let c ← scalar? 0 a.toNat
      let t ← utf8Decode r
      pure (c :: t)
    else if a.toNat / 32 = 6 then
      match r with
      | b :: r => do
        let x ← cont? b
        let c ← scalar? 128 (a.toNat % 32 * 64 + x)
        let t ← utf8Decode r
        pure (c :: t)
      | _ => none
    else if a.toNat / 16 = 14 then
      match r with
      | b :: b' :: r => do
        let x ← cont? b
        let y ← cont? b'
        let c ← scalar? 2048 (a.toNat % 16 * 4096 + x * 64 + y)
        let t ← utf8Decode r
        pure (c :: t)
      | _ => none
    else if a.toNat / 8 = 30 then
      match r with
      | b :: b' :: b'' :: r => do
        let x ← cont? b
        let y ← cont? b'
        let z ← cont? b''
        let c ← scalar? 65536 (a.toNat % 8 * 262144 + x * 4096 + y * 64 + z)
        let t ← utf8Decode r
        pure (c :: t)
      | _ => none
    else none

/-- Decimal digits of a natural number, most significant first. -/
def decNatF : Nat → Nat → Bytes
  | 0, _ => []
  | f + 1, n => if n < 10 then [UInt8.ofNat (48 + n)] else decNatF f (n / 10) ++ [UInt8.ofNat (48 + n % 10)]

/-- `"{}".format(n).encode()` for `n >= 0` (`decNatF` with enough fuel, see `decNat_eq`). -/
def decNat (n : Nat) : Bytes := decNatF (n + 1) n

/-- `"{}".format(i).encode()` for a Python int. -/
def decInt (i : Int) : Bytes :=
  match i with
  | .ofNat n => decNat n
  | .negSucc n => 45 :: decNat (n + 1)

/-- `c.isdigit()` for a one-byte string. -/
def isDigitB (b : UInt8) : Bool := 48 ≤ b.toNat && b.toNat ≤ 57

/-- White space skipped by `int(b"...")`: space, `\t \n \v \f \r`. -/
def isSpaceB (b : UInt8) : Bool := b.toNat == 32 || (9 ≤ b.toNat && b.toNat ≤ 13)

/-- Digits with single underscores between them, as accepted by `int()`.  `lastDigit`: the previous
byte was a digit. -/
def parseDigits (acc : Nat) (lastDigit : Bool) : Bytes → Option Nat
  | [] => if lastDigit then some acc else none
  | b :: bs =>
    if isDigitB b then parseDigits (acc * 10 + (b.toNat - 48)) true bs
    else if b.toNat == 95 && lastDigit then parseDigits acc false bs
    else none

/-- Drops trailing white space. -/
def stripRight : Bytes → Bytes
  | [] => []
  | b :: bs =>
    match stripRight bs with
    | [] => if isSpaceB b then [] else [b]
    | r => b :: r

/-- Python `int(b"...")`; `none` is `ValueError`. -/
def pyInt (bs : Bytes) : Option Int :=
  match (stripRight bs).dropWhile isSpaceB with
  | 43 :: r => (parseDigits 0 false r).map Int.ofNat
  | 45 :: r => (parseDigits 0 false r).map fun n => - Int.ofNat n
  | r => (parseDigits 0 false r).map Int.ofNat

/-- `sys.maxsize` on a 64-bit platform. -/
def maxSize : Nat := 2 ^ 63 - 1

/-- Lexicographic `a < b` on byte strings, as used by `sorted()`. -/
def bytesLt : Bytes → Bytes → Bool
  | [], [] => false
  | [], _ :: _ => true
  | _ :: _, [] => false
  | a :: as, b :: bs => if a.toNat < b.toNat then true else if b.toNat < a.toNat then false else bytesLt as bs

instance {ε α : Type} [DecidableEq ε] [DecidableEq α] : DecidableEq (Except ε α) := fun x y =>
  match x, y with
  | .ok a, .ok b => if h : a = b then isTrue (h ▸ rfl) else isFalse (fun e => h (Except.ok.inj e))
  | .error a, .error b => if h : a = b then isTrue (h ▸ rfl) else isFalse (fun e => h (Except.error.inj e))
  | .ok _, .error _ => isFalse nofun
  | .error _, .ok _ => isFalse nofun

end Verif
