import Verif.Py.Bytes
/-!
More of Python's `str` and `bytes`: decoding with errors ignored, white space, stripping, splitting.
-/
namespace Verif

/-- The character at the start of the data and the number of bytes that it takes after the first; `none` if there is no valid one. -/
def firstChar : Bytes → Option (Char × Nat)
  | [] => none
  | a :: r =>
    if a.toNat < 128 then (scalar? 0 a.toNat).map (·, 0)
    else if a.toNat / 32 = 6 then match r with
      | b :: _ => do
        let x ← cont? b
        let c ← scalar? 128 (a.toNat % 32 * 64 + x)
        pure (c, 1)
      | _ => none
    else if a.toNat / 16 = 14 then match r with
      | b :: b' :: _ => do
        let x ← cont? b
        let y ← cont? b'
        let c ← scalar? 2048 (a.toNat % 16 * 4096 + x * 64 + y)
        pure (c, 2)
      | _ => none
    else if a.toNat / 8 = 30 then match r with
      | b :: b' :: b'' :: _ => do
        let x ← cont? b
        let y ← cont? b'
        let z ← cont? b''
        let c ← scalar? 65536 (a.toNat % 8 * 262144 + x * 4096 + y * 64 + z)
        pure (c, 3)
      | _ => none
    else none

/-- The first argument is the number of bytes that belong to the last character.  Python leaves out up to three bytes at a time; what is left
of them after the first are continuation bytes, which are left out as well. -/
def decodeIgnoreF : Nat → Bytes → Text
  | _, [] => []
  | n + 1, _ :: r => decodeIgnoreF n r
  | 0, a :: r => match firstChar (a :: r) with
    | some (c, n) => c :: decodeIgnoreF n r
    | none => decodeIgnoreF 0 r

/-- `data.decode("utf-8", "ignore")`. -/
def utf8DecodeIgnore (bs : Bytes) : Text := decodeIgnoreF 0 bs

/-- `c.isspace()`, which is also what `\s` matches. -/
def isSpaceC (c : Char) : Bool :=
  let n := c.toNat
  (9 ≤ n && n ≤ 13) || (28 ≤ n && n ≤ 32) || n == 0x85 || n == 0xa0 || n == 0x1680 || (0x2000 ≤ n && n ≤ 0x200a) || n == 0x2028 ||
  n == 0x2029 || n == 0x202f || n == 0x205f || n == 0x3000

/-- Strips what satisfies `p` from both ends. -/
def stripWith {α : Type} (p : α → Bool) (s : List α) : List α := ((s.dropWhile p).reverse.dropWhile p).reverse

/-- `re.split` with a pattern that matches single characters: at least one piece. -/
def splitP (p : Char → Bool) : Text → List Text
  | [] => [[]]
  | c :: s => if p c then [] :: splitP p s else match splitP p s with
    | [] => [[c]]
    | w :: ws => (c :: w) :: ws

/-- `b.lower()` for one byte: ASCII only. -/
def lowerB (b : UInt8) : UInt8 := if 65 ≤ b.toNat && b.toNat ≤ 90 then b + 32 else b

end Verif
