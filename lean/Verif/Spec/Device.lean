import Verif.Model.Device
/-!
Specification vocabulary for C80-C86 and C95.
-/
namespace Verif.Device
open Verif

/-- A comma or white space. -/
def Separator (c : Char) : Prop := c = ',' ∨ isSpaceC c = true

/-- The white space of Unicode, by number (https://docs.python.org/3/library/stdtypes.html#str.isspace). -/
def whiteSpace : List Nat := [0x09, 0x0a, 0x0b, 0x0c, 0x0d, 0x1c, 0x1d, 0x1e, 0x1f, 0x20, 0x85, 0xa0, 0x1680, 0x2000, 0x2001, 0x2002, 0x2003, 0x2004,
  0x2005, 0x2006, 0x2007, 0x2008, 0x2009, 0x200a, 0x2028, 0x2029, 0x202f, 0x205f, 0x3000]

/-- A word: not empty, and without separators. -/
def Word (w : Text) : Prop := w ≠ [] ∧ ∀ c ∈ w, ¬ Separator c

/-- The text is made of the words, in this order, with one or more separators between them and any number at the ends. -/
inductive Laid : Text → List Text → Prop where
  | empty : Laid [] []
  | separator {c t ws} : Separator c → Laid t ws → Laid (c :: t) ws
  | last {w} : Word w → Laid w [w]
  | word {w c t ws} : Word w → Separator c → Laid t ws → Laid (w ++ c :: t) (w :: ws)

/-- The white space of ASCII. -/
def blanks : Bytes := [9, 10, 11, 12, 13, 32]

/-- `t` is `s` without the white space at both ends. -/
def Trimmed (s t : Bytes) : Prop := ∃ a b, s = a ++ t ++ b ∧ (∀ x ∈ a, x ∈ blanks) ∧ (∀ x ∈ b, x ∈ blanks) ∧
  (∀ x, t.head? = some x → x ∉ blanks) ∧ (∀ x, t.getLast? = some x → x ∉ blanks)

/-- The small letter for each capital one. -/
def letters : List (UInt8 × UInt8) := (asc "ABCDEFGHIJKLMNOPQRSTUVWXYZ").zip (asc "abcdefghijklmnopqrstuvwxyz")

/-- Small letters in place of capital ones. -/
def lower (s : Bytes) : Bytes := s.map fun b => (letters.lookup b).getD b

/-- The line has the key "revision" and the value `v`. -/
def IsEntry (line v : Bytes) : Prop := ∃ key value k v', line = key ++ 58 :: value ∧ 58 ∉ key ∧ Trimmed key k ∧
  lower k = asc "revision" ∧ Trimmed value v' ∧ v = lower v'

/-- A file with these lines; the last has no newline (it may be empty). -/
def fileOf (ls : List Bytes) (last : Bytes) : Bytes := (ls.map (· ++ [10])).flatten ++ last

/-- What the system says about an interface. -/
structure Record where
  name : Bytes
  family : Bytes
  a : UInt8
  b : UInt8
  c : UInt8
  d : UInt8
  filler : Bytes

/-- The record of `size` bytes: a name of at most 15 bytes and zeros up to 16, four bytes for family and port, the address, filler. -/
def Record.Valid (size : Nat) (r : Record) : Prop := r.name.length ≤ 15 ∧ 0 ∉ r.name ∧ r.family.length = 4 ∧ r.filler.length + 24 = size

def Record.bytes (r : Record) : Bytes := r.name ++ List.replicate (16 - r.name.length) 0 ++ r.family ++ [r.a, r.b, r.c, r.d] ++ r.filler

/-- The address in the usual notation. -/
def Record.address (r : Record) : Text :=
  (toString r.a.toNat ++ "." ++ toString r.b.toNat ++ "." ++ toString r.c.toNat ++ "." ++ toString r.d.toNat).toList

/-- What a value looks like to the caller. -/
inductive Seen where
  | none
  | text (t : Text)
  | list (l : List Text)
  deriving DecidableEq

/-- What a dict looks like to the caller. -/
def content (h : Heap) (d : Nat) : Text → Option Seen := fun k => match h.dicts d k with
  | Option.none => Option.none
  | some .none => some .none
  | some (.text t) => some (.text t)
  | some (.list l) => some (.list (h.lists l))

end Verif.Device
