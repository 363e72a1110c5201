import Verif.Py.Text
import Verif.Py.Path
/-!
What the functions of Python mean that the model and the specifications of other claims have in common: UTF-8, the order of byte strings, the parts of
a path, extensions of names.
-/
namespace Verif.Library
open Verif

/-- `data.decode("utf-8", "ignore")`: characters are taken where one is encoded, and a byte where none begins is left out. -/
inductive Ignoring : Bytes → Text → Prop where
  | nil : Ignoring [] []
  | char {c r t} : Ignoring r t → Ignoring (String.utf8EncodeChar c ++ r) (c :: t)
  | skip {b r t} : (∀ c r', b :: r ≠ String.utf8EncodeChar c ++ r') → Ignoring r t → Ignoring (b :: r) t

/-- Byte strings in the order of a dictionary: `a` is a proper beginning of `b`, or has the smaller byte at the first difference. -/
def Before (a b : Bytes) : Prop := (∃ c, c ≠ [] ∧ b = a ++ c) ∨ ∃ p x y r s, a = p ++ x :: r ∧ b = p ++ y :: s ∧ x.toNat < y.toNat

/-- The text is made of the pieces, with the separator between them. -/
inductive Pieces (sep : Char) : Text → List Text → Prop where
  | last {p} : sep ∉ p → Pieces sep p [p]
  | more {p s ps} : sep ∉ p → Pieces sep s ps → Pieces sep (p ++ sep :: s) (p :: ps)

/-- `h` and `t` are directory and name of the path `p`: the slashes between them belong to neither, unless there is nothing else before the name. -/
def Parts (p h t : Text) : Prop := '/' ∉ t ∧ ((p = h ++ t ∧ ∀ c ∈ h, c = '/') ∨
  ∃ s, s ≠ [] ∧ (∀ c ∈ s, c = '/') ∧ p = h ++ s ++ t ∧ ∃ c, h.getLast? = some c ∧ c ≠ '/')

/-- A name made of base and extension; the extension is empty or begins with the last dot of the name, if something other than dots comes before. -/
def Extension (name base ext : Text) : Prop := name = base ++ ext ∧
  ((∃ e, ext = '.' :: e ∧ '.' ∉ e ∧ ∃ c ∈ base, c ≠ '.') ∨ (ext = [] ∧ ∃ dots rest, name = dots ++ rest ∧ (∀ c ∈ dots, c = '.') ∧ '.' ∉ rest))

end Verif.Library
