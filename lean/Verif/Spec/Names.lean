import Verif.Model.Names
import Verif.Spec.JsonText
/-!
Specification vocabulary for C169, C170 and C171.
-/
namespace Verif.Names
open Verif JsonText

/-- The Python string that stands for a name on the disk: characters where one is encoded, and a low surrogate for every byte at which none begins. -/
inductive Stands : Bytes → Points → Prop where
  | nil : Stands [] []
  | char {c r s} : Stands r s → Stands (String.utf8EncodeChar c ++ r) (c.toNat :: s)
  | byte {b r s} : (∀ c r', b :: r ≠ String.utf8EncodeChar c ++ r') → Stands r s → Stands (b :: r) ((0xdc00 + b.toNat) :: s)

/-- What stands in a JSON text inside the quotes of a string, and the code units that it stands for. -/
inductive Units : Text → List Nat → Prop where
  | nil : Units [] []
  | plain {c s v} : 32 ≤ c.toNat → c ≠ '"' → c ≠ '\\' → Units s v → Units (c :: s) (c.toNat :: v)
  | short {c x s v} : (c, x) ∈ shortEscapes → Units s v → Units ('\\' :: c :: s) (x.toNat :: v)
  | unicode {u n s v} : Unicode u n → Units s v → Units ('\\' :: (u ++ s)) (n :: v)

/-- A high surrogate that a low one follows is one character; any other surrogate stands for itself. -/
inductive Joined : List Nat → Points → Prop where
  | nil : Joined [] []
  | pair {h l r s} : 0xd800 ≤ h → h < 0xdc00 → 0xdc00 ≤ l → l < 0xe000 → Joined r s →
    Joined (h :: l :: r) ((0x10000 + (h - 0xd800) * 0x400 + (l - 0xdc00)) :: s)
  | single {n r s} : (0xd800 ≤ n → n < 0xdc00 → ∀ l r', r = l :: r' → l < 0xdc00 ∨ 0xe000 ≤ l) → Joined r s → Joined (n :: r) (n :: s)

/-- A text is the inside of a JSON string that stands for a Python string. -/
def Reads (t : Text) (s : Points) : Prop := ∃ v, Units t v ∧ Joined v s

/-- The file that the bytes of a path name for the operating system, from the root on. -/
def FromRoot (path : Bytes) : Bytes := if path.head? = some 0x2f then path else 0x2f :: path

end Verif.Names
