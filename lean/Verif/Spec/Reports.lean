import Verif.Spec.JsonText
/-!
Specification vocabulary for C154.
-/
namespace Verif.Reports
open Verif JsonText

/-- The bytes are JSON in UTF-8 for an object that has these fields. -/
def Says (b : Bytes) (fields : List (String × Json)) : Prop :=
  ∀ fval, ∃ t l, b = utf8Encode t ∧ Document fval t (.obj l) ∧ ∀ f ∈ fields, lookup l f.1.toList = some f.2

/-- A JSON string. -/
def str (s : String) : Json := .str s.toList

/-- A JSON number or `null`. -/
def number : Option Int → Json
  | some i => .int i
  | none => .null

end Verif.Reports
