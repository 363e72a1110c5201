import Verif.Model.Bencode
/-!
Specification vocabulary for C106: how much there is in a decoded value.
-/
namespace Verif

/-- Number of decimal digits (zero has one). -/
def digits (n : Nat) : Nat := if n < 10 then 1 else 1 + digits (n / 10)
termination_by n
decreasing_by omega

mutual
/-- One for every object, and one more for every byte of a byte string and every digit of an integer. -/
def PyVal.weight : PyVal → Nat
  | .none => 1
  | .bool _ => 1
  | .float _ => 1
  | .int i => 1 + digits i.natAbs
  | .bytes b => 1 + b.length
  | .text t => 1 + t.length
  | .list xs => 1 + weightList xs
  | .tuple xs => 1 + weightList xs
  | .dict kvs => 1 + weightItems kvs
/-- The sum. -/
def weightList : List PyVal → Nat
  | [] => 0
  | x :: xs => x.weight + weightList xs
/-- The sum. -/
def weightItems : List (PyVal × PyVal) → Nat
  | [] => 0
  | (k, v) :: r => k.weight + v.weight + weightItems r
end

end Verif
