import Verif.Model.Limits
import Verif.Spec.Bencode
/-!
Specification vocabulary for C136 and C137.  Nothing here mentions the encoder or the decoder.
-/
namespace Verif.Limits
open Verif

mutual
/-- How many calls of a function that reads one value are nested when the notation of the value is read.  The end of a list or dict is read
like a value. -/
def levels : PyVal → Nat
  | .list xs => 1 + max 1 (levelsList xs)
  | .tuple xs => 1 + max 1 (levelsList xs)
  | .dict kvs => 1 + max 1 (levelsItems kvs)
  | _ => 1
/-- The greatest number of all items. -/
def levelsList : List PyVal → Nat
  | [] => 0
  | x :: xs => max (levels x) (levelsList xs)
/-- The greatest number of all values (a key has one level). -/
def levelsItems : List (PyVal × PyVal) → Nat
  | [] => 0
  | kv :: r => max (levels kv.2) (levelsItems r)
end

mutual
/-- The integers in a value, without the keys of dicts. -/
def ints : PyVal → List Int
  | .int i => [i]
  | .list xs => intsList xs
  | .tuple xs => intsList xs
  | .dict kvs => intsItems kvs
  | _ => []
/-- Those in all items. -/
def intsList : List PyVal → List Int
  | [] => []
  | x :: xs => ints x ++ intsList xs
/-- Those in all values. -/
def intsItems : List (PyVal × PyVal) → List Int
  | [] => []
  | kv :: r => ints kv.2 ++ intsItems r
end

/-- No integer has more digits than the limit, nor than 640. -/
def Short (lim : Limits) (v : PyVal) : Prop := ∀ m, lim.digits = some m → ∀ i ∈ ints v, i.natAbs < 10 ^ max 640 m

/-- What `decode` does without limits, in terms of the outcomes with limits. -/
def free : Bencode.Outcome → LOutcome
  | .ok v => .ok v
  | .raise e => .raise e
  | .hang => .hang

/-- The data could not possibly exceed the limits: it is too short. -/
def OutOfReach (lim : Limits) (data : Bytes) : Prop := data.length + 1 < lim.depth ∧ ∀ m, lim.digits = some m → data.length ≤ max 640 m

/-- `hist'` is `hist` without limits, except that some of the messages that the server sent, and that may exceed the limits, are empty. -/
inductive Blanked : List (Limits × WSClient.Env × WSClient.Ev) → List (WSClient.Env × WSClient.Ev) → Prop where
  | nil : Blanked [] []
  | same {lim env e hist hist'} : Blanked hist hist' → Blanked ((lim, env, e) :: hist) ((env, e) :: hist')
  | empty {lim env data hist hist'} : ¬ OutOfReach lim data → Blanked hist hist' →
      Blanked ((lim, env, .binary data) :: hist) ((env, .binary []) :: hist')

end Verif.Limits
