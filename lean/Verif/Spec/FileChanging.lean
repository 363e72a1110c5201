import Verif.Model.FileChanging
import Verif.Spec.Services
/-!
Specification vocabulary for C181 and C182.
-/
namespace Verif.FileChanging
open Verif Services

/-- The file is only appended to. -/
def Appended (f : Nat → Bytes) : Prop := ∀ i, f i <+: f (i + 1)

/-- Nothing fails and the channel stays open. -/
structure Env.Good (env : Env) : Prop where
  read : ∀ k, env.read k = none
  write : ∀ k, env.write k = none
  open_ : ∀ n, env.closed n = false

/-- How much has been read before the k-th call, 1 MiB at a time as far as the file goes. -/
def readTo (f : Nat → Bytes) : Nat → Nat
  | 0 => 0
  | k + 1 => readTo f k + min 1048576 ((f k).length - readTo f k)

end Verif.FileChanging
