import Verif.Model.BlockingRead
import Verif.Spec.Channel
/-!
Specification vocabulary for C121.
-/
namespace Verif.BlockingRead
open Verif Channel

/-- All bytes returned by reads of all threads, in the order in which they were taken. -/
def allReturned (outs : List Out) : Bytes := outs.flatMap fun
  | .chan (.returned b) => b
  | .returned _ b => b
  | _ => []

/-- What happens to the channel apart from blocking reads. -/
def chanOps (ops : List Op) : List Channel.Op := ops.filterMap fun
  | .chan op => some op
  | _ => none

/-- The operation takes bytes out of the channel. -/
def Op.reads : Op → Bool
  | .chan (.read _) | .chan (.readBlocking _ _) | .take _ => true
  | _ => false

/-- Messages are not empty. -/
def Op.full : Op → Prop
  | .chan (.data d) => d ≠ []
  | _ => True

end Verif.BlockingRead
