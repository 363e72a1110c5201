import Verif.Model.Channel
/-!
Specification vocabulary for C22-C25: functions of the history of operations and of the outputs only, not of the channel's state.
-/
namespace Verif.Channel
open Verif

/-- The bytes that must be readable: the data that arrives while the channel is open and no data callback is registered. -/
def readable (closed hasCb : Bool) : List Op → Bytes
  | [] => []
  | .data d :: ops => (if closed || hasCb then [] else d) ++ readable closed hasCb ops
  | .onClose :: ops => readable true hasCb ops
  | .setCallbacks d _ _ :: ops => readable closed d.isSome ops
  | _ :: ops => readable closed hasCb ops

/-- All bytes returned by reads. -/
def returnedBytes (outs : List Out) : Bytes := outs.flatMap fun | .returned b => b | _ => []

/-- Number of close callback calls. -/
def closeCalls (outs : List Out) : Nat := outs.countP fun | .closeCall _ => true | _ => false

/-- The messages handed to data callback `f`, in order. -/
def dataCalls (f : Nat) (outs : List Out) : List Bytes := outs.filterMap fun | .dataCall g d => if g = f then some d else none | _ => none

/-- The messages that arrive, in order. -/
def dataOps (ops : List Op) : List Bytes := ops.filterMap fun | .data d => some d | _ => none

/-- Outputs that reach the server: data, control, close requests. -/
def isSend : Out → Bool
  | .sendData _ | .sendControl _ | .requestClose => true
  | _ => false

/-- Outputs that reach a service. -/
def isCall : Out → Bool
  | .dataCall _ _ | .closeCall _ | .ctrlCall _ _ => true
  | _ => false

end Verif.Channel
