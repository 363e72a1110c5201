import Verif.Spec.Channel
/-!
Specification vocabulary for C157: functions of the history of a channel and of the outputs only.
-/
namespace Verif.Channel
open Verif

/-- What happens before the end of the channel. -/
def beforeEnd (ops : List Op) : List Op := ops.takeWhile fun o => o != .onClose

/-- The close callbacks of those who attach themselves, in order (`none`: one who does not want to be told, such as the echo service). -/
def attached (ops : List Op) : List (Option Nat) := ops.filterMap fun | .setCallbacks _ cl _ => some cl | _ => none

/-- The close callbacks that are called, in order. -/
def told (outs : List Out) : List Nat := outs.filterMap fun | .closeCall f => some f | _ => none

end Verif.Channel
