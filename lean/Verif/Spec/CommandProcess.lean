import Verif.Model.CommandProcess
/-!
Specification vocabulary for C183 and C184.
-/
namespace Verif.CommandProcess
open Verif

/-- The exits of the shell, in order; the first is the one that happens. -/
def shellExits (ms : List Move) : List Int := ms.filterMap fun
  | .exit 0 c => some c
  | _ => none

/-- A move of the agent. -/
def Move.ofAgent : Move → Bool
  | .poll _ | .complete | .finish => true
  | _ => false

/-- Nobody starts a process. -/
def NoFork (ms : List Move) : Prop := ∀ i, Move.fork i ∉ ms

end Verif.CommandProcess
