import Verif.Model.TermWire
import Verif.Spec.System
import Verif.Spec.Terminal
/-!
Specification vocabulary for C115.
-/
namespace Verif.TermWire
open Verif WSClient System

/-- Other threads leave the channel alone, and the terminal goes on running. -/
def TermMove.Fine (n : Int) : TermMove → Prop
  | .other _ e => Elsewhere n e
  | .stop => False
  | _ => True

/-- A move of the terminal's thread. -/
def TermMove.isThread : TermMove → Bool
  | .thread => true
  | _ => false

/-- A move of the receive thread. -/
def TermMove.isReceive : TermMove → Bool
  | .receive => true
  | _ => false

end Verif.TermWire
