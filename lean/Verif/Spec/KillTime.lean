import Verif.Spec.Terminal
/-!
Specification vocabulary for C192.
-/
namespace Verif.Terminal
open Verif

/-- One look of the thread that waits for a process: does the process run, how many seconds have passed since the thread started, and by how
many the clock of the device has been set since then. -/
structure Look where
  runs : Bool
  real : Int
  set : Int

/-- What the thread sees. -/
def Look.tick (l : Look) : Tick := ⟨!l.runs, l.real + l.set⟩

/-- What the thread does, look by look. -/
def acts (ls : List Look) : List (List WAct) := waitLoop warnTimes false (ls.map Look.tick)

/-- The kill signal is sent at this look. -/
def KilledAt (ls : List Look) (j : Nat) : Prop := ∃ a, (acts ls)[j]? = some a ∧ WAct.kill ∈ a

/-- Looks every two seconds at a process that runs, while the clock is set by `d`. -/
def stubborn (d : Int) (n : Nat) : List Look := (List.range n).map (fun i : Nat => ⟨true, 2 * (i + 1), d⟩)

end Verif.Terminal
