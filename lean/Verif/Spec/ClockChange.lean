import Verif.Model.ClockChange
/-!
Specification vocabulary for C191.
-/
namespace Verif.ClockChange
open Verif

/-- By how much the clock was set, in all. -/
def setBy (ms : List Move) : Int := (ms.filterMap (fun | .set d => some d | _ => none)).sum

/-- How much time passed. -/
def passed (ms : List Move) : Int := (ms.filterMap (fun | .pass t => some (t : Int) | _ => none)).sum

/-- The thread does not read the clock. -/
def NoRead (ms : List Move) : Prop := .thread ∉ ms

/-- The moves up to a point, split into what lies before the round that is on and what lies in it: the thread has read the clock an even number of
times before, and once at the begin of the round. -/
def InRound (ms before within : List Move) : Prop :=
  ms = before ++ .thread :: within ∧ NoRead within ∧ (before.countP (· == .thread)) % 2 = 0

/-- 180 seconds. -/
def limit : Int := 180 * 1000000

end Verif.ClockChange
