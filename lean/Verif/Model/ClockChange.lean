import Verif.Model.Device
/-!
Model of the thread of dataplicity/clockcheck.py together with the clock that it reads: time passes, the clock is set, and the thread reads the clock
and compares.  The decision of a round is `Device.clockLoop` of this round.

Times are in microseconds.  `sleep` takes as long as it takes (`pass` moves); that it takes at least a second is not used.  Left out: `running`, which
is cleared only at the end of the agent (client.py:117).
-/
namespace Verif.ClockChange
open Verif Device

/-- The clock of the device, the reading at the begin of the round if one is on (clockcheck.py:33), and whether the process was killed (44). -/
structure St where
  clock : Int
  start : Option Int := none
  killed : Bool := false
  deriving DecidableEq, Repr

/-- Time passes; somebody sets the clock, by so much; the thread reads the clock at the begin or at the end of a round (clockcheck.py:33, 35). -/
inductive Move where
  | pass (t : Nat)
  | set (d : Int)
  | thread
  deriving DecidableEq, Repr

/-- One move.  (clockcheck.py:32-38) -/
def step (s : St) : Move → St
  | .pass t => { s with clock := s.clock + t }
  | .set d => { s with clock := s.clock + d }
  | .thread => match s.start with
    | none => { s with start := some s.clock }
    | some start => if clockLoop [(true, start, s.clock)] then { s with start := none, killed := true } else { s with start := none }

/-- Any number of moves.  (Model infrastructure.) -/
def run (s : St) (ms : List Move) : St := ms.foldl step s

end Verif.ClockChange
