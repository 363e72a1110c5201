import Verif.Model.Exit
/-!
What C138 and C139 speak of: turns of the two threads, rounds in which both get a turn, and the steps that had an effect.
-/
namespace Verif.Exit
open Verif

/-- A turn: a thread does what it does next, with the choices of the environment, or anything else happens. -/
inductive Turn where
  | main (startOk : Bool) (r : Option Client.Raised)
  | clock (now : Int)
  | other (e : Ev)

/-- What the thread does next. -/
def next (s : St) : Turn → Ev
  | .main ok r => match s.main with
    | .start => .start ok
    | .polling => .poll r
    | .waiting => if s.exit then .wait else .timeout
    | .stopping _ => .stop
    | .joining _ => .join
    | _ => .close
  | .clock now => match s.clock with
    | .asleep _ => .wake now
    | _ => .test now
  | .other e => e

/-- The state after some turns. -/
def turns (s : St) : List Turn → St
  | [] => s
  | t :: ts => turns (step s (next s t)) ts

/-- Both threads get a turn, in any order, with anything in between. -/
def Round (ts : List Turn) : Prop := (∃ ok r, .main ok r ∈ ts) ∧ ∃ now, .clock now ∈ ts

/-- The number of polls that come to their end in a history. -/
def pollsDone (s : St) : List Ev → Nat
  | [] => 0
  | e :: es => (match e, s.main, s.killed with | .poll _, .polling, false => 1 | _, _, _ => 0) + pollsDone (step s e) es

/-- `run_forever` has come to its end, or the process has. -/
def Over (s : St) : Prop := s.killed = true ∨ ∃ r, s.main = .ended r

end Verif.Exit
