import Verif.Model.Agent
import Verif.Spec.System
import Verif.Spec.Instructions
/-!
Specification vocabulary for C122-C124.
-/
namespace Verif.Agent
open Verif WSClient System Instructions

/-- The message in the event asks for a service on channel `n`. -/
def Asked (n : Int) (e : Ev) : Prop := ∃ sender d v, requestIn e = some (.instruction sender d) ∧
  (Asks d (.readFile (.int n) v) ∨ Asks d (.runCommand (.int n) v))

/-- The move leaves channel `n` to the service that has it: nobody else calls its methods, and the server does not ask for another service on it. -/
def Move.Fine (n : Int) : Move → Prop
  | .event _ e _ => Foreign n e ∧ ¬ Asked n e
  | _ => True

/-- The move does not end channel `n`. -/
def Move.Keeps (n : Int) : Move → Prop
  | .event _ e _ => ¬ Ends n e
  | _ => True

/-- Nothing fails in service `i`. -/
def Move.ok (i : Nat) : Move → Bool
  | .thread j fail => j != i || fail.isNone
  | _ => true

/-- A statement of service `i`. -/
def Move.isThread (i : Nat) : Move → Bool
  | .thread j _ => j = i
  | _ => false

/-- Channel `n` can be given to a service: no service on it still runs, and if it is in the table, it is open and nobody is inside of its
methods. -/
def Free (n : Int) (s : St) : Prop := (∀ v ∈ s.svcs, v.port = n → v.prog.finished = true) ∧
  ∀ c, lookup n s.client.channels = some c → c.closed = false ∧ Idle c

/-- Messages are not larger than Python byte strings can be. -/
def Move.Small : Move → Prop
  | .event _ e _ => ∀ data, e = .binary data → data.length ≤ maxSize
  | _ => True

/-- A message from the server that asks for an operation. -/
def Sent (m : Bytes) (op : Instructions.Op) : Prop := m.length ≤ maxSize ∧
  ∃ sender d surplus, decoded m = .int 16 :: .bytes sender :: .dict d :: surplus ∧ BytesKeys d ∧ Asks d op

/-- The slots that services hold. -/
def slots (s : St) : Nat := s.svcs.countP (·.slot) + s.others

end Verif.Agent
