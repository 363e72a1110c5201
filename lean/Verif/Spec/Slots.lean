import Verif.Model.Slots
import Verif.Spec.Opening
/-!
Specification vocabulary for C145.
-/
namespace Verif.Slots
open Verif WSClient
open _root_.Verif.Instructions (World Op)
open _root_.Verif.Opening (localServices)

/-- Something that can be the number of a channel. -/
def Usable (p : PyVal) : Prop := (∀ l, p ≠ .list l) ∧ ∀ d, p ≠ .dict d

/-- A value is made of four items, the last of which is `p`: a list, or a text (its letters), or a dictionary (its keys). -/
inductive Fourth : PyVal → PyVal → Prop where
  | list {x y z p} : Fourth (.list [x, y, z, p]) p
  | tuple {x y z p} : Fourth (.tuple [x, y, z, p]) p
  | text {x y z c} : Fourth (.text [x, y, z, c]) (.text [c])
  | bytes {x y z b} : Fourth (.bytes [x, y, z, b]) (.int b.toNat)
  | dict {x y z k v} : Fourth (.dict [x, y, z, (k, v)]) k

/-- The operations that start a thread, with the limiter that it needs. -/
inductive Starts (w : World) : Op → Kind → Prop where
  | terminal {name port size} : name ∈ w.terminals → Usable port → Starts w (.openTerminal (.text name) port size) .terminal
  | forward {name local_ route p} : w.portForward = true → (name, local_) ∈ localServices → Fourth route p → Usable p →
    Starts w (.openPortforward (.text name.toList) route) .service
  | redirect {p devicePort} : w.portForward = true → Usable p → Starts w (.openPortredirect p devicePort) .service
  | file {port path} : Usable port → Starts w (.readFile port path) .service
  | command {port cmd} : Usable port → Starts w (.runCommand port cmd) .service

/-- How many threads of a kind run. -/
def St.count (s : St) (k : Kind) : Nat := s.running.count k

/-- The limits of an agent. -/
def limitOf (terminals services : Nat) : Kind → Nat
  | .terminal => terminals
  | .service => services

/-- The event of the client in a move. -/
def Move.client : Move → Option (Env × Ev)
  | .event _ env e _ => some (env, e)
  | .ended _ => none

end Verif.Slots
