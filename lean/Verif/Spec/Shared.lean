import Verif.Spec.Agent
/-!
Specification vocabulary for C174.
-/
namespace Verif.Agent
open Verif WSClient System

/-- The number of services on channel `n` that have not ended. -/
def users (n : Int) (s : St) : Nat := s.svcs.countP fun v => decide (v.port = n) && !v.prog.finished

/-- Whenever the server asks for a service on channel `n`, no other one uses it. -/
def InTurn (w : World) (n : Int) (s : St) : List Move → Prop
  | [] => True
  | m :: ms => (∀ env e l, m = .event env e l → Asked n e → users n s = 0) ∧ InTurn w n (move w s m).1 ms

end Verif.Agent
