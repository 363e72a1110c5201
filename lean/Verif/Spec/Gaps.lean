import Verif.Spec.System
/-!
Specification vocabulary for C108.
-/
namespace Verif.System
open Verif WSClient

/-- The number of calls of methods of the channel that have found it open and have not sent yet. -/
def inside (c : Channel.Ch) : Nat := c.pendingWrites.length + c.pendingControl.length + c.pendingCloses

/-- At most `k` calls are inside of methods of the channel whenever the client is told that the connection is gone. -/
def FewInside (k : Nat) (n : Int) (s : Sys) : List LinkMove → Prop
  | [] => True
  | .lose :: ms => FewInside k n s ms
  | .move m :: ms => (∀ env, m = .event env .disconnected → ∀ c, s.obj n = some c → inside c ≤ k) ∧ FewInside k n (sched n s [m]).1 ms

end Verif.System
