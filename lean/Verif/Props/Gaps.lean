import Verif.Props.System
import Verif.Proofs.Gaps
/-!
C108, for any number of calls that span the end of a connection.
-/
namespace Verif.System
open Verif WSClient

/-! ### C108 -/

/-- C108, how large the gap can be: whatever the services do, and whenever connections are lost and made, the server receives the beginning of the messages
of the channel, and after it at most as many as there were calls inside of methods of the channel when the client was told that the connection is gone.
With one thread that is at most one message, and it is the one in `c108_counterexample`. -/
theorem c108_few (n : Int) (s : Sys) (hs : Ready n s) (k : Nat) (ms : List LinkMove) (hm : ∀ m ∈ ms, m.Fine n) (hq : FewInside k n s ms)
    (hz : Sized (linkSched n s .up ms).1) :
    ∃ p q, wire n (linkSched n s .up ms).2 = p ++ q ∧ p <+: wire n (linkSched n s .up ms).1 ∧ q.length ≤ k := by
  obtain ⟨c, h1, _, h3⟩ := ready_has hs
  refine link_up_few ms h1 ?_ ?_ hm hq hz
  · intro d hd; rw [hs.1] at hd; exact (nomatch hd)
  · exact ⟨by rw [h3.1]; simp, by rw [h3.2.1]; simp⟩

/-- The run of `c108_counterexample`: one call is inside when the client is told. -/
example : FewInside 1 1 { client := Props.opened } [.lose, .move (.use (.beginWrite [1])), .move (.use (.finishWrite 0)), .move (.use (.beginWrite [2])),
    .move (.event {} .disconnected), .move (.event {} .ready), .move (.use (.finishWrite 0))] :=
  ⟨fun _ h => (nomatch h), fun _ h => (nomatch h), fun _ h => (nomatch h), fun _ _ => few_of_map (by decide +kernel), fun _ h => (nomatch h),
    fun _ h => (nomatch h), trivial⟩

/-- C108, what holds of every run: what the server receives of the channel is in the order in which it was sent, and nothing arrives twice or was not sent. -/
theorem c108_order (n : Int) (s : Sys) (ms : List LinkMove) :
    (wire n (linkSched n s .up ms).2).Sublist (wire n (linkSched n s .up ms).1) := link_sublist n s .up ms

/-- C108, the bound of `c108_few` is reached: two calls are inside when the client is told, `[1]` is lost, and the two arrive on the next connection. -/
theorem c108_two :
    let ms : List LinkMove := [.lose, .move (.use (.beginWrite [1])), .move (.use (.finishWrite 0)), .move (.use (.beginWrite [2])),
      .move (.use (.beginControl [3])), .move (.event {} .disconnected), .move (.event {} .ready), .move (.use (.finishWrite 0)),
      .move (.use (.finishControl 0))]
    let r := linkSched 1 { client := Props.opened } .up ms
    wire 1 r.1 = [.sendData [1], .sendData [2], .sendControl [3]] ∧ wire 1 r.2 = [.sendData [2], .sendControl [3]] := by decide +kernel

end Verif.System
