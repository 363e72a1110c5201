import Verif.Model.Opening
import Verif.Spec.TermWire
import Verif.Spec.Instructions
/-!
Specification vocabulary for C132-C135.
-/
namespace Verif.Opening
open Verif WSClient System

/-- Channel `n` can be given to a service: if it is in the table, it is open and nobody is inside of its methods. -/
def Free (n : Int) (s : WSClient.St) : Prop := ∀ c, lookup n s.channels = some c → c.closed = false ∧ Idle c

/-- A message from the server that asks for an operation. -/
def Sent (m : Bytes) (op : Instructions.Op) : Prop := m.length ≤ maxSize ∧
  ∃ sender d surplus, decoded m = .int 16 :: .bytes sender :: .dict d :: surplus ∧ Instructions.BytesKeys d ∧ Instructions.Asks d op

/-- The agent has started. -/
def Up (w : Instructions.World) : Prop := w.portForward = true ∧ w.terminals = ["shell".toList]

/-- A limiter admits one more, and the thread can be started. -/
def Admits (l : Limiter.Lim) (ok : Bool) : Prop := l.value < l.limit ∧ ok = true

/-- The names of local services and their ports. -/
def localServices : List (String × Int) := [("web", 80), ("ext", 81), ("extalt", 8000), ("alt", 8080)]

/-- Both directions of a forwarded connection on channel `n`: the server receives the pieces read from the local socket in order, and then the request
to close; and the local socket, if it accepts data, gets what the server sends, in order, what is missing being in the buffer or not yet handled. -/
def Forwards (n : Int) (cb ccb : Nat) (client : WSClient.St) : Prop :=
  ∀ (accept : Nat → Option Nat) (inbox : List (Env × Ev)) (incoming : List Bytes) (ms : List FwdMove),
    (∀ x ∈ inbox, Harmless n x.2) → (∀ d ∈ incoming, d.length ≤ maxSize) → (∀ m ∈ ms, m.Fine n) →
    let t := fwdSched accept n cb ccb { sys := ⟨client, none⟩, inbox := inbox, incoming := incoming } ms
    Sized t.2 →
    (∃ got, incoming = got ++ t.1.incoming ∧ wire n t.2 <+: got.map .sendData ++ [.requestClose] ∧
      (t.1.pc = .loop → wire n t.2 = got.map .sendData) ∧ (t.1.pc = .ended → wire n t.2 = got.map .sendData ++ [.requestClose])) ∧
    ((∀ k, accept k = none) → t.1.wside.sent ++ t.1.wside.buffer.flatten ++ (routed n t.1.inbox).flatten = (routed n inbox).flatten)

/-- The messages of some calls are what the server receives on channel `n`: a beginning of them at any moment, all of them if the channel is not ended
and the thread has made two steps for each call. -/
def Answers (n : Int) (client : WSClient.St) (calls : List Call) (msgs : List Channel.Out) : Prop :=
  ∀ ms : List CallMove, (∀ m ∈ ms, m.Fine n) →
    let t := callSched n { sys := ⟨client, none⟩, script := calls } ms
    Sized t.2 → wire n t.2 <+: msgs ∧
      ((∀ m ∈ ms, m.Keeps n) → 2 * msgs.length ≤ ms.countP CallMove.isThread → wire n t.2 = msgs)

end Verif.Opening

namespace Verif.TermWire
open Verif WSClient System

/-- While the process is not started: the receive thread goes on, and other threads leave the channel alone. -/
def TermMove.Waits (n : Int) : TermMove → Prop
  | .receive => True
  | .other _ e => Elsewhere n e
  | _ => False

end Verif.TermWire
