import Verif.Spec.WSClient
/-!
Specification vocabulary for C101-C104: what the server makes of the messages it receives.
-/
namespace Verif.WSClient
open Verif

/-- The messages given to the websocket. -/
def sentOf (outs : List Out) : List Bytes := outs.filterMap fun | .sent m => some m | _ => none

/-- No message is larger than a Python byte string can be. -/
def Sized (outs : List Out) : Prop := ∀ m ∈ sentOf outs, m.length ≤ maxSize

/-- What a message means for channel `n`: data for it (type 5), a control message (type 22), the request to close it (type 11). -/
def toServer (n : Int) (m : Bytes) : Option Channel.Out :=
  match decoded m with
  | [.int 5, .int k, .bytes d] => if k = n then some (.sendData d) else none
  | [.int 22, .int k, .bytes d] => if k = n then some (.sendControl d) else none
  | [.int 11, .int k] => if k = n then some .requestClose else none
  | _ => none

/-- What the server receives for channel `n`, in order. -/
def wire (n : Int) (outs : List Out) : List Channel.Out := (sentOf outs).filterMap (toServer n)

/-- The data among it. -/
def dataOf (os : List Channel.Out) : List Bytes := os.filterMap fun | .sendData d => some d | _ => none

/-- The packets a client sends by itself or for a channel: join, identify, data, pong, close, control, result of a scan. -/
inductive Outgoing : Nat → List PyVal → Prop where
  | join : Outgoing 1 []
  | identify (id) : Outgoing 2 [.bytes id]
  | data (n d) : Outgoing 5 [.int n, .bytes d]
  | pong (d) : Outgoing 8 [.bytes d]
  | close (n) : Outgoing 11 [.int n]
  | control (n d) : Outgoing 22 [.int n, .bytes d]
  | scan (d) : Outgoing 30 [.bytes d]

end Verif.WSClient
