import Verif.Model.JsonText
import Verif.Model.JsonRpcWire
/-!
Calls of `dataplicity/jsonrpc.py` with the bytes that go over the wire, in both directions.
-/
namespace Verif.RpcBytes
open Verif JsonRpc JsonText

/-- The body of a request (jsonrpc.py:180-183). -/
def body (ftext : Option Int → Nat → Text) (q : Json) : Bytes := utf8Encode (dumps ftext q)

/-- The body of the response as `_send` and `json.loads` take it; `none`: `urlopen` or `read` raises.  A body that is not UTF-8 raises inside of the
`try` too.  (jsonrpc.py:184-194, 133, 203-208) -/
def replyOf (fval : Text → Json) : Option Bytes → Reply
  | none => .unreachable
  | some b => match utf8Decode b with
    | none => .unreachable
    | some t => match loads fval t with
      | none => .notJson
      | some j => .json j

/-- `JSONRPC.call` (jsonrpc.py:199-234); `server` gives the body of the response to a body. -/
def call (ftext : Option Int → Nat → Text) (fval : Text → Json) (server : Bytes → Option Bytes) (c : Client) (method : Text) (params : Json) :
    Client × Except Exc Json :=
  let r := JsonRpc.call c method params (replyOf fval (server (body ftext (Call.json ⟨method, params, some (.num (newCallId c).2)⟩))))
  (r.1, r.2.2)

/-- A `with` block of a batch (jsonrpc.py:95-142): the client, the batch and the exception that leaves the block. -/
def block (ftext : Option Int → Nat → Text) (fval : Text → Json) (server : Bytes → Option Bytes) (c : Client) (ops : List BOp) (raised : Option Exc) :
    Client × Batch × Option Exc :=
  let r := JsonRpc.block c ops raised (replyOf fval (server (body ftext (batchRequest (addAll c .init ops).2.1.calls))))
  (r.1, r.2.1, r.2.2.2)

end Verif.RpcBytes
