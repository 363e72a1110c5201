import Verif.Model.JsonRpc
/-!
The requests of `dataplicity/jsonrpc.py` as JSON values, as they are sent to the server.
-/
namespace Verif.JsonRpc
open Verif

/-- (jsonrpc.py:105-106, 117, 125-126, 202) -/
def sMethod : Text := "method".toList
/-- (jsonrpc.py:107, 117, 127, 202) -/
def sParams : Text := "params".toList

/-- An id in JSON.  (jsonrpc.py:108, 117, 202) -/
def CallId.json : CallId → Json
  | .num n => .int n
  | .text s => .str s

/-- The dict of a call or notification.  (jsonrpc.py:104-109, 117, 123-127, 202, 229) -/
def Call.json (c : Call) : Json :=
  .obj ([(sJsonrpc, .str sVersion), (sMethod, .str c.method), (sParams, c.params)] ++ match c.id with
    | some id => [(sId, id.json)]
    | none => [])

/-- `_send(self.calls)` (jsonrpc.py:131). -/
def batchRequest (calls : List Call) : Json := .arr (calls.map Call.json)

end Verif.JsonRpc
