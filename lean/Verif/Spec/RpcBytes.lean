import Verif.Spec.JsonText
import Verif.Spec.JsonRpcWire
/-!
A server that follows the JSON-RPC 2.0 specification and that reads and writes JSON in UTF-8, for C152.
-/
namespace Verif.RpcBytes
open Verif JsonRpc JsonText

/-- The body of the response, in any spelling of the JSON value; without one the body is empty. -/
def Spells (fval : Text → Json) (reply : Reply) (resp : Option Bytes) : Prop :=
  match reply with
  | .unreachable => resp = none
  | .notJson => resp = some []
  | .json j => ∃ t, resp = some (utf8Encode t) ∧ Document fval t j

/-- A call or a notification. -/
def IsRequest (q : Json) : Prop :=
  ∃ l m p, q = .obj l ∧ lookup l "jsonrpc".toList = some (.str "2.0".toList) ∧ lookup l "method".toList = some (.str m) ∧ lookup l "params".toList = some p

/-- A call, a notification, or several of them. -/
def Proper (q : Json) : Prop := IsRequest q ∨ ∃ qs, q = .arr qs ∧ ∀ x ∈ qs, IsRequest x

/-- The server answers every request, in whatever spelling, as the specification says, with the procedures `f`. -/
def Serves (fval : Text → Json) (f : Procs) (server : Bytes → Option Bytes) : Prop :=
  ∀ s q, Proper q → Document fval s q → ∃ reply, Conforms f q reply ∧ Spells fval reply (server (utf8Encode s))

end Verif.RpcBytes
