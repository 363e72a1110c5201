import Verif.Model.JsonRpcWire
import Verif.Spec.JsonRpc
/-!
A server that follows the JSON-RPC 2.0 specification, for C116.  It has procedures that give a result or an error object.
-/
namespace Verif.JsonRpc
open Verif

/-- What the procedures of a server do, by name and parameters. -/
abbrev Procs := Text → Json → Except Json Json

/-- The request has an id: it is not a notification. -/
def wantsAnswer : Json → Bool
  | .obj l => (lookup l "id".toList).isSome
  | _ => false

/-- `r` is the response to the request `q`: version 2.0, the id of the request, and the result or the error, but not both. -/
def Answers (f : Procs) (q : Json) (r : List (Text × Json)) : Prop :=
  ∃ l id m p, q = .obj l ∧ lookup l "id".toList = some id ∧ lookup l "method".toList = some (.str m) ∧ lookup l "params".toList = some p ∧
    lookup r "jsonrpc".toList = some (.str "2.0".toList) ∧ lookup r "id".toList = some id ∧
    match f m p with
    | .ok v => lookup r "result".toList = some v ∧ lookup r "error".toList = none
    | .error e => lookup r "error".toList = some e ∧ lookup r "result".toList = none

/-- The reply follows the specification.  The responses in the reply to a batch are in any order; a batch of notifications gets no reply at all, an
empty one an error object. -/
def Conforms (f : Procs) (q : Json) (reply : Reply) : Prop :=
  match q with
  | .arr [] => ∃ r, reply = .json (.obj r) ∧ lookup r "id".toList = some .null ∧ (lookup r "error".toList).isSome
  | .arr qs =>
    if qs.any wantsAnswer then
      ∃ ps : List (Json × List (Text × Json)), (ps.map (·.1)).Perm (qs.filter wantsAnswer) ∧ (∀ x ∈ ps, Answers f x.1 x.2) ∧
        reply = .json (.arr (ps.map fun x => .obj x.2))
    else reply = .notJson
  | q => if wantsAnswer q then ∃ r, reply = .json (.obj r) ∧ Answers f q r else reply = .notJson

/-- What a call is to give to its caller: the result, or the exception for the error. -/
def outcome (f : Procs) (m : Text) (p : Json) : Except Exc Json :=
  match f m p with
  | .ok v => .ok v
  | .error e => .error (handleError m e)

end Verif.JsonRpc
