import Verif.Spec.Server
import Verif.Spec.RpcBytes
import Verif.Model.RpcBytes
/-!
The API server of Spec/Server, now with the bytes of requests and responses, for C158.  It reads the body of a request as JSON in UTF-8 and stores what
it finds there; it knows nothing of the lists of calls in the agent.
-/
namespace Verif.ServerBytes
open Verif JsonRpc JsonText Server

/-- The server carries out one request. -/
def storeOne (f : Procs) (q : Json) (srv : Srv) : Srv :=
  match q with
  | .obj l => match lookup l "method".toList, lookup l "params".toList with
    | some (.str m), some p => match f m p with
      | .ok _ => srv.set m p
      | .error _ => srv
    | _, _ => srv
  | _ => srv

/-- The server carries out a request, or several of them. -/
def store (f : Procs) (q : Json) (srv : Srv) : Srv :=
  match q with
  | .arr qs => qs.foldl (fun srv q => storeOne f q srv) srv
  | q => storeOne f q srv

/-- The server reads the body of a request. -/
def Reads (fval : Text → Json) (body : Bytes) (q : Json) : Prop := ∃ text, body = utf8Encode text ∧ Document fval text q

/-- No response in JSON comes back: nothing does, something else does, or the thread is interrupted. -/
def Unanswered (fval : Text → Json) (net : Client.Net) : Prop :=
  net = .interrupt ∨ ∃ resp, net = .reply (RpcBytes.replyOf fval resp) ∧ ∀ body j, resp = some body → ¬ Reads fval body j

/-- The bodies of one step (there is at most one) and the server. -/
def Delivered (fval : Text → Json) (way : Way) (net : Client.Net) (srv srv' : Srv) : List Bytes → Prop
  | [] => srv' = srv
  | [body] => match way with
    | .lostRequest => Unanswered fval net ∧ srv' = srv
    | .lostReply => Unanswered fval net ∧ ∃ f q, Reads fval body q ∧ srv' = store f q srv
    | .served => ∃ f q reply resp, Reads fval body q ∧ Conforms f q reply ∧ RpcBytes.Spells fval reply resp ∧
        net = .reply (RpcBytes.replyOf fval resp) ∧ srv' = store f q srv
  | _ => False

/-- The bodies of the requests of a move. -/
def bodies (ftext : Option Int → Nat → Text) (cfg : Client.Config) (s : Client.State) (m : Client.Manager) (mv : Client.Move) : List Bytes :=
  (Client.move cfg s m mv).2.2.map fun calls => RpcBytes.body ftext (batchRequest calls)

/-- A history of the client, the manager and the server. -/
inductive Loop (ftext : Option Int → Nat → Text) (fval : Text → Json) (cfg : Client.Config) :
    Client.State → Client.Manager → Srv → List (Client.Move × Way) → Client.State → Client.Manager → Srv → Prop where
  | nil (s m srv) : Loop ftext fval cfg s m srv [] s m srv
  | cons {s m srv mv way srv1 evs s' m' srv'} (h : Delivered fval way (netOf mv) srv srv1 (bodies ftext cfg s m mv))
      (rest : Loop ftext fval cfg (Client.move cfg s m mv).1 (Client.move cfg s m mv).2.1 srv1 evs s' m' srv') :
      Loop ftext fval cfg s m srv ((mv, way) :: evs) s' m' srv'

end Verif.ServerBytes
