import Verif.Spec.JsonRpcWire
import Verif.Model.ClientServer
/-!
The API server, for C117-C119: it follows JSON-RPC 2.0, and for each procedure it remembers the parameters of the last call to which it answered with
a result.  Requests and replies may be lost.
-/
namespace Verif.Server
open Verif JsonRpc

/-- What the server has stored, by name of the procedure. -/
abbrev Srv := Text → Option Json

/-- The server stores the parameters of a call. -/
def Srv.set (srv : Srv) (m : Text) (p : Json) : Srv := fun x => if x = m then some p else srv x

/-- The server carries out calls, one after the other; `f` says what each of them gives. -/
def apply (f : Procs) (calls : List Call) (srv : Srv) : Srv :=
  calls.foldl (fun srv c => match f c.method c.params with
    | .ok _ => srv.set c.method c.params
    | .error _ => srv) srv

/-- What happens to a message: it does not reach the server, it does but the reply does not come back, or it is answered. -/
inductive Way where
  | lostRequest
  | lostReply
  | served
  deriving DecidableEq

/-- What comes back if there is no reply. -/
def NoReply (net : Client.Net) : Prop := net = .reply .unreachable ∨ net = .reply .notJson ∨ net = .interrupt

/-- The messages of one step (there is at most one) and the server. -/
def Delivered (way : Way) (net : Client.Net) (srv srv' : Srv) : List (List Call) → Prop
  | [] => srv' = srv
  | [calls] => match way with
    | .lostRequest => NoReply net ∧ srv' = srv
    | .lostReply => NoReply net ∧ ∃ f, srv' = apply f calls srv
    | .served => ∃ f reply, net = .reply reply ∧ Conforms f (batchRequest calls) reply ∧ srv' = apply f calls srv
  | _ => False

/-- What the network does in a move. -/
def netOf : Client.Move → Client.Net
  | .event (.disk e) => e.net
  | .event (.tags e) => e.net
  | .event (.sync e) => e.net
  | .identity _ r => .reply r

/-- A history of the client, the manager and the server. -/
inductive Loop (cfg : Client.Config) : Client.State → Client.Manager → Srv → List (Client.Move × Way) → Client.State → Client.Manager → Srv → Prop where
  | nil (s m srv) : Loop cfg s m srv [] s m srv
  | cons {s m srv mv way srv1 evs s' m' srv'} (h : Delivered way (netOf mv) srv srv1 (Client.move cfg s m mv).2.2)
      (rest : Loop cfg (Client.move cfg s m mv).1 (Client.move cfg s m mv).2.1 srv1 evs s' m' srv') :
      Loop cfg s m srv ((mv, way) :: evs) s' m' srv'

/-- The server has these tags. -/
def HasTags (srv : Srv) (tags : List Text) : Prop :=
  srv "device.set_machine_defined_tags".toList = some (.obj [("tag_list".toList, .arr (tags.map .str))])

/-- A text that may be missing. -/
def orNull : Option Text → Json
  | none => .null
  | some t => .str t

/-- The server has this information about the device. -/
def HasMeta (srv : Srv) (m : Client.Meta) : Prop :=
  srv "device.set_agent_version".toList = some (.obj [("agent_version".toList, .str m.agentVersion)]) ∧
  srv "device.set_machine_revision".toList = some (.obj [("revision_code".toList, orNull m.machineRevision)]) ∧
  srv "device.set_model_name".toList = some (.obj [("model_name".toList, .str m.modelName)]) ∧
  srv "device.set_os_version".toList = some (.obj [("os_version".toList, .str m.osVersion)]) ∧
  srv "device.set_uname".toList = some (.obj [("uname".toList, .str m.uname)]) ∧
  srv "device.set_ip_addresses".toList = some (.obj [("ip_list".toList, .arr (m.ipList.map .str))])

/-- The identity that the server has for the device. -/
def HasIdentity (srv : Srv) (identity : Bytes) : Prop :=
  ∃ text, utf8Decode identity = some text ∧ srv "m2m.associate".toList = some (.obj [("identity".toList, .str text)])

end Verif.Server
