import Verif.Model.Client
import Verif.Spec.JsonRpc
/-!
Specification vocabulary for C75-C79 and C88.
-/
namespace Verif.Client
open Verif Verif.JsonRpc

/-- The server was reached and answered call `id` without error, in a list of objects in which each id can be one and each error has an id. -/
def Accepts (net : Net) (id : String) : Prop :=
  ∃ rs : List (List (Text × Json)), net = .reply (.json (.arr (rs.map .obj))) ∧ Usable rs ∧
    ∃ r ∈ rs, lookup r "id".toList = some (.str id.toList) ∧ lookup r "error".toList = none

/-- The server accepted the authentication and all six items. -/
def AcceptsMeta (net : Net) : Prop :=
  Accepts net "authenticate_result" ∧ Accepts net "set_agent_version_result" ∧ Accepts net "set_machine_revision_result" ∧
  Accepts net "set_model_name_result" ∧ Accepts net "set_os_version_result" ∧ Accepts net "set_uname_result" ∧
  Accepts net "set_ip_addresses_result"

/-- The times at which disk reports were sent. -/
def reports : List (Event × List (List Call)) → List Int
  | [] => []
  | (.disk e, w) :: l => if w = [] then reports l else e.now :: reports l
  | _ :: l => reports l

open Classical in
/-- The tags that were sent and accepted last. -/
noncomputable def lastAccepted : List (Event × List (List Call)) → Option (List Text)
  | [] => none
  | x :: l => match lastAccepted l with
    | some tags => some tags
    | none => match x with
      | (.tags ⟨.ok tags, net⟩, w) => if w ≠ [] ∧ Accepts net "set_machine_defined_tags_result" then some tags else none
      | _ => none

/-- No exception that handlers let through. -/
def Quiet : Event → Prop
  | .disk e => e.usage ≠ .error .interrupt ∧ e.net ≠ .interrupt
  | .tags e => e.tags ≠ .error .interrupt ∧ e.net ≠ .interrupt
  | .sync e => e.net ≠ .interrupt

def QuietPoll (e : PollEnv) : Prop := Quiet (.disk e.disk) ∧ Quiet (.tags e.tags) ∧ Quiet (.sync e.sync)

/-- A call as sent. -/
def request (id method : String) (params : List (String × Json)) : Call :=
  ⟨method.toList, .obj (params.map (fun x => (x.1.toList, x.2))), some (.text id.toList)⟩

/-- The authentication as sent. -/
def authRequest (cfg : Config) (more : List (String × Json)) : Call :=
  request "authenticate_result" "device.check_auth"
    ([("device_class", .str "tuxtunnel".toList), ("serial", .str cfg.serial),
      ("auth_token", match cfg.authToken with | some t => .str t | none => .null)] ++ more)

/-- The six items as sent. -/
def metaRequests (m : Meta) : List Call :=
  [request "set_agent_version_result" "device.set_agent_version" [("agent_version", .str m.agentVersion)],
   request "set_machine_revision_result" "device.set_machine_revision"
     [("revision_code", match m.machineRevision with | some t => .str t | none => .null)],
   request "set_model_name_result" "device.set_model_name" [("model_name", .str m.modelName)],
   request "set_os_version_result" "device.set_os_version" [("os_version", .str m.osVersion)],
   request "set_uname_result" "device.set_uname" [("uname", .str m.uname)],
   request "set_ip_addresses_result" "device.set_ip_addresses" [("ip_list", .arr (m.ipList.map .str))]]

end Verif.Client
