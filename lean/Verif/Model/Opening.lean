import Verif.Model.TermWire
import Verif.Model.Instructions
import Verif.Model.PortForward
/-!
From the message with an instruction to the service on the channel that it names, for the services whose constructor sets the callbacks of a channel:
echo service, forwarded connection and terminal (`dataplicity/m2mmanager.py:39-74, 150-214`, `dataplicity/m2m/echoservice.py:20-23`,
`dataplicity/portforward.py:27-41, 250-265, 320-359`, `dataplicity/m2m/remoteprocess.py:75-83`).

Channel numbers, and ports of the device, that are not numbers are left out: nothing is started for them here.  (In the agent, nothing can be sent on
such a channel, see `Agent.beginMute`.)
-/
namespace Verif.Opening
open Verif WSClient System
open _root_.Verif.Instructions (Done)

/-- The client and the two limiters (m2mmanager.py:99-100). -/
structure St where
  client : WSClient.St := {}
  services : Limiter.Lim
  terminals : Limiter.Lim

/-- What the receive thread has done for an instruction: nothing; a service was started on a channel; or it could not be started, and the receive
thread makes calls of the channel's methods. -/
inductive Did where
  | nothing
  | echo (n : Int)
  | connection (n : Int) (host : Text) (port : Int)
  | terminal (n : Int) (name : Text)
  | refused (n : Int) (calls : List Call)
  deriving DecidableEq

/-- The callbacks of the new object: `on_data`, `on_close`, `on_control`.  (remoteprocess.py:81-83, portforward.py:39-41) -/
structure Cbs where
  data : Nat
  close : Nat
  ctrl : Nat

/-- `get_channel` (wsclient.py:241-245). -/
def channel (n : Int) (c : WSClient.St) : WSClient.St := (WSClient.step {} c (.getChannel n)).1

/-- `set_callbacks` (wsclient.py:109-112). -/
def callbacks (n : Int) (data close ctrl : Option Nat) (c : WSClient.St) : WSClient.St :=
  (WSClient.step {} c (.chanOp n (.setCallbacks data close ctrl))).1

/-- `Service.connect` (portforward.py:250-265) and `redirect_port` (337-359).  `ok`: the thread can be started.  The callbacks are set inside of the
`with` (40, 257-260, 350-355). -/
def connect (cbs : Cbs) (ok : Bool) (s : St) (n : Int) (host : Text) (port : Int) : St × Did :=
  let c := channel n s.client
  let busy := [Call.write Services.serverBusy, .close]
  match Limiter.increment s.services with
  | .error _ => ({ s with client := c }, .refused n busy)
  | .ok _ =>
    let r := Limiter.launch s.services ok
    ({ s with client := callbacks n (some cbs.data) (some cbs.close) (some cbs.ctrl) c, services := r.1 },
      if r.2 then .connection n host port else .refused n busy)

/-- The services of the agent.  (portforward.py:285-292) -/
def services : PortForward.Mgr := PortForward.addAll {} PortForward.initServices

/-- What is done for an instruction.  (m2mmanager.py:170-185, 196-214; 39-74; portforward.py:320-335) -/
def perform (cbs : Cbs) (ok : Bool) (s : St) : Done → St × Did
  -- EchoService.__init__ (echoservice.py:20-23)
  | .echo (.int n) => ({ s with client := callbacks n (some cbs.data) none none (channel n s.client) }, .echo n)
  | .forwarded (.text service) (.list [_, _, _, .int n]) => match PortForward.getService services service with
    | none => (s, .nothing)
    | some svc => connect cbs ok s n svc.host svc.port
  | .redirected (.int n) (.int port) => connect cbs ok s n PortForward.localhost port
  -- Terminal.launch (m2mmanager.py:39-74); the callbacks are set before the `with`
  | .launched name (.int n) _ =>
    let r := Limiter.launch s.terminals ok
    ({ s with client := callbacks n (some cbs.data) (some cbs.close) (some cbs.ctrl) (channel n s.client), terminals := r.1 },
      if r.2 then .terminal n name else .refused n [.write (asc "Failed to launch remote process\n"), .close])
  | _ => (s, .nothing)

/-- (Model infrastructure.) -/
def performAll (cbs : Cbs) (ok : Bool) (s : St) : List Done → St × List Did
  | [] => (s, [])
  | d :: ds =>
    let r := perform cbs ok s d
    let r' := performAll cbs ok r.1 ds
    (r'.1, r.2 :: r'.2)

/-- The receive thread handles a message.  (wsclient.py:263-284, 449-455; m2mmanager.py:150-194) -/
def receive (w : Instructions.World) (cbs : Cbs) (ok : Bool) (env : Env) (s : St) (m : Bytes) : St × List Did × List Out :=
  let r := WSClient.step env s.client (.binary m)
  let p := performAll cbs ok { s with client := r.1 } (r.2.flatMap (Instructions.react w))
  (p.1, p.2, r.2)

end Verif.Opening
