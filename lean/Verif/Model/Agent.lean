import Verif.Model.System
import Verif.Model.Instructions
/-!
The agent with all the file and command services that the server has asked for: `open_file_service` and `open_command_service`
(`dataplicity/m2mmanager.py:225-233`), `FileService.__init__` and `CommandService.__init__` (`dataplicity/m2m/fileservice.py:35-48`,
`dataplicity/m2m/commandservice.py:31-43`) and their threads, on one client (`dataplicity/m2m/wsclient.py`) and with one limiter
(`dataplicity/limiter.py`).

Other services that share the limiter (port forwarding) only take and give slots here, and use channels by events of the client.
-/
namespace Verif.Agent
open Verif WSClient System

/-- What a service thread runs.  File services are modelled statement by statement; of any other thread, only the calls of its channel that it has
still to make, and whether it is behind the test in the first of them.  (fileservice.py:76-102, commandservice.py:66-127) -/
inductive Prog where
  | file (path : Text) (pc : FilePc)
  | calls (script : List Call) (inside : Bool)
  deriving DecidableEq, Repr

/-- The thread is at its end, but for `self.limiter.decrement()`.  (fileservice.py:73-74, commandservice.py:63-64) -/
def Prog.finished : Prog → Bool
  | .file _ pc => pc = .ended
  | .calls script _ => script.isEmpty

/-- A service: the number of its channel, the channel object if the client has forgotten it (wsclient.py:436), its program, and whether it holds a
slot of the limiter. -/
structure Svc where
  port : Int
  prog : Prog
  slot : Bool
  dropped : Option Channel.Ch := none

/-- The agent: the client, the limiter `services_limiter` (m2mmanager.py:99), the services, and the number of slots held by services of other
kinds. -/
structure St where
  client : WSClient.St := {}
  lim : Limiter.Lim
  svcs : List Svc := []
  others : Nat := 0

/-- The device: the files, the JSON texts of the error messages of a file service (fileservice.py:50-63), and what instructions find. -/
structure World where
  fs : Text → Services.Opened
  report : Services.Fail → Bytes
  known : Instructions.World

/-- The circumstances of a launch: whether creating and starting the thread succeeds, the calls that the service will make if it runs a command, and
the text of the message if that can not be launched (commandservice.py:40-43). -/
structure Launch where
  ok : Bool := true
  script : List Call := []
  error : Bytes := []

/-- The client handles an event or another thread calls it; the thread of service `i` does a statement, where `fail` says that it raises; a service
of another kind takes a slot of the limiter or gives it back. -/
inductive Move where
  | event (env : Env) (e : Ev) (launch : Launch)
  | thread (i : Nat) (fail : Option Services.Fail)
  | take
  | give

/-- The content of a file that can be opened.  (fileservice.py:80-83) -/
def World.content (w : World) (path : Text) : Bytes := match w.fs (Services.absPath path) with
  | .file content => content
  | .raises _ => []

/-- How the next statement of the thread fails: opening fails if the file can not be opened.  (fileservice.py:83) -/
def World.failing (w : World) (path : Text) (pc : FilePc) (fail : Option Services.Fail) : Option Services.Fail :=
  match pc, w.fs (Services.absPath path) with
  | .opening, .raises f => some f
  | _, _ => fail

/-- A service seen alone: the client, its channel object and its program.  (fileservice.py:35, commandservice.py:31) -/
structure Own where
  sys : Sys
  prog : Prog

/-- A statement of the thread of a service.  (fileservice.py:76-102, wsclient.py:69-72, 152-162) -/
def Own.thread (w : World) (n : Int) (o : Own) (fail : Option Services.Fail) : Own × List Out :=
  match o.prog with
  | .file path pc =>
    let r := fileThread n (w.content path) w.report ⟨o.sys, pc⟩ (w.failing path pc fail)
    (⟨r.1.sys, .file path r.1.pc⟩, r.2)
  | .calls script inside =>
    let r := callThread n ⟨o.sys, script, inside⟩
    (⟨r.1.sys, .calls r.1.script r.1.inside⟩, r.2)

/-- `self.limiter.decrement()` at the end of the thread (fileservice.py:74, commandservice.py:64). -/
def release (s : St) (i : Nat) (v : Svc) : St := match Limiter.decrement s.lim with
  | .ok l => { s with lim := l, svcs := s.svcs.set i { v with slot := false } }
  | .error _ => { s with svcs := s.svcs.set i { v with slot := false } }

/-- The thread of service `i` goes on.  (fileservice.py:65-102, commandservice.py:55-127) -/
def thread (w : World) (s : St) (i : Nat) (fail : Option Services.Fail) : St × List Out := match s.svcs[i]? with
  | none => (s, [])
  | some v =>
    if v.prog.finished then (if v.slot then release s i v else s, [])
    else
      let r := Own.thread w v.port ⟨⟨s.client, v.dropped⟩, v.prog⟩ fail
      ({ s with client := r.1.sys.client, svcs := s.svcs.set i { v with prog := r.1.prog, dropped := r.1.sys.dropped } }, r.2)

/-- The channel object of a service after the table of the client has changed: `on_notify_close` calls its `on_close` and deletes it from the table
(wsclient.py:429-436). -/
def forget (before after : List (Int × Channel.Ch)) (v : Svc) : Svc :=
  { v with dropped := match v.dropped with
    | some c => some c
    | none => match lookup v.port before, lookup v.port after with
      | some c, none => some (Channel.step c .onClose).1
      | _, _ => none }

/-- A service is started on the channel with a number (`get_channel`, m2mmanager.py:227, 232; fileservice.py:38-48, commandservice.py:34-43).  If it
can not be, the receive thread writes a message to the channel and closes it; it appears as a service without a slot.  (The events of the websocket
wait for that, so that only some of the schedules are possible.) -/
def begin (s : St) (n : Int) (ok : Bool) (prog : Prog) (refusal : List Call) : St :=
  let r := Limiter.launch s.lim ok
  { s with
    client := (WSClient.step {} s.client (.getChannel n)).1
    lim := r.1
    svcs := s.svcs ++ [if r.2 then ⟨n, prog, true, none⟩ else ⟨n, .calls refusal false, false, none⟩] }

/-- A service is started on a channel whose number is not a number (it can be anything hashable): nothing can be sent on such a channel, as the
packets are refused (packetbase.py:145-158), but a slot is taken.  (m2mmanager.py:227, 232) -/
def beginMute (s : St) (ok : Bool) : St :=
  let r := Limiter.launch s.lim ok
  { s with lim := r.1, svcs := s.svcs ++ (if r.2 then [⟨0, .calls [] false, true, none⟩] else []) }

/-- The program of a file service.  A path that is not a text fails at `startswith`, outside of the `try`; there is an error report then and no close
(fileservice.py:71-72, 80). -/
def fileProg (w : World) : PyVal → Prog
  | .text path => .file path .opening
  | _ => .calls [.control (w.report .other)] false

/-- What an instruction starts.  (m2mmanager.py:225-233) -/
def begun (w : World) (l : Launch) (s : St) : Instructions.Done → St
  | .fileSent (.int n) path => begin s n l.ok (fileProg w path) [.write Services.serverBusy, .close]
  | .fileSent _ _ => beginMute s l.ok
  | .commandRun (.int n) _ => begin s n l.ok (.calls l.script false) [.control l.error, .close]
  | .commandRun _ _ => beginMute s l.ok
  | _ => s

/-- One move.  (wsclient.py:259-289, 438-455; m2mmanager.py:150-233; limiter.py:60-81) -/
def move (w : World) (s : St) : Move → St × List Out
  | .event env e l =>
    let r := WSClient.step env s.client e
    let s' := { s with client := r.1, svcs := s.svcs.map (forget s.client.channels r.1.channels) }
    ((r.2.flatMap (Instructions.react w.known)).foldl (begun w l) s', r.2)
  | .thread i fail => thread w s i fail
  | .take => match Limiter.increment s.lim with
    | .ok l => ({ s with lim := l, others := s.others + 1 }, [])
    | .error _ => (s, [])
  | .give =>
    if s.others = 0 then (s, [])
    else match Limiter.decrement s.lim with
      | .ok l => ({ s with lim := l, others := s.others - 1 }, [])
      | .error _ => (s, [])

/-- A schedule.  (Model infrastructure.) -/
def run (w : World) (s : St) : List Move → St × List Out
  | [] => (s, [])
  | m :: ms =>
    let r := move w s m
    let r' := run w r.1 ms
    (r'.1, r.2 ++ r'.2)

/-- A new agent: no services, `Limiter(limit)` (m2mmanager.py:99). -/
def init (limit : Nat) : St := { lim := { limit := limit } }

end Verif.Agent
