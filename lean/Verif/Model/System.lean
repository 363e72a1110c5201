import Verif.Model.WSClient
import Verif.Model.Services
import Verif.Model.PortForward
/-!
The websocket client together with one service that uses channel `n`: the file service (`dataplicity/m2m/fileservice.py`), the echo service
(`dataplicity/m2m/echoservice.py`) or a forwarded connection (`dataplicity/portforward.py`), statement by statement as far as the channel is
concerned, while any other events happen to the client.

The service keeps its `Channel` object after the server closed the channel and the client forgot it (wsclient.py:429-436); a later
`get_channel` of the same number makes a new object (wsclient.py:241-245).
-/
namespace Verif.System
open Verif WSClient

/-- The client, and the service's channel object once the client has dropped it.  (wsclient.py:191, 436) -/
structure Sys where
  client : St := {}
  dropped : Option Channel.Ch := none

/-- The service's channel object: in the client's table, or dropped.  (fileservice.py:35, echoservice.py:22, portforward.py:32) -/
def Sys.obj (n : Int) (s : Sys) : Option Channel.Ch :=
  match s.dropped with
  | some c => some c
  | none => lookup n s.client.channels

/-- An event of the client.  `on_notify_close` calls the channel's `on_close` and deletes it from the table (wsclient.py:429-436). -/
def Sys.event (n : Int) (env : Env) (s : Sys) (e : Ev) : Sys × List Out :=
  let r := WSClient.step env s.client e
  let dropped := match s.dropped with
    | some c => some c
    | none => match lookup n s.client.channels, lookup n r.1.channels with
      | some c, none => some (Channel.step c .onClose).1
      | _, _ => none
  ({ client := r.1, dropped := dropped }, r.2)

/-- The service calls a method of its channel object; the object calls the client with its number (wsclient.py:69-72, 152-162). -/
def Sys.use (n : Int) (s : Sys) (op : Channel.Op) : Sys × List Out :=
  match s.dropped with
  | some c =>
    let r := Channel.step c op
    ({ s with dropped := some r.1 }, r.2.flatMap (chanOut n))
  | none =>
    let r := WSClient.step {} s.client (.chanOp n op)
    ({ s with client := r.1 }, r.2)

/-- `channel.is_closed` (wsclient.py:85-87). -/
def Sys.isClosed (n : Int) (s : Sys) : Bool :=
  match s.obj n with
  | some c => c.closed
  | none => true

/-- Any service: events of the client, and calls of the channel object's methods.  (Model infrastructure.) -/
inductive Move where
  | event (env : Env) (e : Ev)
  | use (op : Channel.Op)

/-- A schedule.  (Model infrastructure.) -/
def sched (n : Int) (s : Sys) : List Move → Sys × List Out
  | [] => (s, [])
  | m :: ms =>
    let r := match m with
      | .event env e => s.event n env e
      | .use op => s.use n op
    let r' := sched n r.1 ms
    (r'.1, r.2 ++ r'.2)

/-! ### File service -/

/-- Where the thread of the file service is (fileservice.py:76-102, wsclient.py:69-72, 152-162). -/
inductive FilePc where
  | opening                              -- before `open(path, "rb")`
  | reading (rest : Bytes)               -- before `read(CHUNK_SIZE)`
  | looking (chunk rest : Bytes)         -- before `if channel.is_closed`
  | writing (chunk rest : Bytes)         -- in `Channel.write`, before `if not self.is_closed`
  | sending (rest : Bytes)               -- in `Channel.write`, behind it
  | failed (f : Services.Fail)           -- in an `except` clause; in `send_control`, before `if not self.is_closed`
  | reporting                            -- in `send_control`, behind it
  | closing                              -- in `Channel.close`, before `if not self.is_closed`
  | requesting                           -- in `Channel.close`, behind it
  | ended
  deriving DecidableEq, Repr

/-- The whole state. -/
structure FileSys where
  sys : Sys := {}
  pc : FilePc := .opening

/-- The client handles an event or another thread calls it; or the thread of the service goes on, where `fail` says that the operation it is
about to do (opening, reading, writing) raises. -/
inductive FileMove where
  | client (env : Env) (e : Ev)
  | thread (fail : Option Services.Fail)

/-- One statement of the thread.  `content` is that of the file; `report` is the JSON text of the error message (fileservice.py:50-63), which a
`WebSocketError` does not have (94-95).  An exception from `channel.write` is taken to come before anything was sent. -/
def fileThread (n : Int) (content : Bytes) (report : Services.Fail → Bytes) (s : FileSys) (fail : Option Services.Fail) : FileSys × List Out :=
  match s.pc with
  | .opening => match fail with
    | some f => ({ s with pc := .failed f }, [])
    | none => ({ s with pc := .reading content }, [])
  | .reading rest => match fail with
    | some f => ({ s with pc := .failed f }, [])
    | none =>
      if rest.isEmpty then ({ s with pc := .closing }, [])
      else ({ s with pc := .looking (rest.take Services.chunkSize) (rest.drop Services.chunkSize) }, [])
  | .looking chunk rest =>
    if s.sys.isClosed n then ({ s with pc := .closing }, []) else ({ s with pc := .writing chunk rest }, [])
  | .writing chunk rest => match fail with
    | some f => ({ s with pc := .failed f }, [])
    | none =>
      if s.sys.isClosed n then ({ s with pc := .reading rest }, [])
      else
        let r := s.sys.use n (.beginWrite chunk)
        ({ sys := r.1, pc := .sending rest }, r.2)
  | .sending rest =>
    let r := s.sys.use n (.finishWrite 0)
    ({ sys := r.1, pc := .reading rest }, r.2)
  | .failed .webSocket => ({ s with pc := .closing }, [])
  | .failed f =>
    if s.sys.isClosed n then ({ s with pc := .closing }, [])
    else
      let r := s.sys.use n (.beginControl (report f))
      ({ sys := r.1, pc := .reporting }, r.2)
  | .reporting =>
    let r := s.sys.use n (.finishControl 0)
    ({ sys := r.1, pc := .closing }, r.2)
  | .closing =>
    if s.sys.isClosed n then ({ s with pc := .ended }, [])
    else
      let r := s.sys.use n .beginClose
      ({ sys := r.1, pc := .requesting }, r.2)
  | .requesting =>
    let r := s.sys.use n .finishClose
    ({ sys := r.1, pc := .ended }, r.2)
  | .ended => (s, [])

/-- One move.  (fileservice.py:76-102) -/
def fileMove (n : Int) (content : Bytes) (report : Services.Fail → Bytes) (s : FileSys) : FileMove → FileSys × List Out
  | .client env e =>
    let r := s.sys.event n env e
    ({ s with sys := r.1 }, r.2)
  | .thread fail => fileThread n content report s fail

/-- A schedule.  (Model infrastructure.) -/
def fileSched (n : Int) (content : Bytes) (report : Services.Fail → Bytes) (s : FileSys) : List FileMove → FileSys × List Out
  | [] => (s, [])
  | m :: ms =>
    let r := fileMove n content report s m
    let r' := fileSched n content report r.1 ms
    (r'.1, r.2 ++ r'.2)

/-! ### Echo service -/

/-- The client, the websocket events it has not handled yet, and where the receive thread is: `none` outside of `EchoService.on_data`
(echoservice.py:25-27), `some (some d)` in it before `Channel.write` looks at the channel, `some none` behind that. -/
structure EchoSys where
  sys : Sys := {}
  inbox : List (Env × Ev) := []
  callback : Option (Option Bytes) := none

/-- The receive thread goes on, or another thread calls the client. -/
inductive EchoMove where
  | receive
  | other (env : Env) (e : Ev)

/-- The data with which callback `cb` of channel `n` was called.  (wsclient.py:95) -/
def called (n : Int) (cb : Nat) : List Out → Option Bytes
  | [] => none
  | .chan m (.dataCall c d) :: os => if m = n ∧ c = cb then some d else called n cb os
  | _ :: os => called n cb os

/-- One move: the receive thread handles the next event (wsclient.py:263-268), which may call the callback `cb` (89-99), or goes on inside of
the callback (echoservice.py:25-27, wsclient.py:152-156). -/
def echoMove (n : Int) (cb : Nat) (s : EchoSys) : EchoMove → EchoSys × List Out
  | .receive => match s.callback with
    | none => match s.inbox with
      | [] => (s, [])
      | (env, e) :: rest =>
        let r := s.sys.event n env e
        ({ sys := r.1, inbox := rest, callback := (called n cb r.2).map some }, r.2)
    | some (some d) =>
      if s.sys.isClosed n then ({ s with callback := none }, [])
      else
        let r := s.sys.use n (.beginWrite d)
        ({ s with sys := r.1, callback := some none }, r.2)
    | some none =>
      let r := s.sys.use n (.finishWrite 0)
      ({ s with sys := r.1, callback := none }, r.2)
  | .other env e =>
    let r := s.sys.event n env e
    ({ s with sys := r.1 }, r.2)

/-- A schedule.  (Model infrastructure.) -/
def echoSched (n : Int) (cb : Nat) (s : EchoSys) : List EchoMove → EchoSys × List Out
  | [] => (s, [])
  | m :: ms =>
    let r := echoMove n cb s m
    let r' := echoSched n cb r.1 ms
    (r'.1, r.2 ++ r'.2)

/-! ### Forwarded connection -/

/-- Where the forwarding thread is (portforward.py:57-113, wsclient.py:69-72, 152-156): in its loop, in `Channel.write` before and behind the
test, in `Channel.close` before and behind the test, at its end. -/
inductive FwdPc where
  | loop
  | writing (d : Bytes)
  | sending
  | closing
  | requesting
  | ended
  deriving DecidableEq, Repr

/-- The client, the websocket events it has not handled yet, the pieces that the coming calls of `recv` return (none of them empty: that would be the
end of the connection, 98-100), the connection's side towards the local socket, and the forwarding thread. -/
structure FwdSys where
  sys : Sys := {}
  inbox : List (Env × Ev) := []
  incoming : List Bytes := []
  wside : PortForward.WSide := {}
  pc : FwdPc := .loop

/-- The receive thread handles the next event; another thread calls the client; the forwarding thread connects and flushes (portforward.py:178-182),
receives data from the local socket (91), leaves its loop (75, 83, 86), or goes on inside of `Channel.write` or `Channel.close`.  The moments at which
the thread receives and leaves the loop are free here (`Model/PortForward.lean` has the loop itself). -/
inductive FwdMove where
  | receive
  | other (env : Env) (e : Ev)
  | setSocket
  | flush
  | recv
  | leave
  | go

/-- What the callbacks of the connection do with the outputs of an event of channel `n` (portforward.py:39-41, 184-207).  `cb` is
`on_channel_data`, `ccb` is `on_channel_close`. -/
def fwdReact (accept : Nat → Option Nat) (n : Int) (cb ccb : Nat) (w : PortForward.WSide) : List Out → PortForward.WSide
  | [] => w
  | .chan m (.dataCall c d) :: os =>
    fwdReact accept n cb ccb (if m = n ∧ c = cb then PortForward.wstep accept w (.data d) else w) os
  | .chan m (.closeCall c) :: os =>
    fwdReact accept n cb ccb (if m = n ∧ c = ccb then PortForward.wstep accept w .onClose else w) os
  | _ :: os => fwdReact accept n cb ccb w os

/-- One move.  (portforward.py:57-207) -/
def fwdMove (accept : Nat → Option Nat) (n : Int) (cb ccb : Nat) (s : FwdSys) : FwdMove → FwdSys × List Out
  | .receive => match s.inbox with
    | [] => (s, [])
    | (env, e) :: rest =>
      let r := s.sys.event n env e
      ({ s with sys := r.1, inbox := rest, wside := fwdReact accept n cb ccb s.wside r.2 }, r.2)
  | .other env e =>
    let r := s.sys.event n env e
    ({ s with sys := r.1 }, r.2)
  | .setSocket => ({ s with wside := PortForward.wstep accept s.wside .setSocket }, [])
  | .flush => ({ s with wside := PortForward.wstep accept s.wside .flush }, [])
  | .recv => match s.pc, s.incoming with
    | .loop, d :: rest => ({ s with pc := .writing d, incoming := rest }, [])
    | _, _ => (s, [])
  | .leave => match s.pc with
    | .loop => ({ s with pc := .closing }, [])
    | _ => (s, [])
  | .go => match s.pc with
    | .writing d =>
      if s.sys.isClosed n then ({ s with pc := .loop }, [])
      else
        let r := s.sys.use n (.beginWrite d)
        ({ s with sys := r.1, pc := .sending }, r.2)
    | .sending =>
      let r := s.sys.use n (.finishWrite 0)
      ({ s with sys := r.1, pc := .loop }, r.2)
    | .closing =>
      if s.sys.isClosed n then ({ s with pc := .ended }, [])
      else
        let r := s.sys.use n .beginClose
        ({ s with sys := r.1, pc := .requesting }, r.2)
    | .requesting =>
      let r := s.sys.use n .finishClose
      ({ s with sys := r.1, pc := .ended }, r.2)
    | _ => (s, [])

/-- A schedule.  (Model infrastructure.) -/
def fwdSched (accept : Nat → Option Nat) (n : Int) (cb ccb : Nat) (s : FwdSys) : List FwdMove → FwdSys × List Out
  | [] => (s, [])
  | m :: ms =>
    let r := fwdMove accept n cb ccb s m
    let r' := fwdSched accept n cb ccb r.1 ms
    (r'.1, r.2 ++ r'.2)

/-! ### Any service thread -/

/-- A call of a method of the channel object by a service.  (wsclient.py:69-72, 152-162) -/
inductive Call where
  | write (d : Bytes)
  | control (d : Bytes)
  | close
  deriving DecidableEq, Repr

/-- The test of `_closed` (wsclient.py:71, 154, 160). -/
def Call.begin : Call → Channel.Op
  | .write d => .beginWrite d
  | .control d => .beginControl d
  | .close => .beginClose

/-- What comes after it (wsclient.py:72, 155-156, 161-162). -/
def Call.finish : Call → Channel.Op
  | .write _ => .finishWrite 0
  | .control _ => .finishControl 0
  | .close => .finishClose

/-- The client, the calls that a service thread has still to make, and whether it is behind the test in the first of them.  Of the service only its
calls on the channel are left. -/
structure CallSys where
  sys : Sys := {}
  script : List Call := []
  inside : Bool := false

/-- The client handles an event or another thread calls it; or the thread goes on. -/
inductive CallMove where
  | client (env : Env) (e : Ev)
  | thread

/-- The thread goes on (wsclient.py:69-72, 152-162). -/
def callThread (n : Int) (s : CallSys) : CallSys × List Out :=
  match s.script with
  | [] => (s, [])
  | k :: rest =>
    if s.inside then
      let r := s.sys.use n k.finish
      ({ sys := r.1, script := rest, inside := false }, r.2)
    else if s.sys.isClosed n then ({ s with script := rest }, [])
    else
      let r := s.sys.use n k.begin
      ({ s with sys := r.1, inside := true }, r.2)

/-- One move.  (Model infrastructure.) -/
def callMove (n : Int) (s : CallSys) : CallMove → CallSys × List Out
  | .client env e =>
    let r := s.sys.event n env e
    ({ s with sys := r.1 }, r.2)
  | .thread => callThread n s

/-- A schedule.  (Model infrastructure.) -/
def callSched (n : Int) (s : CallSys) : List CallMove → CallSys × List Out
  | [] => (s, [])
  | m :: ms =>
    let r := callMove n s m
    let r' := callSched n r.1 ms
    (r'.1, r.2 ++ r'.2)

/-! ### The connection -/

/-- The connection to the server: it works; it is gone but the client has not been told; the client has been told (`disconnected`).  After that
lomond makes a new connection (`ready`).  While it is not up `send_binary` raises a `WebSocketError`, which `send_bytes` catches (wsclient.py:303-310). -/
inductive Link where
  | up
  | lost
  | down
  deriving DecidableEq, Repr

/-- A client with a service, and the connection. -/
inductive LinkMove where
  | move (m : Move)
  | lose

/-- What the events of the websocket say about the connection.  lomond tells of the end of a connection before it makes a new one, so that there is
no `ready` while the client has not been told. -/
def Link.next (l : Link) : Move → Link
  | .event _ .disconnected => .down
  | .event _ .ready => if l = .down then .up else l
  | _ => l

/-- A schedule: all that is given to the websocket, and what reaches the server.  (wsclient.py:303-310)  While the receive thread hangs, there are no
events. -/
def linkSched (n : Int) (s : Sys) (l : Link) : List LinkMove → List Out × List Out
  | [] => ([], [])
  | .lose :: ms => linkSched n s (if l = .up then .lost else l) ms
  | .move m :: ms =>
    let r := sched n s [m]
    let l' := if s.client.hung then l else l.next m
    let r' := linkSched n r.1 l' ms
    (r.2 ++ r'.1, (if l' = .up then r.2 else []) ++ r'.2)

end Verif.System
