import Verif.Model.Dispatcher
import Verif.Model.Channel
/-!
Model of the class `WSClient` of `dataplicity/m2m/wsclient.py:168-497`, with the part of `dataplicity/m2mmanager.py` that announces
the identity.

One step is one websocket event handled by the receive thread, or one call made by another thread.  Not modelled: lomond itself (the
events are inputs; `send_binary` is an output, and that it may fail with a `WebSocketError` has no effect, wsclient.py:303-310),
`last_packet_time`, `hooks`, the client-wide `channel_callback`/`control_callback` (both `None` in the agent, m2mmanager.py:98), the debug
log, `ChannelFile`.  A service that keeps a `Channel` object after it was removed from `channels` keeps a closed channel
(`Props/Channel.lean`); such objects are not part of the state.
-/
namespace Verif.WSClient
open Verif Packets Dispatcher

/-- Choices of the environment during one event: whether the RPC that announces the identity succeeds, whether a service called by the
event raises, what error the scan of the remote directory raises.  (m2mmanager.py:125, wsclient.py:410, 421, 461-497) -/
structure Env where
  rpcOk : Bool := true
  raises : Bool := false
  scanError : Option Text := none

/-- The state of the client (wsclient.py:183-198), and `notified_identity` of the manager (m2mmanager.py:97).  Dicts are lists of items
in insertion order.  `hung`: the receive thread is inside a call that never returns. -/
structure St where
  identity : Option Bytes := none
  closed : Bool := false
  channels : List (Int × Channel.Ch) := []
  callbacks : List (Int × List Nat) := []
  user : Option Bytes := none
  notified : Option Bytes := none
  hung : Bool := false

/-- What the client does.  (wsclient.py:216-497) -/
inductive Out where
  | sent (data : Bytes)                                  -- a message given to the websocket
  | chan (n : Int) (o : Channel.Out)                     -- a callback of channel `n` is called, or a read of it returns
  | cmdCall (cb : Nat) (result : Option PyVal)           -- a command callback is called; `none` is `None`
  | announce (identity : Bytes) (ok : Bool)              -- the identity is sent to the API server, with success or not
  | instruction (sender : Bytes) (data : PyVal)          -- `manager.on_instruction`
  | remote (num : Nat) (args : List PyVal)               -- the remote directory's handler for packet `num`
  | logged                                               -- an exception was caught and logged by `run`

/-- Events: websocket events (handled by the receive thread), and calls by other threads.  (wsclient.py:275-284, 286, 218, 241) -/
inductive Ev where
  | ready
  | disconnected
  | binary (data : Bytes)
  | poll
  | other                                                -- any other websocket event
  | close                                                -- `WSClient.close`
  | addCallback (id : Int) (cb : Nat)
  | getChannel (n : Int)
  | chanOp (n : Int) (op : Channel.Op)                   -- a service uses the channel

/-- Handled by the receive thread.  (wsclient.py:275-284) -/
def Ev.isSocket : Ev → Bool
  | .ready | .disconnected | .binary _ | .poll | .other => true
  | _ => false

/-- Operations on a channel that services perform (the others belong to the receive thread).  (wsclient.py:69-162) -/
def serviceOp : Channel.Op → Bool
  | .data _ | .control _ | .onClose => false
  | _ => true

/-- `send(packet_type, **kwargs)` (wsclient.py:291-301): the bytes sent; `none` if it raises. -/
def send (n : Nat) (kwargs : List (String × PyVal)) : Option Bytes :=
  match create (fun _ => "") n [] kwargs with
  | .error _ => none
  | .ok p => match encodeBinary p with
    | .ok d => some d
    | .error _ => none

/-- `channel_no in self.channels`, and its channel.  (wsclient.py:243, 245, 248) -/
def lookup (n : Int) : List (Int × Channel.Ch) → Option Channel.Ch
  | [] => none
  | (m, c) :: r => if m = n then some c else lookup n r

/-- Replaces the channel with number `n`.  Channels are mutable objects in Python (wsclient.py:53-63). -/
def update (n : Int) (c : Channel.Ch) : List (Int × Channel.Ch) → List (Int × Channel.Ch)
  | [] => []
  | (m, c') :: r => if m = n then (m, c) :: r else (m, c') :: update n c r

/-- `del self.channels[n]`.  (wsclient.py:436) -/
def remove (n : Int) : List (Int × Channel.Ch) → List (Int × Channel.Ch)
  | [] => []
  | (m, c) :: r => if m = n then r else (m, c) :: remove n r

/-- `get_channel` (wsclient.py:241-245): the table afterwards and the channel. -/
def getChannel (n : Int) (chs : List (Int × Channel.Ch)) : List (Int × Channel.Ch) × Channel.Ch :=
  match lookup n chs with
  | some c => (chs, c)
  | none => (chs ++ [(n, {})], {})

/-- What an output of a channel means for the client: `channel_write` (wsclient.py:355-357), `channel_control_write` (364-367),
`close_channel` (250-252), or a callback. -/
def chanOut (n : Int) : Channel.Out → List Out
  | .sendData d => ((send 5 [("channel", .int n), ("data", .bytes d)]).map Out.sent).toList
  | .sendControl d => ((send 22 [("channel", .int n), ("data", .bytes d)]).map Out.sent).toList
  | .requestClose => ((send 11 [("port", .int n)]).map Out.sent).toList
  | o => [.chan n o]

/-- Did a data or control callback run? (wsclient.py:95, 107) -/
def called : List Channel.Out → Bool
  | [] => false
  | .dataCall _ _ :: _ => true
  | .ctrlCall _ _ :: _ => true
  | _ :: r => called r

/-- `sync_identity` (wsclient.py:330-332) with `M2MManager.set_identity` (m2mmanager.py:120-125) and the result of
`Client.set_m2m_identity` (client.py:311-357: the identity if the server accepted it, else `None`). -/
def syncIdentity (env : Env) (s : St) : St × List Out :=
  match s.identity with
  | none => (s, [])
  | some id =>
    if id.isEmpty || s.notified == some id then (s, [])
    else ({ s with notified := if env.rpcOk then some id else none }, [.announce id env.rpcOk])

/-- `callback` (wsclient.py:221-229): the callbacks of the command, and the table without it. -/
def takeCallbacks (id : Int) : List (Int × List Nat) → List Nat × List (Int × List Nat)
  | [] => ([], [])
  | (i, cbs) :: r => if i = id then (cbs, r) else
    let t := takeCallbacks id r
    (t.1, (i, cbs) :: t.2)

/-- `add_callback` (wsclient.py:218-219). -/
def addCb (id : Int) (cb : Nat) : List (Int × List Nat) → List (Int × List Nat)
  | [] => [(id, [cb])]
  | (i, cbs) :: r => if i = id then (i, cbs ++ [cb]) :: r else (i, cbs) :: addCb id cb r

/-- The exposed handlers (wsclient.py:373-497): the state, the outputs, and whether an exception leaves the handler. -/
def handle (env : Env) (s : St) (num : Nat) (args : List PyVal) : St × List Out × Bool :=
  match num, args with
  -- handle_set_identity (378-384)
  | 9, [.bytes id] =>
    if s.closed then (s, [], false)
    else
      let r := syncIdentity env { s with identity := some id }
      (r.1, r.2, false)
  -- handle_ping (386-389)
  | 7, [.bytes d] =>
    match send 8 [("data", .bytes (d.take 1024))] with
    | some m => (s, [.sent m], false)
    | none => (s, [], true)
  -- handle_route (401-410)
  | 6, [.int n, .bytes d] =>
    let g := getChannel n s.channels
    let r := Channel.step g.2 (.data d)
    ({ s with channels := update n r.1 g.1 }, r.2.flatMap (chanOut n), called r.2 && env.raises)
  -- handle_route_control (412-421)
  | 21, [.int n, .bytes d] =>
    let g := getChannel n s.channels
    let r := Channel.step g.2 (.control d)
    ({ s with channels := update n r.1 g.1 }, r.2.flatMap (chanOut n), called r.2 && env.raises)
  -- on_notify_open (423-427)
  | 14, [.int n] => ({ s with channels := (getChannel n s.channels).1 }, [], false)
  -- on_notify_close (429-436)
  | 19, [.int n] =>
    match lookup n s.channels with
    | none => (s, [], false)
    | some c =>
      let r := Channel.step c .onClose
      ({ s with channels := remove n s.channels }, r.2.flatMap (chanOut n), false)
  -- on_login_success (438-442)
  | 17, [.bytes u] => ({ s with user := some u }, [], false)
  -- on_response (444-447), callback (221-229); exceptions of the callbacks are logged there
  | 100, [.int id, .dict r] =>
    let t := takeCallbacks id s.callbacks
    ({ s with callbacks := t.2 }, t.1.map (fun cb => .cmdCall cb (some (.dict r))), false)
  -- on_instruction_packet (449-455); exceptions are logged there
  | 16, [.bytes sender, .dict d] => (s, [.instruction sender (.dict d)], false)
  -- on_scan_remote_directory (475-486); the answer to a successful scan is sent by the scan's own thread
  | 29, [] =>
    match env.scanError with
    | none => (s, [.remote 29 []], false)
    | some msg =>
      match create (fun _ => "") 30 [.text msg] [] with
      | .ok p => match encodeBinary p with
        | .ok m => (s, [.remote 29 [], .sent m], false)
        | .error _ => (s, [.remote 29 []], true)
      | .error _ => (s, [.remote 29 []], true)
  -- the other handlers of the remote directory (457-473, 488-497)
  | 24, args => (s, [.remote 24 args], env.raises)
  | 26, args => (s, [.remote 26 args], env.raises)
  | 27, args => (s, [.remote 27 args], env.raises)
  | 31, args => (s, [.remote 31 args], env.raises)
  -- handle_null, handle_welcome, handle_log (373-376, 391-399)
  | _, _ => (s, [], false)

/-- `hard_close_channels` (wsclient.py:254-257): every channel's `on_close`; the channels stay in the table. -/
def hardClose : List (Int × Channel.Ch) → List (Int × Channel.Ch) × List Out
  | [] => ([], [])
  | (n, c) :: r =>
    let a := Channel.step c .onClose
    let b := hardClose r
    ((n, a.1) :: b.1, a.2.flatMap (chanOut n) ++ b.2)

/-- `on_event` (wsclient.py:275-284) for an event of the websocket, inside the `try` of `run` (wsclient.py:264-268): an exception
is logged and the loop goes on. -/
def onEvent (env : Env) (s : St) : Ev → St × List Out
  -- on_ready (312-318)
  | .ready =>
    match s.identity with
    | none => match send 1 [] with
      | some m => (s, [.sent m])
      | none => (s, [.logged])
    | some id => match send 2 [("uuid", .bytes id)] with
      | some m => (s, [.sent m])
      | none => (s, [.logged])
  -- on_disconnected (334-338), clear_callbacks (231-239): the callbacks are called but stay registered
  | .disconnected =>
    let h := hardClose s.channels
    ({ s with identity := none, channels := h.1 },
      (s.callbacks.flatMap fun e => e.2.map fun cb => .cmdCall cb none) ++ h.2)
  | .binary data =>
    match onBinary data with
    | .hang => ({ s with hung := true }, [])
    | .dropped => (s, [])
    | .raised => (s, [.logged])
    | .call n args =>
      let r := handle env s n args
      (r.1, r.2.1 ++ (if r.2.2 then [.logged] else []))
  -- sync_identity (330-332)
  | .poll => syncIdentity env s
  | _ => (s, [])

/-- One step.  (wsclient.py:218-289) -/
def step (env : Env) (s : St) (e : Ev) : St × List Out :=
  if e.isSocket then (if s.hung then (s, []) else onEvent env s e)
  else match e with
    -- close (286-289); closing the websocket itself is lomond's business
    | .close => ({ s with closed := true, identity := none }, [])
    | .addCallback id cb => ({ s with callbacks := addCb id cb s.callbacks }, [])
    | .getChannel n => ({ s with channels := (getChannel n s.channels).1 }, [])
    | .chanOp n op =>
      if serviceOp op then
        match lookup n s.channels with
        | none => (s, [])
        | some c =>
          let r := Channel.step c op
          ({ s with channels := update n r.1 s.channels }, r.2.flatMap (chanOut n))
      else (s, [])
    | _ => (s, [])

/-- A history of events.  The loop (wsclient.py:263-268), with the calls of other threads in between. -/
def run (s : St) : List (Env × Ev) → St × List Out
  | [] => (s, [])
  | (env, e) :: es =>
    let r := step env s e
    let r' := run r.1 es
    (r'.1, r.2 ++ r'.2)

/-- How the receive thread comes to its end (wsclient.py:261-273): lomond's `persist` is exhausted, it raises, or `SystemExit` or
`KeyboardInterrupt` comes.  All three are caught; then `self.on_close()` (273) is called, a method that neither `WSClient` nor `Thread`
has, so that the thread ends with an `AttributeError`. -/
inductive Stop where
  | exhausted
  | raises
  | exits
  deriving DecidableEq, Repr

/-- How a thread ends. -/
inductive End where
  | returned
  | attributeError
  deriving DecidableEq, Repr

/-- The receive thread from beginning to end (wsclient.py:259-273). -/
def thread (s : St) (hist : List (Env × Ev)) (_ : Stop) : St × List Out × End :=
  let r := run s hist
  (r.1, r.2, .attributeError)

/-! ### `handle_set_identity` against `close`, statement by statement -/

/-- Where the receive thread is inside `handle_set_identity` (wsclient.py:379-384): before `if not self.is_closed`, before the
assignment, before `sync_identity`, done. -/
inductive PC where
  | check | assign | sync | done
  deriving DecidableEq, Repr

/-- Shared variables, the thread's position and the identities announced so far.  (wsclient.py:190-191, 378-384) -/
structure Race where
  closed : Bool := false
  identity : Option Bytes := none
  pc : PC := .check
  announced : List Bytes := []
  deriving DecidableEq, Repr

/-- The receive thread handling `set_identity(id)` does one statement; or another thread does one statement of `close`
(wsclient.py:286-289); or the receive thread, when done, handles a poll. -/
inductive Move where
  | receive | setClosed | clearIdentity | poll
  deriving DecidableEq, Repr

/-- One move (nothing was announced before, the RPC succeeds).  (wsclient.py:286-289, 330-332, 378-384) -/
def raceStep (id : Bytes) (r : Race) : Move → Race
  | .receive => match r.pc with
    | .check => if r.closed then { r with pc := .done } else { r with pc := .assign }
    | .assign => { r with identity := some id, pc := .sync }
    | .sync => { r with pc := .done, announced := r.announced ++ r.identity.toList }
    | .done => r
  | .setClosed => { r with closed := true }
  | .clearIdentity => { r with identity := none }
  | .poll => if r.pc = .done then { r with announced := r.announced ++ r.identity.toList } else r

end Verif.WSClient
