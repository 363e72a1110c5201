import Verif.Py.Bytes
/-!
Model of `dataplicity/portforward.py`: the direction from the channel to the local socket, the forwarding threads with their shared
close event, and the table of services.
-/
namespace Verif.PortForward
open Verif

/-! ### From the channel to the local socket -/

/-- The attributes of `Connection` used by this direction (portforward.py:27-42).  `closed`: the channel was closed by the server, after
which `Channel.on_data` passes nothing on (wsclient.py:89-91).  `calls` counts the calls of `sendall`, `sent` is what the local socket
was given, `shut` says that its write side was shut down. -/
structure WSide where
  socket : Bool := false
  buffer : List Bytes := []
  closed : Bool := false
  calls : Nat := 0
  sent : Bytes := []
  shut : Bool := false
  deriving DecidableEq, Repr

/-- Steps of the receive thread (`data`, `onClose`) and of the connecting thread (`setSocket`, `flush`: portforward.py:178-181).  Each of
them holds the lock, or is one assignment. -/
inductive WOp where
  | data (d : Bytes)
  | onClose
  | setSocket
  | flush
  deriving DecidableEq, Repr

/-- The loop over `read_buffer` (portforward.py:194-195).  `accept n` is the outcome of the n-th `sendall`: `none` is success, `some k`
an exception after `k` bytes were sent.  Returns the bytes sent, the number of calls made so far and whether no exception came. -/
def sendChunks (accept : Nat → Option Nat) (n : Nat) : List Bytes → Bytes × Nat × Bool
  | [] => ([], n, true)
  | c :: cs =>
    match accept n with
    | none => let r := sendChunks accept (n + 1) cs; (c ++ r.1, r.2)
    | some k => (c.take k, n + 1, false)

/-- `_flush_buffer` (portforward.py:190-197); the result says whether no exception came.  The buffer is emptied in any case. -/
def flushBuffer (accept : Nat → Option Nat) (s : WSide) : WSide × Bool :=
  if s.socket then
    let r := sendChunks accept s.calls s.buffer
    ({ s with buffer := [], calls := r.2.1, sent := s.sent ++ r.1 }, r.2.2)
  else (s, true)

/-- One step: `on_channel_data` (portforward.py:184-188), `on_channel_close` (199-207, `_shutdown_write` 124-131), and the two steps at
the end of `_connect`. -/
def wstep (accept : Nat → Option Nat) (s : WSide) : WOp → WSide
  | .data d => if s.closed then s else (flushBuffer accept { s with buffer := s.buffer ++ [d] }).1
  | .onClose =>
    if s.closed then s
    else
      let r := flushBuffer accept { s with closed := true }
      if r.2 && r.1.socket then { r.1 with shut := true } else r.1
  | .setSocket => { s with socket := true }
  | .flush => (flushBuffer accept s).1

/-- A history of steps.  (Model infrastructure.) -/
def wrun (accept : Nat → Option Nat) (s : WSide) (ops : List WOp) : WSide := ops.foldl (wstep accept) s

/-! ### From the local socket to the channel: all forwarding threads -/

/-- One entry of a poll result: the two classes of its mask, what `recv` gives (`none`: it raises), and whether `channel.write` raises.
(portforward.py:87-102) -/
structure PollEv where
  readable : Bool
  error : Bool
  recv : Option Bytes := some []
  writeRaises : Bool := false
  deriving DecidableEq, Repr

/-- What a forwarding thread does.  (portforward.py:55, 91, 97, 112-113) -/
inductive Act where
  | recv (d : Bytes)
  | write (d : Bytes)
  | closeChannel
  | shutdownRead
  | release
  deriving DecidableEq, Repr

/-- The inner loop (portforward.py:87-105): actions, whether the close event was set, whether an exception came out. -/
def pollEvents : List PollEv → List Act × Bool × Bool
  | [] => ([], false, false)
  | e :: es =>
    if e.readable then
      match e.recv with
      | none => ([], false, false)
      | some d =>
        if d.isEmpty then ([.recv d], false, false)
        else if e.writeRaises then ([.recv d, .write d], false, true)
        else
          let r := pollEvents es
          (.recv d :: .write d :: r.1, e.error || r.2.1, r.2.2)
    else
      let r := pollEvents es
      (r.1, e.error || r.2.1, r.2.2)

/-- Where a forwarding thread is (portforward.py:57-113): in `_connect`, before the test of the close event (76), behind it (in `poll` or
the inner loop), or at its end. -/
inductive Phase where
  | connecting
  | looping
  | polling
  | ended
  deriving DecidableEq, Repr

/-- All forwarding threads of one manager and the close event they share (`PortForwardManager._close_event`, portforward.py:275;
nothing clears it).  Connection `i` is the i-th one opened. -/
structure Sys where
  closeEvent : Bool := false
  phase : Nat → Phase := fun _ => .connecting

/-- Steps of thread `i`: `_connect` (158-182) with its success, the test of the close event (76), and the rest of one iteration of the loop
(portforward.py:79-105) with the result of `poll` (`none`: raises) and whether the channel is found closed; `poll` takes up to five seconds,
so that other threads may take steps between the two.  `still`: the clock shows the same time as when the connection object was made, which
matters only if the thread ends in this step. -/
inductive Step where
  | connect (i : Nat) (ok : Bool) (still : Bool)
  | check (i : Nat) (still : Bool)
  | iter (i : Nat) (poll : Option (List PollEv)) (chClosed : Bool) (still : Bool)
  deriving Repr

/-- The `finally` clauses of `_run` (portforward.py:106-113) and `run` (53-55): the division by the elapsed time raises if it is zero,
which skips the two closing calls. -/
def finish (still : Bool) : List Act := (if still then [] else [.closeChannel, .shutdownRead]) ++ [.release]

/-- (Model infrastructure.) -/
def setPhase (s : Sys) (i : Nat) (p : Phase) : Nat → Phase := fun j => if j = i then p else s.phase j

/-- One step of one thread; the actions are those of thread `i`.  (portforward.py:49-113) -/
def step (s : Sys) : Step → Sys × List (Nat × Act)
  | .connect i ok still =>
    if s.phase i = .connecting then
      if ok then ({ s with phase := setPhase s i .looping }, [])
      else ({ s with phase := setPhase s i .ended }, (finish still).map (i, ·))
    else (s, [])
  | .check i still =>
    if s.phase i = .looping then
      if s.closeEvent then ({ s with phase := setPhase s i .ended }, (finish still).map (i, ·))
      else ({ s with phase := setPhase s i .polling }, [])
    else (s, [])
  | .iter i poll chClosed still =>
    if s.phase i = .polling then
      match poll with
      | none => ({ s with phase := setPhase s i .ended }, (finish still).map (i, ·))
      | some es =>
        if chClosed then ({ s with phase := setPhase s i .ended }, (finish still).map (i, ·))
        else
          let r := pollEvents es
          if r.2.2 then ({ closeEvent := s.closeEvent || r.2.1, phase := setPhase s i .ended }, (r.1 ++ finish still).map (i, ·))
          else ({ closeEvent := s.closeEvent || r.2.1, phase := setPhase s i .looping }, r.1.map (i, ·))
    else (s, [])

/-- A schedule of all threads.  (Model infrastructure.) -/
def run (s : Sys) : List Step → Sys × List (Nat × Act)
  | [] => (s, [])
  | st :: sts =>
    let r := step s st
    let r' := run r.1 sts
    (r'.1, r.2 ++ r'.2)

/-! ### The table of services -/

/-- `Service` (portforward.py:214-224). -/
structure Svc where
  name : Text
  port : Int
  host : Text
  deriving DecidableEq, Repr

/-- `PortForwardManager._services` and `._ports` (portforward.py:273-274). -/
structure Mgr where
  services : Text → Option Svc := fun _ => none
  ports : Int → Option Text := fun _ => none

/-- `add_service` (portforward.py:313-318). -/
def addService (m : Mgr) (s : Svc) : Mgr :=
  { services := fun n => if n = s.name then some s else m.services n
    ports := fun p => if p = s.port then some s.name else m.ports p }

/-- Any number of `add_service` calls.  (portforward.py:285-292) -/
def addAll (m : Mgr) (l : List Svc) : Mgr := l.foldl addService m

/-- `127.0.0.1`.  (portforward.py:217, 313, 354) -/
def localhost : Text := "127.0.0.1".toList

/-- `init` (portforward.py:285-292). -/
def initServices : List Svc :=
  [⟨"web".toList, 80, localhost⟩, ⟨"ext".toList, 81, localhost⟩, ⟨"extalt".toList, 8000, localhost⟩, ⟨"alt".toList, 8080, localhost⟩]

/-- `get_service` (portforward.py:309-311). -/
def getService (m : Mgr) (name : Text) : Option Svc := m.services name

/-- `get_service_on_port` (portforward.py:302-307); `error` is the `KeyError` of `self._services[service_name]`. -/
def getServiceOnPort (m : Mgr) (port : Int) : Except Unit (Option Svc) :=
  match m.ports port with
  | none => .ok none
  | some name => match m.services name with
    | some s => .ok (some s)
    | none => .error ()

/-- A connection that was started: the channel it uses and the address it connects to.  (portforward.py:258-261, 350-355) -/
structure Started where
  m2mPort : Int
  host : Text
  port : Int
  deriving DecidableEq, Repr

/-- The exceptions that leave the functions below.  (portforward.py:307, 322, 328) -/
inductive Err where
  | valueError
  | keyError
  deriving DecidableEq, Repr

/-- `open` (portforward.py:325-335) with `Service.connect` (250-265); `admitted`: the limiter lets the thread in and it starts.
`port or 80` is 80 for port 0. -/
def openPort (m : Mgr) (admitted : Bool) (m2mPort : Int) (service : Option Text) (port : Option Int) : Except Err (List Started) :=
  let connect (s : Svc) : List Started := if admitted then [⟨m2mPort, s.host, s.port⟩] else []
  match port with
  | some p =>
    match getServiceOnPort m (if p = 0 then 80 else p) with
    | .error _ => .error .keyError
    | .ok none => .ok []
    | .ok (some s) => .ok (connect s)
  | none =>
    match service with
    | none => .error .valueError
    | some name =>
      match getService m name with
      | none => .ok []
      | some s => .ok (connect s)

/-- `open_service` (portforward.py:320-323). -/
def openService (m : Mgr) (admitted : Bool) (service : Text) (route : List Int) : Except Err (List Started) :=
  match route with
  | [_, _, _, port2] => openPort m admitted port2 (some service) none
  | _ => .error .valueError

/-- `redirect_port` (portforward.py:337-359). -/
def redirectPort (admitted : Bool) (m2mPort devicePort : Int) : List Started :=
  if admitted then [⟨m2mPort, localhost, devicePort⟩] else []

end Verif.PortForward
