import Verif.Py.Bytes
/-!
Model of remote terminals: `dataplicity/m2m/proxy.py` (`Interceptor`), `dataplicity/m2m/remoteprocess.py` (`RemoteProcess`,
`PidWaitThread`) and the bookkeeping of `Terminal` (`dataplicity/m2mmanager.py:20-86`).
-/
namespace Verif.Terminal
open Verif

/-! ### Input -/

/-- Result of one `os.write(master_fd, data)`.  (proxy.py:175) -/
inductive WriteRes where
  | wrote (n : Nat)
  | raises
  deriving DecidableEq, Repr

/-- How `write_master` ends; `more`: still looping when the fuel is used up.  (proxy.py:168-176) -/
inductive WEnd where
  | done
  | raised
  | more
  deriving DecidableEq, Repr

/-- The loop of `write_master` (proxy.py:174-176): bytes written, number of `os.write` calls made so far, end.  `env k` is the result of
the k-th call. -/
def writeMaster (env : Nat → WriteRes) : Nat → Nat → Bytes → Bytes × Nat × WEnd
  | fuel, k, data =>
    if data.isEmpty then ([], k, .done)
    else match fuel with
      | 0 => ([], k, .more)
      | fuel + 1 =>
        match env k with
        | .raises => ([], k + 1, .raised)
        | .wrote n =>
          let r := writeMaster env fuel (k + 1) (data.drop n)
          (data.take n ++ r.1, r.2)

/-- What input handling leaves behind: bytes written to the terminal, `os.write` calls, close requests, and whether a call of `on_data`
is still in its loop.  (remoteprocess.py:102-106) -/
structure In where
  written : Bytes := []
  calls : Nat := 0
  closes : Nat := 0
  stuck : Bool := false
  deriving DecidableEq, Repr

/-- `on_data` (remoteprocess.py:102-106) with `stdin_read` (proxy.py:185-189); `running`: `master_fd` is set.  Otherwise the assertion
of proxy.py:173 raises. -/
def onData (env : Nat → WriteRes) (fuel : Nat) (s : In) (running : Bool) (data : Bytes) : In :=
  if s.stuck then s
  else if running then
    let r := writeMaster env fuel s.calls data
    { written := s.written ++ r.1, calls := r.2.1, closes := if r.2.2 = .raised then s.closes + 1 else s.closes,
      stuck := decide (r.2.2 = .more) }
  else { s with closes := s.closes + 1 }

/-- A sequence of messages, each with the state of the terminal when it arrives.  (Model infrastructure.) -/
def onDataAll (env : Nat → WriteRes) (fuel : Nat) (s : In) (msgs : List (Bool × Bytes)) : In :=
  msgs.foldl (fun s m => onData env fuel s m.1 m.2) s

/-! ### Closing -/

/-- The process and the attributes `pid` and `_closed`.  `hups` counts the hang-up signals sent, `waits` the wait threads started.
(proxy.py:55, 66, remoteprocess.py:80, 132-141) -/
structure Proc where
  forked : Bool := false
  pid : Bool := false
  closed : Bool := false
  hups : Nat := 0
  waits : Nat := 0
  deriving DecidableEq, Repr

/-- Steps: `pty.fork()` (proxy.py:64) and the assignment of `pid` (66) by the launching thread; `close` (remoteprocess.py:132-141) by the
receive thread, the only caller in the agent.  `killOk`: `os.kill` does not raise; `startOk`: the wait thread starts. -/
inductive POp where
  | fork
  | setPid
  | close (killOk startOk : Bool)
  deriving DecidableEq, Repr

/-- One step.  (proxy.py:64-66, remoteprocess.py:132-141) -/
def pstep (s : Proc) : POp → Proc
  | .fork => { s with forked := true }
  | .setPid => if s.forked then { s with pid := true } else s
  | .close killOk startOk =>
    if !s.closed && s.pid then
      if killOk then { s with hups := s.hups + 1, waits := if startOk then s.waits + 1 else s.waits, closed := true }
      else s
    else { s with closed := true }

/-- (Model infrastructure.) -/
def prun (s : Proc) (ops : List POp) : Proc := ops.foldl pstep s

/-- What one iteration of the wait thread observes: has the process exited (`waitpid`), and the time on the clock since the thread
started, in seconds.  (remoteprocess.py:49, 56) -/
structure Tick where
  exited : Bool
  time : Int
  deriving DecidableEq, Repr

/-- What the wait thread does.  (remoteprocess.py:50-69) -/
inductive WAct where
  | reaped
  | warn
  | kill
  | givesUp
  deriving DecidableEq, Repr

/-- The warning times (remoteprocess.py:35-43). -/
def warnTimes : List Int := [5, 10, 30, 60, 60 * 10, 60 * 60, 60 * 60 * 24]
/-- `kill_time` (remoteprocess.py:45). -/
def killTime : Int := 15

/-- `PidWaitThread.run` (remoteprocess.py:31-69), over the iterations observed so far.  The actions of each iteration are kept apart. -/
def waitLoop (warnings : List Int) (sentKill : Bool) : List Tick → List (List WAct)
  | [] => if warnings.isEmpty then [[.givesUp]] else []
  | t :: ts =>
    match warnings with
    | [] => [[.givesUp]]
    | w :: ws =>
      if t.exited then [[.reaped]]
      else
        let warn := decide (t.time ≥ w)
        let kill := !sentKill && decide (t.time ≥ killTime)
        ((if warn then [.warn] else []) ++ (if kill then [.kill] else [])) ::
          waitLoop (if warn then ws else w :: ws) (sentKill || kill) ts

/-! ### Window size -/

/-- A value that fits in a C `short` (`array.array("h", ...)`).  (proxy.py:123) -/
def fitsShort (n : Int) : Bool := decide (-32768 ≤ n) && decide (n ≤ 32767)

/-- The entries of `struct winsize` are unsigned: a negative `short` is read as such.  (proxy.py:125; operating system) -/
def toUnsigned (n : Int) : Int := n % 65536

/-- The terminal device: columns and rows of the last `TIOCSWINSZ`.  (proxy.py:125) -/
structure Win where
  cols : Int
  rows : Int
  deriving DecidableEq, Repr

/-- `self.size`, a pair as sent by the server: columns first ("Resize terminal to [COLUMNS, LINES]", proxy.py:156). -/
structure Pty where
  size : Int × Int := (80, 24)
  fd : Bool := false
  device : Option Win := none
  /-- sizes read by threads that are about to call `ioctl` -/
  reads : List (Nat × (Int × Int)) := []
  deriving DecidableEq, Repr

/-- `_set_pty_size` (proxy.py:115-125) with a given value of `self.size`: `rows, cols = self.size`, then the buffer `[cols, rows, 0, 0]`,
whose first two entries are `ws_row` and `ws_col` of `struct winsize`.  An entry that does not fit raises. -/
def setPtySize (size : Int × Int) (device : Option Win) : Option Win :=
  let rows := size.1
  let cols := size.2
  let buf := [cols, rows, 0, 0]
  if buf.all fitsShort then some { rows := toUnsigned buf[0]!, cols := toUnsigned buf[1]! } else device

/-- Whole calls: `start` is proxy.py:64-66 and 94 in the parent, `resize` is `resize_terminal` (proxy.py:155-159) as called by `on_control`
(remoteprocess.py:108-120), `stop` is proxy.py:100-101. -/
inductive SOp where
  | start
  | resize (size : Int × Int)
  | stop
  deriving DecidableEq, Repr

/-- (proxy.py:64-66, 94, 155-159, 100-101) -/
def sstep (p : Pty) : SOp → Pty
  | .start => { p with fd := true, device := setPtySize p.size p.device }
  | .resize size => { p with size := size, device := if p.fd then setPtySize size p.device else p.device }
  | .stop => { p with fd := false }

/-- (Model infrastructure.) -/
def srun (p : Pty) (ops : List SOp) : Pty := ops.foldl sstep p

/-- The same in single steps of two threads (0: the launching thread, 1: the receive thread): set `fd`, set `size`, read `size`, `ioctl`. -/
inductive FineOp where
  | setFd
  | setSize (size : Int × Int)
  | readSize (thread : Nat)
  | ioctl (thread : Nat)
  deriving DecidableEq, Repr

/-- (proxy.py:65, 119-125, 155-159) -/
def fstep (p : Pty) : FineOp → Pty
  | .setFd => { p with fd := true }
  | .setSize size => { p with size := size }
  | .readSize t => if p.fd then { p with reads := (t, p.size) :: p.reads.filter (fun r => r.1 ≠ t) } else p
  | .ioctl t =>
    match p.reads.find? (fun r => r.1 = t) with
    | some (_, size) => { p with device := setPtySize size p.device, reads := p.reads.filter (fun r => r.1 ≠ t) }
    | none => p

/-- (Model infrastructure.) -/
def frun (p : Pty) (ops : List FineOp) : Pty := ops.foldl fstep p

/-! ### Output -/

/-- Exceptions: `IOError`/`OSError`, or another one.  (proxy.py:97) -/
inductive Fail where
  | os
  | other
  deriving DecidableEq, Repr

/-- One entry of a poll result.  (proxy.py:147-151) -/
structure PollEv where
  readable : Bool
  error : Bool
  read : Except Fail Bytes := .ok []
  writeRaises : Option Fail := none

/-- What the thread of a terminal does.  (proxy.py:100, 149, remoteprocess.py:100, 106, 126) -/
inductive Act where
  | read (d : Bytes)
  | write (d : Bytes)
  | closeChannel
  | closeFd
  | release
  deriving DecidableEq, Repr

/-- How a loop ended.  (proxy.py:140-153) -/
inductive Fin where
  | more
  | done
  | raised (f : Fail)
  deriving DecidableEq, Repr

/-- The inner loop of `_copy` (proxy.py:147-153), with `master_read` (remoteprocess.py:125-127). -/
def copyEvents : List PollEv → List Act × Fin
  | [] => ([], .more)
  | e :: es =>
    if e.readable then
      match e.read with
      | .error f => ([], .raised f)
      | .ok d =>
        match e.writeRaises with
        | some f => ([.read d, .write d], .raised f)
        | none =>
          if e.error then ([.read d, .write d], .done)
          else
            let r := copyEvents es
            (.read d :: .write d :: r.1, r.2)
    else if e.error then ([], .done)
    else copyEvents es

/-- `_copy` (proxy.py:140-153), at most `fuel` polls from the k-th on; `poll k = none`: the k-th poll raises. -/
def copyLoop (poll : Nat → Option (List PollEv)) : Nat → Nat → List Act × Fin
  | 0, _ => ([], .more)
  | fuel + 1, k =>
    match poll k with
    | none => ([], .done)
    | some es =>
      match copyEvents es with
      | (acts, .more) => let r := copyLoop poll fuel (k + 1); (acts ++ r.1, r.2)
      | r => r

/-- `RemoteProcess.run` (remoteprocess.py:96-100) with `spawn` (proxy.py:94-101) in the parent; `spawnOk`: nothing raises before `_copy`.
The second component says that the thread has ended. -/
def runThread (spawnOk : Bool) (poll : Nat → Option (List PollEv)) (fuel : Nat) : List Act × Bool :=
  if spawnOk then
    match copyLoop poll fuel 0 with
    | (acts, .more) => (acts, false)
    | (acts, .raised .other) => (acts ++ [.release], true)
    | (acts, _) => (acts ++ [.closeFd, .release], true)
  else ([.release], true)

/-! ### User and group -/

/-- Credentials of a process.  (proxy.py:67-90) -/
structure Cred where
  uid : Nat
  gid : Nat
  deriving DecidableEq, Repr

/-- `os.setuid`: root may become anyone, others only themselves; `none` is an exception.  (proxy.py:74) -/
def setuid (c : Cred) (u : Nat) : Option Cred := if c.uid = 0 || c.uid = u then some { c with uid := u } else none
/-- `os.setgid`.  (proxy.py:84) -/
def setgid (c : Cred) (g : Nat) : Option Cred := if c.uid = 0 || c.gid = g then some { c with gid := g } else none

/-- The child of `spawn` (proxy.py:67-90): the credentials with which the command is executed, or `none` if it is not.  `users` and
`groups` are the account databases. -/
def childCred (users groups : Text → Option Nat) (agent : Cred) (user group : Option Text) : Option Cred :=
  let afterUser := match user with
    | none => some agent
    | some name => match users name with
      | none => some agent               -- logged only
      | some uid => setuid agent uid
  match afterUser with
  | none => none
  | some c => match group with
    | none => some c
    | some name => match groups name with
      | none => some c                   -- logged only
      | some gid => setgid c gid

/-! ### Bookkeeping of a terminal -/

/-- The processes a `Terminal` knows, by number, and which processes are closed.  (m2mmanager.py:28, 36) -/
structure Term where
  processes : List Nat := []
  closed : List Nat := []
  next : Nat := 0
  deriving DecidableEq, Repr

/-- `launch` (m2mmanager.py:39-74) that succeeds or not, the closing of a channel (`on_close`), `Terminal.close` (76-86); the latter has
the processes whose `close` raises as an argument. -/
inductive TOp where
  | launch (ok : Bool)
  | channelClosed (p : Nat)
  | closeAll (raising : List Nat)
  deriving DecidableEq, Repr

/-- The calls of `process.close()` made by `Terminal.close`.  (m2mmanager.py:77-83) -/
def closeCalls (t : Term) : List Nat := t.processes.filter (fun p => !t.closed.contains p)

/-- (m2mmanager.py:33-86) -/
def tstep (t : Term) : TOp → Term
  | .launch ok =>
    let kept := t.processes.filter (fun p => !t.closed.contains p)
    { t with processes := if ok then kept ++ [t.next] else kept, next := t.next + 1 }
  | .channelClosed p => { t with closed := p :: t.closed }
  | .closeAll raising =>
    { t with processes := [], closed := (closeCalls t).filter (fun p => !raising.contains p) ++ t.closed }

/-- (Model infrastructure.) -/
def trun (t : Term) (ops : List TOp) : Term := ops.foldl tstep t

end Verif.Terminal
