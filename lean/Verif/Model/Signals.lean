import Verif.Model.Terminal
/-!
Signals to the process of a terminal, with the processes of the operating system: `spawn` (`dataplicity/m2m/proxy.py:57-101`), `close` and
`PidWaitThread` (`dataplicity/m2m/remoteprocess.py:19-69, 132-141`).

The operating system gives a number to each process and may give it again once the process was collected with `waitpid`.  Each process has besides
the order of its birth, which the agent does not know.  Threads take single steps; a step that a thread can not take is skipped.
Only the agent collects its children, and it does so only in `PidWaitThread` (the other processes that the agent starts are collected by `subprocess`,
by their own numbers).
-/
namespace Verif.Signals
open Verif

/-- A process: its birth, and whether it runs or has exited and was not yet collected.  (Operating system.) -/
structure Proc where
  birth : Nat
  runs : Bool
  deriving DecidableEq, Repr

/-- Where a thread is in `close`: not in it, before `os.kill` (135), before the start of the thread that waits (136-140), before the last line
(141).  (remoteprocess.py:132-141) -/
inductive Place where
  | outside
  | kill
  | start
  | last
  deriving DecidableEq, Repr

/-- A `PidWaitThread`: asleep (47), after a `waitpid` that found the process running (55), or ended; with its variables `warnings` and `sent_kill`.
(remoteprocess.py:31-69) -/
inductive Waiter where
  | asleep (warnings : List Int) (sentKill : Bool)
  | awake (warnings : List Int) (sentKill : Bool)
  | ended
  deriving DecidableEq, Repr

/-- The signals (135, 67). -/
inductive Signal where
  | hup
  | kill
  deriving DecidableEq, Repr

/-- The processes by their numbers, how many were born, the child (birth and number) of the terminal, the attributes `pid` and `_closed`, the threads, and
the signals sent, each with the process that got it.  (proxy.py:52-55, 64-66; remoteprocess.py:80) -/
structure St where
  table : Nat → Option Proc := fun _ => none
  births : Nat := 0
  child : Option (Nat × Nat) := none
  pid : Option Nat := none
  closed : Bool := false
  place : Nat → Place := fun _ => .outside
  waiters : List Waiter := []
  sent : List (Signal × Option Nat) := []

/-- (Model infrastructure.) -/
def St.put (s : St) (pid : Nat) (p : Option Proc) : St := { s with table := fun x => if x = pid then p else s.table x }

/-- (Model infrastructure.) -/
def St.go (s : St) (t : Nat) (p : Place) : St := { s with place := fun x => if x = t then p else s.place x }

/-- `os.kill(pid, signal)`: who has the number gets the signal (135, 67). -/
def St.signal (s : St) (x : Signal) (pid : Nat) : St := { s with sent := s.sent ++ [(x, (s.table pid).map (·.birth))] }

/-- What can happen next.  (Operating system; proxy.py:64-66, remoteprocess.py:31-69, 132-141) -/
inductive Op where
  /-- another process is born, exits, or is collected by its parent -/
  | born (pid : Nat)
  | exits (pid : Nat)
  | collected (pid : Nat)
  /-- `pty.fork()` (proxy.py:64) and the assignment of `pid` (66) -/
  | fork (pid : Nat)
  | setPid
  /-- steps of thread `t` in `close`; `permitted`: the agent may send signals to the process; `ok`: the thread that waits can be started -/
  | test (t : Nat)
  | kill (t : Nat) (permitted : Bool)
  | start (t : Nat) (ok : Bool)
  | finish (t : Nat)
  /-- `waitpid` (49) of the `w`-th thread that waits, and the rest of its loop (54-67) at the given time since its start -/
  | wait (w : Nat)
  | check (w : Nat) (time : Int) (permitted : Bool)
  deriving DecidableEq, Repr

/-- The rest of an iteration of `PidWaitThread.run`: the warnings left, and whether the process is to be killed.  (remoteprocess.py:57-65) -/
def due (warnings : List Int) (sentKill : Bool) (time : Int) : List Int × Bool :=
  (match warnings with
    | w :: ws => if time ≥ w then ws else w :: ws
    | [] => [],
   !sentKill && decide (time ≥ Terminal.killTime))

/-- The thread sleeps again, unless no warnings are left (46, 68). -/
def again (warnings : List Int) (sentKill : Bool) : Waiter := if warnings.isEmpty then .ended else .asleep warnings sentKill

/-- One step.  (proxy.py:64-66, remoteprocess.py:31-69, 132-141) -/
def step (s : St) : Op → St
  | .born pid => if pid ≠ 0 ∧ s.table pid = none then { s.put pid (some ⟨s.births, true⟩) with births := s.births + 1 } else s
  | .exits pid => match s.table pid with
    | some p => s.put pid (some { p with runs := false })
    | none => s
  | .collected pid => match s.table pid with
    | some ⟨b, false⟩ => if s.child.map (·.1) = some b then s else s.put pid none
    | _ => s
  | .fork pid =>
    if pid ≠ 0 ∧ s.table pid = none ∧ s.child = none then { s.put pid (some ⟨s.births, true⟩) with births := s.births + 1, child := some (s.births, pid) }
    else s
  | .setPid => { s with pid := s.child.map (·.2) }
  | .test t => match s.place t with
    | .outside => s.go t (if !s.closed && s.pid.isSome then .kill else .last)
    | _ => s
  | .kill t permitted => match s.place t, s.pid with
    | .kill, some pid =>
      -- no such process, or not permitted: an exception, which leaves `close`
      if (s.table pid).isSome && permitted then (s.signal .hup pid).go t .start else s.go t .outside
    | _, _ => s
  | .start t ok => match s.place t with
    | .start => { s.go t .last with waiters := if ok then s.waiters ++ [.asleep Terminal.warnTimes false] else s.waiters }
    | _ => s
  | .finish t => match s.place t with
    | .last => { s.go t .outside with closed := true }
    | _ => s
  | .wait w => match s.waiters[w]?, s.pid with
    | some (.asleep ws k), some pid => match s.table pid with
      | some ⟨b, runs⟩ =>
        if s.child.map (·.1) ≠ some b then { s with waiters := s.waiters.set w .ended }
        else if runs then { s with waiters := s.waiters.set w (.awake ws k) }
        else { s.put pid none with waiters := s.waiters.set w .ended }
      -- `ChildProcessError` ends the thread
      | none => { s with waiters := s.waiters.set w .ended }
    | _, _ => s
  | .check w time permitted => match s.waiters[w]?, s.pid with
    | some (.awake ws k), some pid =>
      let r := due ws k time
      if r.2 then
        if (s.table pid).isSome && permitted then { s.signal .kill pid with waiters := s.waiters.set w (again r.1 true) }
        else { s with waiters := s.waiters.set w .ended }
      else { s with waiters := s.waiters.set w (again r.1 k) }
    | _, _ => s

/-- A history.  (Model infrastructure.) -/
def run (s : St) (ops : List Op) : St := ops.foldl step s

/-- The thread that calls `close`, if this is a step of it.  (132-141) -/
def Op.closer : Op → Option Nat
  | .test t | .kill t _ | .start t _ | .finish t => some t
  | _ => none

end Verif.Signals
