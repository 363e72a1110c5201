import Verif.Model.Device
import Verif.Model.Terminal
import Verif.Model.Client
/-!
The end of the agent: `Client.run_forever`, `Client.exit` and `Client.close` (client.py:101-125, 207-209) with the clock thread
(clockcheck.py:20-44), as two threads whose steps come in any order; `M2MManager.restart_agent` and `M2MManager.on_client_close`
(m2mmanager.py:111-118).

Simplifications: a poll is one step, whose result is chosen by the environment (C75 says which are possible); `time.sleep` and a poll come to
their end (each is one step, which may be arbitrarily late); an interrupt (`KeyboardInterrupt`, `SystemExit` from a signal handler) comes
between two steps of the main thread.
-/
namespace Verif.Exit
open Verif

/-- How `run_forever` came to its end: it returned, or an exception left it.  (client.py:110-115) -/
inductive Result where
  | returned
  | raised (x : Client.Raised)
  deriving DecidableEq, Repr

/-- The result of the `try` statement with its `except` clauses (client.py:106-115). -/
def leave : Client.Raised → Result
  | .interrupt => .returned
  | x => .raised x

/-- Where the main thread is in `run_forever` (client.py:101-121). -/
inductive Main where
  | start                     -- before `clock_check_thread.start()` (104)
  | polling                   -- in `self.poll()` (107, 109)
  | waiting                   -- in `self.exit_event.wait` (108)
  | stopping (r : Result)     -- before `clock_check_thread.running = False` (117)
  | joining (r : Result)      -- in `clock_check_thread.join()` (118)
  | closing (r : Result)      -- before `self.close()` (120)
  | ended (r : Result)
  deriving DecidableEq, Repr

/-- Where the clock thread is in `run` (clockcheck.py:28-36). -/
inductive Clock where
  | none                      -- not started
  | top                       -- before `while self.running`
  | asleep (start : Int)      -- `start` was read; in `sleep(CHECK_PERIOD)`
  | ended
  deriving DecidableEq, Repr

/-- The two threads, `exit_event`, the flag `running` of the clock thread, whether the process was killed, and the terminals of the manager. -/
structure St where
  main : Main := .start
  clock : Clock := .none
  exit : Bool := false
  running : Bool := true
  killed : Bool := false
  terminals : List Terminal.Term := []
  deriving DecidableEq, Repr

/-- One step of a thread. -/
inductive Ev where
  | start (ok : Bool)                       -- main: `clock_check_thread.start()`, which raises if no thread can be started
  | poll (r : Option Client.Raised)         -- main: a poll comes to its end
  | wait                                    -- main: `exit_event.wait` returns because the event is set
  | timeout                                 -- main: `exit_event.wait` returns because the time is over
  | interrupt                               -- main: an interrupt
  | stop                                    -- main: `running = False`
  | join                                    -- main: `join()` returns
  | close                                   -- main: `self.close()`
  | test (now : Int)                        -- clock: `while self.running`, `start = time()`
  | wake (now : Int)                        -- clock: `sleep` returns, `elapsed` is compared
  | exit                                    -- another thread: `Client.exit` (123-125), `M2MManager.restart_agent` (m2mmanager.py:111-113)
  | terminal (i : Nat) (op : Terminal.TOp)  -- another thread: something happens to the terminal with number `i`
  deriving DecidableEq, Repr

/-- One step (client.py:101-125, clockcheck.py:28-44); one that is not possible changes nothing.  `Client.close` (207-209) does nothing. -/
def step (s : St) (e : Ev) : St :=
  if s.killed then s
  else match e, s.main, s.clock with
    | .start true, .start, _ => { s with main := .polling, clock := .top }
    | .start false, .start, _ => { s with main := .ended (.raised .other) }
    | .poll none, .polling, _ => { s with main := .waiting }
    | .poll (some x), .polling, _ => { s with main := .stopping (leave x) }
    | .wait, .waiting, _ => if s.exit then { s with main := .stopping .returned } else s
    | .timeout, .waiting, _ => if s.exit then s else { s with main := .polling }
    | .interrupt, .polling, _ => { s with main := .stopping .returned }
    | .interrupt, .waiting, _ => { s with main := .stopping .returned }
    | .interrupt, .stopping _, _ => { s with main := .ended (.raised .interrupt) }
    | .interrupt, .joining _, _ => { s with main := .ended (.raised .interrupt) }
    | .interrupt, .closing _, _ => { s with main := .ended (.raised .interrupt) }
    | .stop, .stopping r, _ => { s with running := false, main := .joining r }
    | .join, .joining r, .ended => { s with main := .closing r }
    | .close, .closing r, _ => { s with main := .ended r }
    | .test now, _, .top => if s.running then { s with clock := .asleep now } else { s with clock := .ended }
    | .wake now, _, .asleep start =>
      if now - start > Device.maxDiscrepancy then { s with killed := true } else { s with clock := .top }
    | .exit, _, _ => { s with exit := true }
    | .terminal i op, _, _ => { s with terminals := s.terminals.mapIdx fun j t => if j = i then Terminal.tstep t op else t }
    | _, _, _ => s

/-- A history of steps.  (Model infrastructure.) -/
def run (s : St) (evs : List Ev) : St := evs.foldl step s

/-- `M2MManager.on_client_close` (m2mmanager.py:115-118): `Terminal.close` of every terminal; the processes whose `close` raises are given
for each.  `Terminal.close` catches everything (m2mmanager.py:84). -/
def onClientClose (raising : Nat → List Nat) (ts : List Terminal.Term) : List Terminal.Term :=
  ts.mapIdx fun i t => Terminal.tstep t (.closeAll (raising i))

/-- The calls of `process.close()` that it makes: number of the terminal and of the process.  (m2mmanager.py:115-118, 76-86) -/
def onClientCloseCalls (ts : List Terminal.Term) : List (Nat × Nat) :=
  (ts.mapIdx fun i t => (Terminal.closeCalls t).map fun p => (i, p)).flatten

end Verif.Exit
