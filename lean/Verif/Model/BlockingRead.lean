import Verif.Model.Channel
/-!
`Channel.read` with `block=True` (`dataplicity/m2m/wsclient.py:125-150`) by any number of threads, together with the other operations on the
channel.  `Model/Channel.lean` has the same call as one step with the result of the waiting as an input; here the waiting itself is modelled.

`threading.Event` (Python's Lib/threading.py): `wait` returns at once if the flag is set; otherwise the thread sleeps until the next `set`,
which wakes all that sleep, or until its time is over.  A thread that was woken goes on even if the flag is cleared before it runs.
-/
namespace Verif.BlockingRead
open Verif Channel

/-- Where a thread is in `read(count, timeout, block=True)`: not in it; asleep in `_data_event.wait` (wsclient.py:131-132); behind it, before
`with self._lock` (135). -/
inductive Phase where
  | idle
  | asleep (count : Int) (timed : Bool)
  | woken (count : Int)
  deriving DecidableEq, Repr

/-- The channel and the threads that read it.  (Model infrastructure.) -/
structure State where
  ch : Ch := {}
  reader : Nat → Phase := fun _ => .idle

/-- An operation of `Model/Channel.lean`; thread `t` calls `read`, with or without a time limit; its time is over; it goes on. -/
inductive Op where
  | chan (op : Channel.Op)
  | call (t : Nat) (count : Int) (timed : Bool)
  | timeout (t : Nat)
  | take (t : Nat)
  deriving DecidableEq, Repr

/-- An output of the channel; what the call of thread `t` returns. -/
inductive Out where
  | chan (o : Channel.Out)
  | returned (t : Nat) (data : Bytes)
  deriving DecidableEq, Repr

/-- Does the operation call `_data_event.set()`?  (wsclient.py:89-99) -/
def sets (c : Ch) : Channel.Op → Bool
  | .data _ => !c.closed && c.dataCb.isNone
  | _ => false

/-- A thread after `_data_event.set()`.  (Lib/threading.py, `Event.set`) -/
def wake : Phase → Phase
  | .asleep n _ => .woken n
  | p => p

/-- One step.  (wsclient.py:125-150) -/
def step (s : State) : Op → State × List Out
  | .chan op =>
    let r := Channel.step s.ch op
    ({ ch := r.1, reader := if sets s.ch op then fun t => wake (s.reader t) else s.reader }, r.2.map .chan)
  | .call t n timed => match s.reader t with
    | .idle => ({ s with reader := fun u => if u = t then (if s.ch.event then .woken n else .asleep n timed) else s.reader u }, [])
    | _ => (s, [])
  -- `return b""` (wsclient.py:133)
  | .timeout t => match s.reader t with
    | .asleep _ true => ({ s with reader := fun u => if u = t then .idle else s.reader u }, [.returned t []])
    | _ => (s, [])
  -- wsclient.py:135-150
  | .take t => match s.reader t with
    | .woken n =>
      let r := readLoop s.ch.deque n
      ({ ch := { s.ch with deque := r.2, event := if r.2.isEmpty then false else s.ch.event },
         reader := fun u => if u = t then .idle else s.reader u }, [.returned t r.1.flatten])
    | _ => (s, [])

/-- A schedule.  (Model infrastructure.) -/
def run (s : State) : List Op → State × List Out
  | [] => (s, [])
  | op :: ops =>
    let r := step s op
    let r' := run r.1 ops
    (r'.1, r.2 ++ r'.2)

end Verif.BlockingRead
