/-!
Model of `dataplicity/limiter.py`, and of a set of services sharing one limiter.
-/
namespace Verif.Limiter

/-- `Limiter.__init__` (limiter.py:40-51); the assertion `limit > 0` is the hypothesis `0 < limit` where it matters. -/
structure Lim where
  limit : Nat
  value : Int := 0
  deriving DecidableEq, Repr

/-- The exceptions of limiter.py:14-19. -/
inductive Err where
  | limitReached
  | belowZero
  deriving DecidableEq, Repr

/-- `increment` (limiter.py:60-72); one atomic step, the whole body holds the lock. -/
def increment (l : Lim) : Except Err Lim :=
  if l.value ≥ l.limit then .error .limitReached else .ok { l with value := l.value + 1 }

/-- `decrement` (limiter.py:74-81). -/
def decrement (l : Lim) : Except Err Lim :=
  if l.value ≤ 0 then .error .belowZero else .ok { l with value := l.value - 1 }

/-- Where one attempt to launch a service is: before `increment`; between `increment` and the end of the set-up code of
`limiter_context` (limiter.py:22-34); running in its thread; refused; set-up failed; ended. -/
inductive Phase where
  | new
  | setup
  | running
  | refused
  | failed
  | ended
  deriving DecidableEq, Repr

/-- The limiter, one phase for each attempt, and the number of exceptions raised by `decrement`.  (limiter.py:37-81) -/
structure Pool where
  lim : Lim
  phases : List Phase := []
  errors : Nat := 0
  deriving DecidableEq, Repr

/-- Steps of the threads.  `enter i`: attempt `i` calls `limiter.increment()`; `started i`/`failed i`: its set-up code (creating and
starting the thread) succeeds or raises; `finish i`: its thread runs the `finally: self.limiter.decrement()` of `run_service`
(fileservice.py:65-74, commandservice.py:55-64), of `Connection.run` (portforward.py:49-55) or of `RemoteProcess.run` (remoteprocess.py:96-100).  That the set-up code
holds the lock only excludes some schedules; here all are allowed. -/
inductive Ev where
  | attempt
  | enter (i : Nat)
  | started (i : Nat)
  | failed (i : Nat)
  | finish (i : Nat)
  deriving DecidableEq, Repr

/-- Give a slot back and set the phase; an exception from `decrement` is counted.  (limiter.py:33, fileservice.py:74) -/
def giveBack (p : Pool) (i : Nat) (ph : Phase) : Pool :=
  match decrement p.lim with
  | .ok l => { p with lim := l, phases := p.phases.set i ph }
  | .error _ => { p with phases := p.phases.set i ph, errors := p.errors + 1 }

/-- One step; a step that a thread is not ready for changes nothing.  (limiter.py:22-34, 60-81) -/
def step (p : Pool) : Ev → Pool
  | .attempt => { p with phases := p.phases ++ [.new] }
  | .enter i =>
    if p.phases[i]? = some .new then
      match increment p.lim with
      | .ok l => { p with lim := l, phases := p.phases.set i .setup }
      | .error _ => { p with phases := p.phases.set i .refused }
    else p
  | .started i => if p.phases[i]? = some .setup then { p with phases := p.phases.set i .running } else p
  | .failed i => if p.phases[i]? = some .setup then giveBack p i .failed else p
  | .finish i => if p.phases[i]? = some .running then giveBack p i .ended else p

/-- A whole schedule.  (Model infrastructure.) -/
def run (p : Pool) (evs : List Ev) : Pool := evs.foldl step p

/-- A new limiter with no services.  (limiter.py:40-51) -/
def init (limit : Nat) : Pool := { lim := { limit := limit } }

/-- `with limiter(): <create and start the thread>` seen from one caller (limiter.py:22-34); the result says whether the block
raised.  Other threads act before and after, not in the middle, because the set-up holds the lock after `increment`. -/
def launch (l : Lim) (startOk : Bool) : Lim × Bool :=
  match increment l with
  | .error _ => (l, false)
  | .ok l1 =>
    if startOk then (l1, true)
    else match decrement l1 with
      | .ok l2 => (l2, false)
      | .error _ => (l1, false)

end Verif.Limiter
