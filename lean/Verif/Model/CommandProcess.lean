import Verif.Py.Bytes
/-!
Model of the processes of a command service (dataplicity/m2m/commandservice.py:66-127): the shell that `Popen(..., shell=True)` starts, the
processes that it and its children start, and what the service sees of them and does to them.

Process 0 is the shell.  Left out: what the processes write (Model/Services), and failures of `kill`.  A process that exits closes its files before its
status can be got, as on Linux, so `shut` and `exit` are two moves.
-/
namespace Verif.CommandProcess
open Verif

/-- A process, as far as it matters: does it run, and does it hold the standard output of the command.  (commandservice.py:69-71) -/
structure Proc where
  alive : Bool := true
  out : Bool := true
  deriving DecidableEq, Repr

/-- Where the thread of the service is: in the loop (84-108), behind it (118), behind the complete message (121), at its end. -/
inductive Phase where
  | reading | leaving | told | ended
  deriving DecidableEq, Repr

/-- What is known outside: the processes, the exit status of the shell once it can be got, the thread, and the `returncode` of the complete message. -/
structure St where
  procs : List Proc := [{}]
  status : Option Int := none
  phase : Phase := .reading
  told : Option (Option Int) := none
  kills : Nat := 0
  deriving DecidableEq, Repr

/-- How a poll of the service ends (85-117): nothing new, the end of the output is seen, the channel is found closed, or something raises. -/
inductive Polled where
  | quiet | eof | closed | raised
  deriving DecidableEq, Repr

/-- What happens: processes start others, close their output, and exit; the service polls, sends the complete message, and comes to its end. -/
inductive Move where
  | fork (i : Nat)
  | shut (i : Nat)
  | exit (i : Nat) (code : Int)
  | poll (p : Polled)
  | complete
  | finish
  deriving DecidableEq, Repr

/-- The output is at its end: nobody can write to it any more.  (94-98) -/
def St.eof (s : St) : Bool := s.procs.all (fun p => !(p.alive && p.out))

/-- Is process `i` running.  (Model infrastructure; the processes are those of commandservice.py:69-71.) -/
def St.runs (s : St) (i : Nat) : Bool := match s.procs[i]? with
  | some p => p.alive
  | none => false

/-- The loop is left (87-89, 95-98, 106-117). -/
def leaves (s : St) : Polled → Bool
  | .quiet => false
  | .eof => s.eof
  | .closed => true
  | .raised => true

/-- commandservice.py:123-127: the shell is killed if its status can not be got. -/
def killIfRunning (s : St) : St := match s.status with
  | some _ => { s with phase := .ended }
  | none => { s with phase := .ended, kills := s.kills + 1, status := some (-9), procs := s.procs.set 0 ⟨false, false⟩ }

/-- One move: what processes do by themselves, and commandservice.py:84-117 (`poll`), 118-121 (`complete`), 122-127 (`finish`). -/
def step (s : St) : Move → St
  | .fork i => match s.procs[i]? with
    | some p => if p.alive then { s with procs := s.procs ++ [p] } else s
    | none => s
  | .shut i => match s.procs[i]? with
    | some p => { s with procs := s.procs.set i { p with out := false } }
    | none => s
  | .exit i code =>
    if s.runs i then { s with procs := s.procs.set i ⟨false, false⟩, status := if i = 0 then some code else s.status } else s
  | .poll p => if s.phase = .reading && leaves s p then { s with phase := .leaving } else s
  | .complete => if s.phase = .leaving then { s with phase := .told, told := some s.status } else s
  | .finish => if s.phase = .told then killIfRunning s else s

/-- Any number of moves.  (Model infrastructure.) -/
def run (s : St) (ms : List Move) : St := ms.foldl step s

end Verif.CommandProcess
