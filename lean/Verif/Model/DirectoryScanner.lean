import Verif.Py.Bytes
/-!
Model of `dataplicity/directory_scanner.py` with the handler `on_scan_remote_directory` in `dataplicity/m2m/wsclient.py`.

Each request has a number.  A thread is known by the number of the request that started it.  The threads take steps in any order; a step
that a thread cannot take is skipped.  What `scan_directory` and `json.dumps` give is an input (`Verif.Model.Scan` has the scan
itself).  The file is written in pieces of any size, as the buffers and the disk see fit.  That the agent may be killed needs no step:
it is then in the state reached so far.
-/
namespace Verif.DirectoryScanner
open Verif

/-- How far a request has come.  (directory_scanner.py:31-83) -/
inductive Phase where
  | absent
  /-- a scan was in progress (34-36) -/
  | refused
  /-- `thread.start()` (41) raised -/
  | unstarted (error : Text)
  /-- before line 46, waiting for the lock -/
  | waiting
  /-- in `scan_directory` (49) -/
  | scanning
  /-- before `open` (82) -/
  | scanned (json : Bytes)
  /-- in `write` (83) and the end of the `with` block; the rest is still to be written -/
  | writing (json rest : Bytes)
  /-- before `on_success` (65) -/
  | written (json : Bytes)
  /-- the thread has ended normally; `sent` says whether the result was sent -/
  | finished (json : Bytes) (sent : Bool)
  /-- the thread has ended with an exception; `wrote` says whether the file was open -/
  | failed (wrote : Bool)
  deriving DecidableEq, Repr

/-- The scanner, the file and the `scan_remote_directory_result` packets sent so far (with the number of the request).  `packet t` says
whether request `t` came as a packet; otherwise it is the instruction `scan-directory`, for which nobody waits.
(directory_scanner.py:27-29, 79-83; wsclient.py 475-486) -/
structure State where
  next : Nat
  phase : Nat → Phase
  packet : Nat → Bool
  lock : Option Nat
  file : Option Bytes
  replies : List (Nat × Text)

/-- Thread `t` comes to phase `p` (auxiliary, for 31-83). -/
def State.set (s : State) (t : Nat) (p : Phase) : State := { s with phase := fun u => if u = t then p else s.phase u }

/-- What can happen next.  (31-83) -/
inductive Op where
  /-- a request; `started` is what `thread.start()` gives: nothing or an error with its text -/
  | request (packet : Bool) (started : Option Text)
  | acquire (t : Nat)
  | scan (t : Nat) (out : Option Bytes)
  | openFile (t : Nat) (ok : Bool)
  | write (t : Nat) (n : Nat)
  | writeFails (t : Nat)
  | close (t : Nat)
  | report (t : Nat) (sendOk : Bool)

/-- `on_scan_remote_directory` (wsclient.py 475-486), `RemoteDirectory.scan` (remote_directory.py 78-81), `on_instruction`
(m2mmanager.py 192-193) and `perform_scan` (31-41). -/
def request (s : State) (packet : Bool) (started : Option Text) : State :=
  let t := s.next
  let s := { s with next := t + 1, packet := fun u => if u = t then packet else s.packet u }
  if s.lock ≠ none then s.set t .refused
  else match started with
    | some error =>
      let s := s.set t (.unstarted error)
      if packet then { s with replies := s.replies ++ [(t, error)] } else s
    | none => s.set t .waiting

/-- One step; the threads run `_perform_scan` (43-69) and `write_scan` (71-83). -/
def step (s : State) : Op → State
  | .request packet started => request s packet started
  | .acquire t => match s.phase t with
    | .waiting => if s.lock = none then { s.set t .scanning with lock := some t } else s
    | _ => s
  | .scan t out => match s.phase t with
    | .scanning => match out with
      | none => { s.set t (.failed false) with lock := none }
      | some json => s.set t (.scanned json)
    | _ => s
  | .openFile t ok => match s.phase t with
    | .scanned json =>
      if ok then { s.set t (.writing json json) with file := some [] } else { s.set t (.failed false) with lock := none }
    | _ => s
  | .write t n => match s.phase t with
    | .writing json rest => { s.set t (.writing json (rest.drop n)) with file := s.file.map (· ++ rest.take n) }
    | _ => s
  | .writeFails t => match s.phase t with
    | .writing _ _ => { s.set t (.failed true) with lock := none }
    | _ => s
  | .close t => match s.phase t with
    | .writing json [] => s.set t (.written json)
    | _ => s
  | .report t sendOk => match s.phase t with
    | .written json =>
      let sent := s.packet t && sendOk
      let s := { s.set t (.finished json sent) with lock := none }
      if sent then { s with replies := s.replies ++ [(t, [])] } else s
    | _ => s

/-- A run of the threads (31-83). -/
def run (s : State) (ops : List Op) : State := ops.foldl step s

/-- The agent has just started; the file is what an earlier run left.  (20-29) -/
def init (file : Option Bytes) : State := ⟨0, fun _ => .absent, fun _ => false, none, file, []⟩

end Verif.DirectoryScanner
