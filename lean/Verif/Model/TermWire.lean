import Verif.Model.System
import Verif.Model.Terminal
/-!
The websocket client together with a remote terminal that uses channel `n` (`dataplicity/m2m/remoteprocess.py`, `dataplicity/m2m/proxy.py`): the
receive thread, which writes input to the process and may close the channel, the thread of the terminal, which sends the output, and any other
threads.
-/
namespace Verif.TermWire
open Verif WSClient System

/-- The calls of the channel's methods by the thread of the terminal: `master_read` sends what was read.  (remoteprocess.py:125-127) -/
def outputCalls (acts : List Terminal.Act) : List Call := acts.filterMap fun
  | .write d => some (.write d)
  | .closeChannel => some .close
  | _ => none

/-- The client with the thread of the terminal; the websocket events not yet handled; the input side; whether `master_fd` is set; where the receive
thread is in the `channel.close()` of `on_data` (remoteprocess.py:106): not in it, before the test of `_closed`, behind it (wsclient.py:69-72). -/
structure TermSys where
  call : CallSys
  inbox : List (Env × Ev) := []
  input : Terminal.In := {}
  running : Bool := false
  closing : Option Bool := none

/-- The receive thread goes on; another thread calls the client; the thread of the terminal goes on with its output; it sets `master_fd`
(proxy.py:65) or clears it (101). -/
inductive TermMove where
  | receive
  | other (env : Env) (e : Ev)
  | thread
  | start
  | stop

/-- One move.  (wsclient.py:263-268, remoteprocess.py:102-106, 125-127)  `write` gives the results of `os.write`. -/
def termMove (write : Nat → Terminal.WriteRes) (fuel : Nat) (n : Int) (cb : Nat) (s : TermSys) : TermMove → TermSys × List Out
  | .receive =>
    if s.input.stuck then (s, [])
    else match s.closing with
    | none => match s.inbox with
      | [] => (s, [])
      | (env, e) :: rest =>
        let r := s.call.sys.event n env e
        match called n cb r.2 with
        | none => ({ s with call := { s.call with sys := r.1 }, inbox := rest }, r.2)
        | some d =>
          let i := Terminal.onData write fuel s.input s.running d
          ({ s with
              call := { s.call with sys := r.1 }, inbox := rest, input := i
              closing := if i.closes = s.input.closes then none else some false }, r.2)
    | some false =>
      if s.call.sys.isClosed n then ({ s with closing := none }, [])
      else
        let r := s.call.sys.use n .beginClose
        ({ s with call := { s.call with sys := r.1 }, closing := some true }, r.2)
    | some true =>
      let r := s.call.sys.use n .finishClose
      ({ s with call := { s.call with sys := r.1 }, closing := none }, r.2)
  | .other env e =>
    let r := s.call.sys.event n env e
    ({ s with call := { s.call with sys := r.1 } }, r.2)
  | .thread =>
    let r := callThread n s.call
    ({ s with call := r.1 }, r.2)
  | .start => ({ s with running := true }, [])
  | .stop => ({ s with running := false }, [])

/-- A schedule.  (Model infrastructure.) -/
def termSched (write : Nat → Terminal.WriteRes) (fuel : Nat) (n : Int) (cb : Nat) (s : TermSys) : List TermMove → TermSys × List Out
  | [] => (s, [])
  | m :: ms =>
    let r := termMove write fuel n cb s m
    let r' := termSched write fuel n cb r.1 ms
    (r'.1, r.2 ++ r'.2)

end Verif.TermWire
