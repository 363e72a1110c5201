import Verif.Model.PortForward
/-!
Specification vocabulary for C38-C45: functions of histories and outputs only.
-/
namespace Verif.PortForward
open Verif

/-- The bytes routed to the channel before it was closed. -/
def routed (closed : Bool) : List WOp → Bytes
  | [] => []
  | .data d :: ops => (if closed then [] else d) ++ routed closed ops
  | .onClose :: ops => routed true ops
  | _ :: ops => routed closed ops

/-- A `setSocket` step has happened, and after it a `flush` or a message on the open channel or its close: the moments at which waiting
data must have been sent. -/
def flushed (closed sock ok : Bool) : List WOp → Bool
  | [] => ok
  | .setSocket :: ops => flushed closed true ok ops
  | .flush :: ops => flushed closed sock (ok || sock) ops
  | .data _ :: ops => flushed closed sock (ok || (sock && !closed)) ops
  | .onClose :: ops => flushed true sock (ok || (sock && !closed)) ops

/-- Once a `sendall` fails, all later ones fail without sending anything (a broken connection). -/
def Sticky (accept : Nat → Option Nat) : Prop := ∀ n m, n < m → accept n ≠ none → accept m = some 0

/-- The actions of thread `i`. -/
def actsOf (i : Nat) (out : List (Nat × Act)) : List Act := out.filterMap fun p => if p.1 = i then some p.2 else none

/-- The bytes received from the local socket. -/
def received (acts : List Act) : Bytes := acts.flatMap fun | .recv d => d | _ => []

/-- The bytes written to the channel. -/
def written (acts : List Act) : Bytes := acts.flatMap fun | .write d => d | _ => []

/-- The thread a step belongs to. -/
def Step.thread : Step → Nat
  | .connect i _ _ => i
  | .check i _ => i
  | .iter i _ _ _ => i

/-- A step in which the socket reports an error or a hang-up. -/
def Step.hasError : Step → Bool
  | .iter _ (some es) _ _ => es.any (·.error)
  | _ => false

/-- A step in which the clock shows no time elapsed. -/
def Step.isStill : Step → Bool
  | .connect _ _ b => b
  | .check _ b => b
  | .iter _ _ _ b => b

/-- An action that moves data. -/
def Act.moves : Act → Bool
  | .recv _ | .write _ => true
  | _ => false

/-- A poll result in which the local service has closed its connection: the socket is readable and `recv` returns nothing. -/
def atEof (es : List PollEv) : Prop := ∃ e rest, es = e :: rest ∧ e.readable = true ∧ e.recv = some []

/-- An entry of a poll result behind which the next entries are looked at: if it is readable, something was received and could be written. -/
def PollEv.Passes (e : PollEv) : Prop := e.readable = true → ∃ d, e.recv = some d ∧ d ≠ [] ∧ e.writeRaises = false

/-- Some entry of a poll result reports an error or a hang-up, and all up to it, itself included, are passed. -/
def ErrorSeen (es : List PollEv) : Prop := ∃ a e b, es = a ++ e :: b ∧ (∀ x ∈ a, x.Passes) ∧ e.Passes ∧ e.error = true

/-- In some entry the bytes that were received could not be written to the channel, and all before it are passed. -/
def WriteFailed (es : List PollEv) : Prop :=
  ∃ a e b, es = a ++ e :: b ∧ (∀ x ∈ a, x.Passes) ∧ e.readable = true ∧ (∃ d, e.recv = some d ∧ d ≠ []) ∧ e.writeRaises = true

/-- The service that was last added under a name. -/
def lastNamed (name : Text) (l : List Svc) : Option Svc := (l.filter (fun s => decide (s.name = name))).getLast?

/-- The service that was last added for a port. -/
def lastOnPort (port : Int) (l : List Svc) : Option Svc := (l.filter (fun s => decide (s.port = port))).getLast?

end Verif.PortForward
