import Verif.Model.System
import Verif.Spec.Wire
/-!
Specification vocabulary for C102, C103 and C105: schedules, and what the server sees.
-/
namespace Verif.System
open Verif WSClient

/-- An event that leaves channel `n` to its service: not a call of the channel's methods by anybody else, and no message larger than a Python
byte string. -/
def Foreign (n : Int) (e : Ev) : Prop := (∀ op, e ≠ .chanOp n op) ∧ ∀ data, e = .binary data → data.length ≤ maxSize

/-- An event that ends channel `n`: the connection is lost, or the server closes the channel. -/
def Ends (n : Int) (e : Ev) : Prop := e = .disconnected ∨ ∃ data, e = .binary data ∧ closes n data

/-- Calls of the channel that are under way.  (None: nobody is inside one of its methods.) -/
def Idle (c : Channel.Ch) : Prop := c.pendingWrites = [] ∧ c.pendingControl = [] ∧ c.pendingCloses = 0

/-- What the calls that are under way are about to send. -/
def underWay (c : Channel.Ch) : List Channel.Out :=
  c.pendingWrites.map .sendData ++ c.pendingControl.map .sendControl ++ List.replicate c.pendingCloses .requestClose

/-- A state in which a service can be given channel `n`: it is in the table, open, and nobody uses it. -/
def Ready (n : Int) (s : Sys) : Prop :=
  s.dropped = none ∧ (s.client.channels.map (·.1)).Nodup ∧ ∃ c, lookup n s.client.channels = some c ∧ c.closed = false ∧ Idle c

/-- Events are foreign to the channel; the calls are those that services make. -/
def Move.Fine (n : Int) : Move → Prop
  | .event _ e => Foreign n e
  | .use op => serviceOp op = true

/-- The move is foreign to the channel, or one of the thread. -/
def FileMove.Fine (n : Int) : FileMove → Prop
  | .client _ e => Foreign n e
  | .thread _ => True

/-- The move does not end the channel. -/
def FileMove.Keeps (n : Int) : FileMove → Prop
  | .client _ e => ¬ Ends n e
  | .thread _ => True

/-- Nothing fails in the move. -/
def FileMove.ok : FileMove → Bool
  | .client _ _ => true
  | .thread fail => fail.isNone

/-- A move of the thread. -/
def FileMove.isThread : FileMove → Bool
  | .client _ _ => false
  | .thread _ => true

/-- The data the server sent to channel `n`, in order. -/
def routed (n : Int) (inbox : List (Env × Ev)) : List Bytes := inbox.filterMap fun x =>
  match x.2 with
  | .binary data => match decoded data with
    | .int 6 :: .int m :: .bytes d :: _ => if m = n then some d else none
    | _ => none
  | _ => none

/-- A websocket event that the client comes back from and that does not end channel `n`. -/
def Harmless (n : Int) (e : Ev) : Prop := e.isSocket = true ∧ ¬ Ends n e ∧ ∀ data, e = .binary data → ¬ Hangs data ∧ data.length ≤ maxSize

/-- A call by another thread that does not use channel `n`. -/
def Elsewhere (n : Int) (e : Ev) : Prop := e.isSocket = false ∧ ∀ op, e ≠ .chanOp n op

/-- The move is one of the receive thread. -/
def EchoMove.isReceive : EchoMove → Bool
  | .receive => true
  | .other .. => false

/-- Moves of other threads leave the channel alone. -/
def EchoMove.Fine (n : Int) : EchoMove → Prop
  | .receive => True
  | .other _ e => Elsewhere n e

/-- Moves of other threads leave the channel alone. -/
def FwdMove.Fine (n : Int) : FwdMove → Prop
  | .other _ e => Elsewhere n e
  | _ => True

/-- A channel in the table of a client that works, open, nobody inside its methods, with callbacks. -/
def Serving (n : Int) (cb : Nat) (s : Sys) : Prop :=
  s.dropped = none ∧ s.client.hung = false ∧ (s.client.channels.map (·.1)).Nodup ∧
  ∃ c, lookup n s.client.channels = some c ∧ c.closed = false ∧ Idle c ∧ c.dataCb = some cb

/-- The message that a call sends. -/
def Call.msg : Call → Channel.Out
  | .write d => .sendData d
  | .control d => .sendControl d
  | .close => .requestClose

/-- No more data than a Python byte string can hold. -/
def Call.Small : Call → Prop
  | .write d => d.length ≤ maxSize
  | .control d => d.length ≤ maxSize
  | .close => True

/-- The move is foreign to the channel, or one of the thread. -/
def CallMove.Fine (n : Int) : CallMove → Prop
  | .client _ e => Foreign n e
  | .thread => True

/-- The move does not end the channel. -/
def CallMove.Keeps (n : Int) : CallMove → Prop
  | .client _ e => ¬ Ends n e
  | .thread => True

/-- A move of the thread. -/
def CallMove.isThread : CallMove → Bool
  | .client _ _ => false
  | .thread => true

/-- The calls on the channel among what a service does; `report` and `done` are the JSON texts of its messages. -/
def serviceCalls (report : String → Bytes) (done : Option Int → Bytes) (acts : List Services.Act) : List Call := acts.filterMap fun
  | .write d _ => some (.write d)
  | .error s => some (.control (report s))
  | .complete r => some (.control (done r))
  | .close => some .close
  | _ => none

/-- Nobody is inside of a method of the channel whenever the client is told that the connection is gone. -/
def QuietLoss (n : Int) (s : Sys) : List LinkMove → Prop
  | [] => True
  | .lose :: ms => QuietLoss n s ms
  | .move m :: ms => (∀ env, m = .event env .disconnected → ∀ c, s.obj n = some c → Idle c) ∧ QuietLoss n (sched n s [m]).1 ms

/-- As `Move.Fine`; messages of services are not too large. -/
def LinkMove.Fine (n : Int) : LinkMove → Prop
  | .lose => True
  | .move m => m.Fine n ∧ ∀ d, (m = .use (.beginWrite d) ∨ m = .use (.beginControl d)) → d.length ≤ maxSize

end Verif.System
