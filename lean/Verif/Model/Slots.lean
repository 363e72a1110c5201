import Verif.Model.Opening
/-!
The two limiters of the agent and all the threads that share them: which instructions take a slot (`dataplicity/m2mmanager.py:39-74, 99-100, 150-233`,
`dataplicity/portforward.py:250-265, 320-359`, `dataplicity/m2m/fileservice.py:35-48, 65-74`, `dataplicity/m2m/commandservice.py:31-43, 55-64`,
`dataplicity/m2m/remoteprocess.py:96-100`).

A thread is known by its kind only; it ends at any time, and then gives its slot back.  The calls of the client that the receive thread and the services
make (`get_channel`, `set_callbacks`, `write`, ...) are events.
-/
namespace Verif.Slots
open Verif WSClient
open _root_.Verif.Instructions (Done)

/-- The limiters: `terminals_limiter` and `services_limiter`.  (m2mmanager.py:99-100) -/
inductive Kind where
  | terminal
  | service
  deriving DecidableEq, Repr

/-- The last item of `node1, port1, node2, port2 = route`; nothing if this raises.  A text and a dictionary can be unpacked too.  (portforward.py:322) -/
def fourth : PyVal → Option PyVal
  | .list [_, _, _, p] => some p
  | .tuple [_, _, _, p] => some p
  | .text [_, _, _, c] => some (.text [c])
  | .bytes [_, _, _, b] => some (.int b.toNat)
  | .dict [_, _, _, (k, _)] => some k
  | _ => none

/-- `self.get_service(service)` finds one; a name that is a list or a dictionary raises.  (portforward.py:309-311, 329) -/
def known : PyVal → Bool
  | .text name => (PortForward.getService Opening.services name).isSome
  | _ => false

/-- The limiter of which what an instruction does takes a slot.  A forwarded connection needs a route of four items, a service that exists, and a
channel (portforward.py:320-335, 253, 347).  (m2mmanager.py:61, fileservice.py:39, commandservice.py:35, portforward.py:256, 349) -/
def need : Done → Option Kind
  | .launched _ _ _ => some .terminal
  | .forwarded service route => match fourth route with
    | some p => if known service && Bencode.hashable p then some .service else none
    | none => none
  | .redirected p _ => if Bencode.hashable p then some .service else none
  | .fileSent _ _ => some .service
  | .commandRun _ _ => some .service
  | _ => none

/-- The client, the two limiters, and the threads that run.  (m2mmanager.py:92-101) -/
structure St where
  client : WSClient.St := {}
  terminals : Limiter.Lim
  services : Limiter.Lim
  running : List Kind := []

/-- The limiter of a kind (m2mmanager.py:99-100). -/
def St.lim (s : St) : Kind → Limiter.Lim
  | .terminal => s.terminals
  | .service => s.services

/-- (Model infrastructure.) -/
def St.setLim (s : St) (l : Limiter.Lim) : Kind → St
  | .terminal => { s with terminals := l }
  | .service => { s with services := l }

/-- `with limiter(): ... start()`; `ok`: the thread can be started.  (m2mmanager.py:61-63, fileservice.py:39-43, commandservice.py:35-39,
portforward.py:256-261, 349-355) -/
def begin (ok : Bool) (s : St) (d : Done) : St := match need d with
  | none => s
  | some k =>
    let r := Limiter.launch (s.lim k) ok
    let s := s.setLim r.1 k
    if r.2 then { s with running := s.running ++ [k] } else s

/-- The client handles an event, or another thread calls it; `w` is what instructions find.  Or the thread `i` ends. -/
inductive Move where
  | event (w : Instructions.World) (env : Env) (e : Ev) (ok : Bool)
  | ended (i : Nat)

/-- One move.  The end of a thread is `self.limiter.decrement()`.  (wsclient.py:263-284, 446-455; fileservice.py:74, commandservice.py:64,
portforward.py:55, remoteprocess.py:100) -/
def move (s : St) : Move → St
  | .event w env e ok =>
    let r := WSClient.step env s.client e
    (r.2.flatMap (Instructions.react w)).foldl (begin ok) { s with client := r.1 }
  | .ended i => match s.running[i]? with
    | none => s
    | some k => match Limiter.decrement (s.lim k) with
      | .ok l => { s.setLim l k with running := s.running.eraseIdx i }
      | .error _ => { s with running := s.running.eraseIdx i }

/-- A history.  (Model infrastructure.) -/
def run (s : St) (ms : List Move) : St := ms.foldl move s

/-- The agent has just started.  (m2mmanager.py:99-100) -/
def init (terminals services : Nat) : St := { terminals := ⟨terminals, 0⟩, services := ⟨services, 0⟩ }

end Verif.Slots
