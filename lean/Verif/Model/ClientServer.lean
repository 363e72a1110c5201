import Verif.Model.Client
/-!
The client and the m2m manager together, for C117-C119: the parts of polls in the main thread (client.py 191-225) and the identities that the server
gives (m2mmanager.py 120-125).  The moves follow each other; polls and announcements touch different variables.
-/
namespace Verif.Client
open Verif Verif.JsonRpc

/-- What happens: a part of a poll, or the m2m server gives an identity.  That is handled in the thread of the connection, where no `SystemExit` or
`KeyboardInterrupt` is raised.  (client.py:191-225, wsclient.py:332, 378-379) -/
inductive Move where
  | event (e : Event)
  | identity (i : Bytes) (reply : Reply)

/-- `set_identity` of the manager with `set_m2m_identity` of the client (m2mmanager.py 120-125, client.py 311-359). -/
def told (cfg : Config) (s : State) (m : Manager) (i : Bytes) (reply : Reply) : State × Manager × List (List Call) :=
  match setIdentity cfg s i (.reply reply) with
  | (s', w, r) => match m.setIdentity i (fun _ => r.toOption.join) with
    | (m, true) => (s', m, w)
    | (m, false) => (s, m, [])

/-- One move: client, manager and the messages sent.  (client.py:191-225, m2mmanager.py:120-125) -/
def move (cfg : Config) (s : State) (m : Manager) : Move → State × Manager × List (List Call)
  | .event e => match step cfg s e with
    | (s, w, _) => (s, m, w)
  | .identity i reply => told cfg s m i reply

end Verif.Client
