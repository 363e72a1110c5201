import Verif.Model.WSClient
import Verif.Model.RemoteDirectory
/-!
The client of Model/WSClient together with the remote directory of Model/RemoteDirectory: messages of the server reach the handlers
(`dataplicity/m2m/wsclient.py:457-497`), and what the handlers send goes to the server.
-/
namespace Verif.RemoteFiles
open Verif WSClient RemoteDirectory

/-- What the environment does during one event: for the client, and for the handler if one is called.  (wsclient.py:457-497) -/
structure Env where
  client : WSClient.Env := {}
  opn : OpenEnv := { usage := none }
  rd : ReadEnv := {}
  cls : CloseEnv := {}
  wr : WriteEnv := {}

/-- The client and the files of the device.  (wsclient.py:183-198) -/
structure Sys where
  client : St
  fs : FS

/-- An event of the client; or another program changes a file.  (Model infrastructure.) -/
inductive Move where
  | event (env : Env) (e : Ev)
  | change (k : List Text) (n : Option Node)

/-- `client.send` of a packet (wsclient.py:291-301): the message; nothing if an exception comes. -/
def message : Sent → Option Bytes
  | .error _ => none
  | .ok p => match Packets.encodeBinary p with
    | .ok m => some m
    | .error _ => none

/-- The handlers of the remote directory (wsclient.py:457-473, 488-497): the files afterwards and what is sent.  A scan only starts a
thread. -/
def serve (c : Cfg) (env : Env) (fs : FS) : Nat → List PyVal → FS × List Sent
  | 24, [.bytes id, .bytes path] => onOpen (fun _ => "") c env.opn fs id path
  | 26, [.bytes id] => (onClose c env.cls fs id, [])
  | 27, [.bytes id, .int offset, .int size] => onRead (fun _ => "") c env.rd fs id offset size
  | 31, [.bytes id, .bytes path, .bytes device, .int offset, .bytes data, .int final] =>
    let r := onWrite (fun _ => "") c env.wr fs id path device offset data final
    (r.1, r.2.getD [])
  | _, _ => (fs, [])

/-- The calls of the remote directory among the outputs of the client are carried out; their messages follow.  (wsclient.py:457-497) -/
def pass (c : Cfg) (env : Env) (fs : FS) : List Out → FS × List Out
  | [] => (fs, [])
  | .remote num args :: os =>
    let a := serve c env fs num args
    let b := pass c env a.1 os
    (b.1, .remote num args :: ((a.2.filterMap message).map .sent ++ b.2))
  | o :: os =>
    let b := pass c env fs os
    (b.1, o :: b.2)

/-- One move.  (wsclient.py:275-284, 457-497) -/
def step (c : Cfg) (s : Sys) : Move → Sys × List Out
  | .event env e =>
    let r := WSClient.step env.client s.client e
    let p := pass c env s.fs r.2
    (⟨r.1, p.1⟩, p.2)
  | .change k n => ({ s with fs := s.fs.set k n }, [])

/-- Any number of moves.  (Model infrastructure.) -/
def run (c : Cfg) (s : Sys) : List Move → Sys × List Out
  | [] => (s, [])
  | m :: ms =>
    let r := step c s m
    let r' := run c r.1 ms
    (r'.1, r.2 ++ r'.2)

end Verif.RemoteFiles
