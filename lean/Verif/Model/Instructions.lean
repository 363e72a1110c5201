import Verif.Model.WSClient
import Verif.Py.Text
/-!
Model of `M2MManager.on_instruction` (m2mmanager.py 150-233) and of the way an instruction takes from the websocket to it.
-/
namespace Verif.Instructions
open Verif

/-- The operations that an instruction may name (m2mmanager.py 168-193), with the arguments of the call. -/
inductive Op where
  | sync
  | openTerminal (name port : PyVal) (size : Option PyVal)
  | openEcho (port : PyVal)
  | openPortforward (service route : PyVal)
  | openPortredirect (m2mPort devicePort : PyVal)
  | reboot
  | readFile (port path : PyVal)
  | runCommand (port command : PyVal)
  | scanDirectory
  deriving DecidableEq

/-- Exceptions: they are logged by `on_instruction_packet` (wsclient.py 454-455). -/
inductive Err where
  | attributeError
  | keyError
  | typeError
  deriving DecidableEq

/-- The keys of instructions (m2mmanager.py 167-191). -/
def sAction : Text := "action".toList
/-- (171, 176, 189, 191) -/
def sPort : Text := "port".toList
/-- (172) -/
def sName : Text := "name".toList
/-- (173) -/
def sSize : Text := "size".toList
/-- (179) -/
def sService : Text := "service".toList
/-- (180) -/
def sRoute : Text := "route".toList
/-- (183) -/
def sDevicePort : Text := "device_port".toList
/-- (184) -/
def sM2mPort : Text := "m2m_port".toList
/-- (189) -/
def sPath : Text := "path".toList
/-- (191) -/
def sCommand : Text := "command".toList
/-- The actions (168-192). -/
def aSync : Text := "sync".toList
/-- (170) -/
def aOpenTerminal : Text := "open-terminal".toList
/-- (175) -/
def aOpenEcho : Text := "open-echo".toList
/-- (178) -/
def aOpenPortforward : Text := "open-portforward".toList
/-- (182) -/
def aOpenPortredirect : Text := "open-portredirect".toList
/-- (186) -/
def aReboot : Text := "reboot-device".toList
/-- (188) -/
def aReadFile : Text := "read-file".toList
/-- (190) -/
def aRunCommand : Text := "run-command".toList
/-- (192) -/
def aScan : Text := "scan-directory".toList

/-- `decode_string` (156-161). -/
def decodeString : PyVal → PyVal
  | .bytes b => .text (utf8DecodeIgnore b)
  | v => v

/-- One item of the generator (163-166); a key that is not a byte string has no `decode`. -/
def decodeItem : PyVal × PyVal → Except Err (Text × PyVal)
  | (.bytes key, value) => .ok (utf8DecodeIgnore key, decodeString value)
  | _ => .error .attributeError

/-- `d[k] = v`.  (163) -/
def setKey (k : Text) (v : PyVal) : List (Text × PyVal) → List (Text × PyVal)
  | [] => [(k, v)]
  | (k', v') :: r => if k' = k then (k', v) :: r else (k', v') :: setKey k v r

/-- `dict(...)` over the generator (163-166). -/
def decodeItems (acc : List (Text × PyVal)) : List (PyVal × PyVal) → Except Err (List (Text × PyVal))
  | [] => .ok acc
  | item :: items => match decodeItem item with
    | .error e => .error e
    | .ok (k, v) => decodeItems (setKey k v acc) items

/-- `data.get(k)`.  (173) -/
def get (k : Text) : List (Text × PyVal) → Option PyVal
  | [] => none
  | (k', v) :: r => if k' = k then some v else get k r

/-- `data[k]`.  (167-191) -/
def item (data : List (Text × PyVal)) (k : Text) : Except Err PyVal := match get k data with
  | none => .error .keyError
  | some v => .ok v

/-- The choice of the operation (167-194). -/
def choose (data : List (Text × PyVal)) : Except Err (Option Op) := do
  let action ← item data sAction
  if action = .text aSync then return some .sync
  else if action = .text aOpenTerminal then
    let port ← item data sPort
    let name ← item data sName
    return some (.openTerminal name port (get sSize data))
  else if action = .text aOpenEcho then
    let port ← item data sPort
    return some (.openEcho port)
  else if action = .text aOpenPortforward then
    let service ← item data sService
    let route ← item data sRoute
    return some (.openPortforward service route)
  else if action = .text aOpenPortredirect then
    let devicePort ← item data sDevicePort
    let m2mPort ← item data sM2mPort
    return some (.openPortredirect m2mPort devicePort)
  else if action = .text aReboot then return some .reboot
  else if action = .text aReadFile then
    let port ← item data sPort
    let path ← item data sPath
    return some (.readFile port path)
  else if action = .text aRunCommand then
    let port ← item data sPort
    let command ← item data sCommand
    return some (.runCommand port command)
  else if action = .text aScan then return some .scanDirectory
  else return none

/-- What is done.  (169-233) -/
inductive Done where
  | synced
  | launched (terminal : Text) (port : PyVal) (size : Option PyVal)
  | echo (port : PyVal)
  | forwarded (service route : PyVal)
  | redirected (m2mPort devicePort : PyVal)
  | rebooted
  | fileSent (port path : PyVal)
  | commandRun (port command : PyVal)
  | scanned
  deriving DecidableEq

/-- `get_channel(port)` (wsclient.py 241-245): a port that is a list or dict can not be looked up. -/
def channelFor (port : PyVal) : Except Err Unit := if Bencode.hashable port then .ok () else .error .typeError

/-- What an instruction finds: the names of the terminals that were added (141-144), and whether `client.port_forward` is set
(client.py 95). -/
structure World where
  terminals : List Text
  portForward : Bool

/-- The operations (196-233).  The operations of `client` are taken as done (they are modelled in `Model/Client.lean`,
`Model/PortForward.lean` and `Model/DirectoryScanner.lean`). -/
def perform (w : World) : Op → Except Err (List Done)
  | .sync => .ok [.synced]
  -- open_terminal (196-204)
  | .openTerminal name port size =>
    if Bencode.hashable name then match name with
      | .text n => if n ∈ w.terminals then do
          channelFor port
          return [.launched n port size]
        else .ok []
      | _ => .ok []
    else .error .typeError
  | .openEcho port => do
    channelFor port
    return [.echo port]
  | .openPortforward service route => if w.portForward then .ok [.forwarded service route] else .error .attributeError
  | .openPortredirect m2mPort devicePort => if w.portForward then .ok [.redirected m2mPort devicePort] else .error .attributeError
  | .reboot => .ok [.rebooted]
  | .readFile port path => do
    channelFor port
    return [.fileSent port path]
  | .runCommand port command => do
    channelFor port
    return [.commandRun port command]
  | .scanDirectory => .ok [.scanned]

/-- `on_instruction` (150-194). -/
def instruct (w : World) (d : List (PyVal × PyVal)) : Except Err (List Done) := do
  let data ← decodeItems [] d
  match ← choose data with
  | none => return []
  | some op => perform w op

/-- What follows from an output of the websocket client.  (wsclient.py 446-455) -/
def react (w : World) : WSClient.Out → List Done
  | .instruction _ (.dict d) => match instruct w d with
    | .ok done => done
    | .error _ => []
  | _ => []

/-! ### The start of the agent -/

/-- What `Client._init` (client.py 92-95) and `M2MManager.init` (m2mmanager.py 103-109) do, in this order, after the thread that receives
instructions was started (107). -/
inductive Start where
  | addTerminal (name : Text)
  | setPortForward

/-- The name of the only terminal (m2mmanager.py 108). -/
def sShell : Text := "shell".toList

/-- The steps (m2mmanager.py 108; client.py 92-95). -/
def starting : List Start := [.addTerminal sShell, .setPortForward]

/-- One step (m2mmanager.py 141-144; client.py 95). -/
def started (w : World) : Start → World
  | .addTerminal name => { w with terminals := name :: w.terminals }
  | .setPortForward => { w with portForward := true }

/-- What an instruction finds after the first `n` of these steps.  (m2mmanager.py 103-109; client.py 92-95) -/
def worldAt (n : Nat) : World := (starting.take n).foldl started ⟨[], false⟩

end Verif.Instructions
