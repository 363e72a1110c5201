import Verif.Model.Instructions
import Verif.Spec.WSClient
/-!
Specification vocabulary for C87 and C91.
-/
namespace Verif.Instructions
open Verif

/-- Byte strings are read as text; what is not UTF-8 is left out. -/
def readable : PyVal → PyVal
  | .bytes b => .text (utf8DecodeIgnore b)
  | v => v

/-- The message has an entry `k` with value `v` (the last one, if several keys read as `k`). -/
def Has (d : List (PyVal × PyVal)) (k : String) (v : PyVal) : Prop := ∃ pre key w post, d = pre ++ (.bytes key, w) :: post ∧
  utf8DecodeIgnore key = k.toList ∧ (∀ key' w', (PyVal.bytes key', w') ∈ post → utf8DecodeIgnore key' ≠ k.toList) ∧ v = readable w

/-- The message has no entry `k`. -/
def Lacks (d : List (PyVal × PyVal)) (k : String) : Prop := ∀ key w, (PyVal.bytes key, w) ∈ d → utf8DecodeIgnore key ≠ k.toList

/-- The action of a message. -/
def Action (d : List (PyVal × PyVal)) (a : String) : Prop := Has d "action" (.text a.toList)

/-- The operation a message asks for. -/
inductive Asks (d : List (PyVal × PyVal)) : Op → Prop where
  | sync : Action d "sync" → Asks d .sync
  | terminal {name port size} : Action d "open-terminal" → Has d "name" name → Has d "port" port → Has d "size" size →
    Asks d (.openTerminal name port (some size))
  | terminalPlain {name port} : Action d "open-terminal" → Has d "name" name → Has d "port" port → Lacks d "size" →
    Asks d (.openTerminal name port none)
  | echo {port} : Action d "open-echo" → Has d "port" port → Asks d (.openEcho port)
  | portforward {service route} : Action d "open-portforward" → Has d "service" service → Has d "route" route →
    Asks d (.openPortforward service route)
  | portredirect {m2mPort devicePort} : Action d "open-portredirect" → Has d "m2m_port" m2mPort → Has d "device_port" devicePort →
    Asks d (.openPortredirect m2mPort devicePort)
  | reboot : Action d "reboot-device" → Asks d .reboot
  | readFile {port path} : Action d "read-file" → Has d "port" port → Has d "path" path → Asks d (.readFile port path)
  | runCommand {port command} : Action d "run-command" → Has d "port" port → Has d "command" command → Asks d (.runCommand port command)
  | scan : Action d "scan-directory" → Asks d .scanDirectory

/-- All keys of the message are byte strings. -/
def BytesKeys (d : List (PyVal × PyVal)) : Prop := ∀ x ∈ d, ∃ key, x.1 = .bytes key

/-- What an operation is meant to do, once the agent has started.  Ports are numbers. -/
inductive Meant (w : World) : Op → List Done → Prop where
  | sync : Meant w .sync [.synced]
  | terminal {name port size} : name ∈ w.terminals → Meant w (.openTerminal (.text name) (.int port) size) [.launched name (.int port) size]
  | noTerminal {name port size} : name ∉ w.terminals → Meant w (.openTerminal (.text name) port size) []
  | echo {port} : Meant w (.openEcho (.int port)) [.echo (.int port)]
  | portforward {service route} : w.portForward = true → Meant w (.openPortforward service route) [.forwarded service route]
  | portredirect {m2mPort devicePort} : w.portForward = true → Meant w (.openPortredirect m2mPort devicePort) [.redirected m2mPort devicePort]
  | reboot : Meant w .reboot [.rebooted]
  | readFile {port path} : Meant w (.readFile (.int port) path) [.fileSent (.int port) path]
  | runCommand {port command} : Meant w (.runCommand (.int port) command) [.commandRun (.int port) command]
  | scan : Meant w .scanDirectory [.scanned]

/-- What the server may ask of other parts of the agent. -/
inductive Request where
  | instruction (sender : Bytes) (data : List (PyVal × PyVal))
  | openFile (id path : Bytes)
  | closeFile (id : Bytes)
  | readFile (id : Bytes) (offset size : Int)
  | scan
  | writeFile (id path devicePath : Bytes) (offset : Int) (data : Bytes) (final : Int)

/-- The request in a message.  (A byte string that starts with byte 29 counts as a scan request, see C14.) -/
def requestOf (data : Bytes) : Option Request := match WSClient.decoded data with
  | .int 16 :: .bytes sender :: .dict d :: _ => some (.instruction sender d)
  | .int 24 :: .bytes id :: .bytes path :: _ => some (.openFile id path)
  | .int 26 :: .bytes id :: _ => some (.closeFile id)
  | .int 27 :: .bytes id :: .int offset :: .int size :: _ => some (.readFile id offset size)
  | .int 29 :: _ => some .scan
  | .int 31 :: .bytes id :: .bytes path :: .bytes devicePath :: .int offset :: .bytes data :: .int final :: _ =>
    some (.writeFile id path devicePath offset data final)
  | _ => match WSClient.decodedBytes data with
    | 29 :: _ => some .scan
    | _ => none

/-- The request in an event. -/
def requestIn : WSClient.Ev → Option Request
  | .binary data => requestOf data
  | _ => none

/-- The output is a call of the manager or of the remote directory. -/
def isRequest : WSClient.Out → Bool
  | .instruction _ _ => true
  | .remote _ _ => true
  | _ => false

/-- The request that an output of the client passes on. -/
def passedOn : WSClient.Out → Option Request
  | .instruction sender (.dict d) => some (.instruction sender d)
  | .remote 24 [.bytes id, .bytes path] => some (.openFile id path)
  | .remote 26 [.bytes id] => some (.closeFile id)
  | .remote 27 [.bytes id, .int offset, .int size] => some (.readFile id offset size)
  | .remote 29 [] => some .scan
  | .remote 31 [.bytes id, .bytes path, .bytes devicePath, .int offset, .bytes data, .int final] =>
    some (.writeFile id path devicePath offset data final)
  | _ => none

end Verif.Instructions
