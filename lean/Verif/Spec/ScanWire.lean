import Verif.Model.ScanWire
import Verif.Spec.RemoteFiles
/-!
Specification vocabulary for C120: what the server sees of a scan of the remote directory.
-/
namespace Verif.ScanWire
open Verif WSClient RemoteDirectory Instructions

/-- The result of a scan in a message: empty, or the text of an error. -/
def scanResult (m : Bytes) : Option Bytes := match decoded m with
  | [.int 30, .bytes b] => some b
  | _ => none

/-- The results the server receives, in order. -/
def results (outs : List Out) : List Bytes := (sentOf outs).filterMap scanResult

/-- The path under which the server finds the result. -/
def scanJson : Bytes := 0 :: asc "scan.json"

/-- The request in a move. -/
def Move.request : Move → Option Request
  | .event _ _ e => requestIn e
  | _ => none

/-- The server asks for a scan. -/
def Move.asks (m : Move) : Bool := match m.request with
  | some .scan => true
  | _ => false

/-- The move is no instruction to scan (such an instruction is not answered). -/
def Move.noInstruction (m : Move) : Prop := ∀ sender d, m.request = some (.instruction sender d) → ¬ Action d "scan-directory"

/-- The move does not disturb the file at `K`, in a state with files `fs`; steps of the scanner aside. -/
def Move.leaves (c : Cfg) (K : List Text) (fs : FS) : Move → Prop
  | .event _ _ e => ∀ r, requestIn e = some r → RemoteFiles.Leaves c K fs r
  | .thread _ => True
  | .change k _ => ¬ k <+: K

/-- Nobody but the scanner disturbs the file at `K`. -/
def Undisturbed (c : Cfg) (K : List Text) (s : Sys) : List Move → Prop
  | [] => True
  | m :: ms => m.leaves c K s.files.fs ∧ Undisturbed c K (step c s m).1 ms

/-- No message makes the decoder hang, and none is larger than a Python byte string. -/
def Move.fair : Move → Prop
  | .event _ _ e => ∀ data, e = .binary data → ¬ Hangs data ∧ data.length ≤ maxSize
  | _ => True

/-- The read requests of the server for an id, in order: offset and size. -/
def readRequests (id : Bytes) (ms : List Move) : List (Int × Int) := ms.filterMap fun m => match m.request with
  | some (.readFile i offset size) => if i = id then some (offset, size) else none
  | _ => none

/-- Read requests for the id are for bytes that can exist, and the system carries them out. -/
def Move.readsOk (id : Bytes) : Move → Prop
  | .event env _ e => ∀ offset size, requestIn e = some (.readFile id offset size) →
    env.rd.readFails = false ∧ 0 ≤ offset ∧ offset ≤ maxSize ∧ -1 ≤ size ∧ size ≤ maxSize
  | _ => True

/-- A scan gave this JSON. -/
def Scanned (ms : List Move) (json : Bytes) : Prop := ∃ t, .thread (.scan t (some json)) ∈ ms

end Verif.ScanWire
