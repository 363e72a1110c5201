import Verif.Model.RemoteFiles
import Verif.Spec.RemoteDirectory
import Verif.Spec.Instructions
import Verif.Spec.Wire
/-!
Specification vocabulary for C111 and C112: what the server asks, and what it makes of the messages it receives.
-/
namespace Verif.RemoteFiles
open Verif WSClient RemoteDirectory Instructions

/-- The answer to an open request in a message: size and code. -/
def openAnswer (id m : Bytes) : Option (Int × Int) := match decoded m with
  | [.int 25, .bytes i, .int size, .int fail, .bytes _] => if i = id then some (size, fail) else none
  | _ => none

/-- The answer to a read request in a message. -/
structure ReadAnswer where
  offset : Int
  size : Int
  data : Bytes
  fail : Int
  deriving DecidableEq, Repr

def readAnswer (id m : Bytes) : Option ReadAnswer := match decoded m with
  | [.int 28, .bytes i, .int offset, .int size, .bytes d, .int fail, .bytes _] => if i = id then some ⟨offset, size, d, fail⟩ else none
  | _ => none

/-- The answer to a write request in a message. -/
structure WriteAnswer where
  position : Int
  size : Int
  device : Bytes
  fail : Int
  deriving DecidableEq, Repr

def writeAnswer (id m : Bytes) : Option WriteAnswer := match decoded m with
  | [.int 32, .bytes i, .int position, .int size, .bytes device, .int fail, .bytes _] =>
    if i = id then some ⟨position, size, device, fail⟩ else none
  | _ => none

/-- The answers the server receives for an id, in order. -/
def openAnswers (id : Bytes) (outs : List Out) : List (Int × Int) := (sentOf outs).filterMap (openAnswer id)
def readAnswers (id : Bytes) (outs : List Out) : List ReadAnswer := (sentOf outs).filterMap (readAnswer id)
def writeAnswers (id : Bytes) (outs : List Out) : List WriteAnswer := (sentOf outs).filterMap (writeAnswer id)

/-- The request in a move. -/
def Move.request : Move → Option Request
  | .event _ e => requestIn e
  | .change _ _ => none

/-- The read requests of the server for an id, in order: offset and size. -/
def readRequests (id : Bytes) (ms : List Move) : List (Int × Int) := ms.filterMap fun m => match m.request with
  | some (.readFile i offset size) => if i = id then some (offset, size) else none
  | _ => none

/-- The write request for an id in a move: path, device path, offset, data, final. -/
def Move.write (id : Bytes) (m : Move) : Option (Bytes × Bytes × Int × Bytes × Int) := match m.request with
  | some (.writeFile i path device offset data final) => if i = id then some (path, device, offset, data, final) else none
  | _ => none

/-- The write requests of the server for an id, in order. -/
def writeRequests (id : Bytes) (ms : List Move) : List (Bytes × Bytes × Int × Bytes × Int) := ms.filterMap (Move.write id)

/-- The bytes of a file that a read request asks for; -1 is all the rest. -/
def slice (d : Bytes) (offset size : Int) : Bytes :=
  if size = -1 then d.drop offset.toNat else (d.drop offset.toNat).take size.toNat

/-- The place of the temporary file of a download. -/
def downloadKey (c : Cfg) (id : Text) : List Text := Path.lexKey (Path.join c.cwd (Path.join (downloadDir c) id))

/-- The request does not name the file at `K`: it does not open or close it as an upload, and does not write or move it as a download, nor
move a directory. -/
def Leaves (c : Cfg) (K : List Text) (fs : FS) : Request → Prop
  | .openFile id _ => ∀ t, utf8Decode id = some t → snapKey c t ≠ K
  | .closeFile id => ∀ t, utf8Decode id = some t → snapKey c t ≠ K
  | .writeFile id _ device _ _ _ => ∀ d, utf8Decode device = some d →
    if d = [] then ∀ t, utf8Decode id = some t → downloadKey c t ≠ K
    else Path.lexKey (Path.join c.cwd d) ≠ K ∧ fs.isDir c.cwd d = false
  | _ => True

/-- The move does not disturb the file at `K`, in a state with files `fs`: also, other programs do not change it or a folder around it. -/
def Move.leaves (c : Cfg) (K : List Text) (fs : FS) : Move → Prop
  | .event _ e => ∀ r, requestIn e = some r → Leaves c K fs r
  | .change k _ => ¬ k <+: K

/-- No message makes the decoder hang, and none is larger than a Python byte string. -/
def Move.fair : Move → Prop
  | .event _ e => ∀ data, e = .binary data → ¬ Hangs data ∧ data.length ≤ maxSize
  | .change _ _ => True

/-- All the moves but those chosen by `own` leave the file at `K` alone. -/
def Undisturbed (c : Cfg) (K : List Text) (own : Move → Bool) (s : Sys) : List Move → Prop
  | [] => True
  | m :: ms => (own m = false → m.leaves c K s.fs) ∧ Undisturbed c K own (step c s m).1 ms

/-- Read requests for the id are for bytes that can exist, and the system carries them out. -/
def Move.readsOk (id : Bytes) : Move → Prop
  | .event env e => ∀ offset size, requestIn e = some (.readFile id offset size) →
    env.rd.readFails = false ∧ 0 ≤ offset ∧ offset ≤ maxSize ∧ -1 ≤ size ∧ size ≤ maxSize
  | .change _ _ => True

/-- The requests for the chunks of a download: the first without device path, the others with the one that the answers give; the last is
final. -/
def chunkRequests (path device : Bytes) : Bytes → List Chunk → List (Bytes × Bytes × Int × Bytes × Int)
  | _, [] => []
  | dev, ch :: rest => (path, dev, ch.offset, ch.data, if rest = [] then 1 else 0) :: chunkRequests path device device rest

/-- The answer that says that a chunk was written. -/
def accepted (device : Bytes) (ch : Chunk) : WriteAnswer := ⟨ch.offset + ch.data.length, ch.data.length, device, 0⟩

/-- The temporary file of a download. -/
def downloadPath (c : Cfg) (id : Text) : Text := Path.join (downloadDir c) id

/-- The move is a write request for the id. -/
def Move.writes (id : Bytes) (m : Move) : Bool := (m.write id).isSome

end Verif.RemoteFiles
