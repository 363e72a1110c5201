import Verif.Model.RemoteDirectory
/-!
Specification vocabulary for C52-C61.
-/
namespace Verif.RemoteDirectory
open Verif Path

/-- `p` names a place inside the directory `dir` (or `dir` itself). -/
def Inside (dir p : Text) : Prop := lexKey dir <+: lexKey p

/-- The names in a requested path, without empty components and `.`. -/
def names (path : Text) : List Text := (splitOn '/' path).filter (fun c => c ≠ [] && c ≠ ['.'] && c ≠ ['.', '.'])

/-- The path goes up somewhere. -/
def GoesUp (path : Text) : Prop := ['.', '.'] ∈ splitOn '/' path

/-- A path that stays below: relative and never up. -/
def Tame (p : Text) : Prop := p.head? ≠ some '/' ∧ ¬ GoesUp p

/-- A plain file name. -/
def Plain (p : Text) : Prop := p ≠ [] ∧ p ≠ ['.'] ∧ p ≠ ['.', '.'] ∧ '/' ∉ p

instance (p : Text) : Decidable (Plain p) := inferInstanceAs (Decidable (_ ∧ _ ∧ _ ∧ _))

/-- The place of the snapshot of an upload. -/
def snapKey (c : Cfg) (id : Text) : List Text := lexKey (join c.cwd (join (snapDir c) id))

/-- What may happen between the opening of an upload and a read of it: other requests, and changes by other programs. -/
inductive Op where
  | opn (env : OpenEnv) (path id : Text)
  | rd (env : ReadEnv) (id : Text) (offset size : Int)
  | cls (env : CloseEnv) (id : Text)
  | change (k : List Text) (n : Option Node)

/-- The state after an operation. -/
def step (c : Cfg) (fs : FS) : Op → FS
  | .opn env path id => (addUpload c env fs path id).1
  | .rd env id offset size => (readUpload c env fs id offset size).1
  | .cls env id => closeUpload c env fs id
  | .change k n => fs.set k n

def run (c : Cfg) (fs : FS) (ops : List Op) : FS := ops.foldl (step c) fs

/-- The operation does not open or close the snapshot at `K`, and no other program changes it or a folder around it. -/
def Op.leaves (c : Cfg) (K : List Text) : Op → Prop
  | .opn _ _ id => snapKey c id ≠ K
  | .rd _ _ _ _ => True
  | .cls _ id => snapKey c id ≠ K
  | .change k _ => ¬ k <+: K

/-- Reading consecutive pieces of a given size until nothing comes back; `read o` is the data at offset `o`. -/
def readPieces (read : Nat → Bytes) (size : Nat) : Nat → Nat → Bytes
  | 0, _ => []
  | fuel + 1, o => if read o = [] then [] else read o ++ readPieces read size fuel (o + size)

/-- A write request. -/
structure Chunk where
  offset : Nat
  data : Bytes
  deriving DecidableEq, Repr

/-- The chunk is a part of the contents at its offset. -/
def Chunk.of (content : Bytes) (ch : Chunk) : Prop := ch.data = (content.drop ch.offset).take ch.data.length ∧
  ch.offset + ch.data.length ≤ content.length

/-- Every byte of the contents is in some chunk. -/
def Covers (content : Bytes) (chunks : List Chunk) : Prop :=
  ∀ i, i < content.length → ∃ ch ∈ chunks, ch.offset ≤ i ∧ i < ch.offset + ch.data.length

/-- The first free name: the requested one, or the first `name(N)`. -/
def FirstFree (taken : Text → Bool) (cand : Nat → Text) (n : Nat) : Prop := taken (cand n) = false ∧ ∀ m, m < n → taken (cand m) = true

/-- A number in decimal notation. -/
def decimal (n : Nat) : Text := if n < 10 then [Nat.digitChar n] else decimal (n / 10) ++ [Nat.digitChar (n % 10)]

/-- The candidate names for a download: 0 is the requested name. -/
def candidate (c : Cfg) (fs : FS) (path : Text) : Nat → Text
  | 0 => join c.root (lstripSlash path)
  | n + 1 =>
    let parts := Path.split (join c.root (lstripSlash path))
    (if fs.isDir c.cwd parts.1 then parts.1 else c.root) ++ "/".toList ++ (splitext parts.2).1 ++ "(".toList ++ decimal (n + 1) ++
      ")".toList ++ (splitext parts.2).2

/-- As in any real file system: what exists is in a directory. -/
def Closed (fs : FS) : Prop := ∀ k name, fs (k ++ [name]) ≠ none → fs k = some .dir

end Verif.RemoteDirectory
