import Verif.Py.Path
/-!
A file system without symbolic links, and the Python calls on it.  A file system is a function from places (lists of names from the
root) to nodes.  Failures that do not follow from the state (permissions, full disk, I/O errors) are inputs of the calls.
-/
namespace Verif

/-- A file or a directory. -/
inductive Node where
  | file (data : Bytes)
  | dir
  deriving DecidableEq, Repr

abbrev FS := List Text → Option Node

namespace FS

/-- Assignment. -/
def set (fs : FS) (k : List Text) (n : Option Node) : FS := fun k' => if k' = k then n else fs k'

/-- Path resolution: every component is looked up in a directory. -/
def walk (fs : FS) : List Text → List Text → Option (List Text)
  | k, [] => some k
  | k, c :: cs => if fs k = some .dir then walk fs (Path.lexStep k c) cs else none

/-- The place that a path names, if the directories on the way exist.  A NUL character in a path is an error. -/
def place (fs : FS) (cwd p : Text) : Option (List Text) :=
  if p.contains (Char.ofNat 0) then none else walk fs [] (splitOn '/' (Path.join cwd p))

/-- `os.stat(p)`; `none` is an error. -/
def stat (fs : FS) (cwd p : Text) : Option Node := (fs.place cwd p).bind fs

/-- `os.path.exists(p)`. -/
def pathExists (fs : FS) (cwd p : Text) : Bool := (fs.stat cwd p).isSome

/-- `os.path.isdir(p)`. -/
def isDir (fs : FS) (cwd p : Text) : Bool := fs.stat cwd p = some .dir

/-- The contents of the regular file at `p`. -/
def content (fs : FS) (cwd p : Text) : Option Bytes :=
  match fs.stat cwd p with
  | some (.file d) => some d
  | _ => none

/-- The place at which `open(p, "wb")` creates or truncates a file: none if it is a directory or can not be reached. -/
def writable (fs : FS) (cwd p : Text) : Option (List Text) :=
  match fs.place cwd p with
  | some k => if fs k = some .dir then none else some k
  | none => none

/-- `os.mkdir(p)`; `none` is an error. -/
def mkdir (fs : FS) (cwd p : Text) : Option FS :=
  match fs.place cwd p with
  | some k => if fs k = none then some (fs.set k (some .dir)) else none
  | none => none

end FS
end Verif
