import Verif.Py.Path
/-!
Model of `dataplicity/scan_directory.py`.

The directories of the device are a graph: `World.ls d` is what `scandir` gives for directory `d`.  The graph does not change during a
scan.  `os.path.isdir(root)`, the expansion of `root_path` and the clock are left out: the model starts at line 110.
-/
namespace Verif.Scan
open Verif

/-- A directory entry, as far as the scan looks at it: its name, the answers of `is_dir()` and `is_file()` (false if they raise),
`inode()` (`none` if it raises; for a symbolic link Python gives the number of the link itself), the directory to which the path of the
entry leads, and `stat().st_size` (`none` if it raises).  (scan_directory.py:137, 142-176) -/
structure Entry where
  name : Text
  isDir : Bool
  isFile : Bool
  inode : Option Nat
  target : Nat
  size : Option Nat
  deriving DecidableEq, Repr

/-- The directories: `ls d` is `none` if `scandir` raises; an element `none` of the list is an exception of `next`.  (121, 137) -/
structure World where
  root : Nat
  ls : Nat → Option (List (Option Entry))

/-- `DirectoryDict` (58-60): the lists are empty if the key is missing. -/
structure Info where
  dirs : List Text
  files : List (Text × Int)
  deriving DecidableEq, Repr

/-- The local variables of `scan_directory`: the stack (top first) of paths with the entries still to come, the result so far, and the
inodes visited.  (110-114) -/
structure State where
  stack : List (Text × List (Option Entry))
  dirs : Text → Option Info
  visited : List Nat

/-- `push_directory` (116-129); `d` is the directory at `path`. -/
def push (w : World) (s : State) (path : Text) (d : Nat) : State :=
  match w.ls d with
  | none => s
  | some es => { s with stack := (path, es) :: s.stack, dirs := fun p => if p = path then some ⟨[], []⟩ else s.dirs p }

/-- `directories[path].setdefault("dirs", []).append(name)` (167); the key is always there. -/
def addDir (s : State) (path name : Text) : State :=
  { s with dirs := fun p => if p = path then (s.dirs p).map (fun i => { i with dirs := i.dirs ++ [name] }) else s.dirs p }

/-- `directories[path].setdefault("files", []).append(file_info)` (176). -/
def addFile (s : State) (path : Text) (info : Text × Int) : State :=
  { s with dirs := fun p => if p = path then (s.dirs p).map (fun i => { i with files := i.files ++ [info] }) else s.dirs p }

/-- The size given for a file (171-175). -/
def fileInfo (fileSizes : Bool) (e : Entry) : Text × Int :=
  if fileSizes then (e.name, match e.size with | some n => n | none => -1) else (e.name, -1)

/-- The test of the depth (156); `n` is the length of the stack. -/
def tooDeep (maxDepth : Option Int) (n : Nat) : Bool := match maxDepth with
  | some m => decide ((n : Int) ≥ m)
  | none => false

/-- What one round of the loop (134-176) gives: the next state, or the exception of `next`. -/
inductive Out where
  | go (s : State)
  | raised

/-- One round of the loop, with a stack that is not empty.  (135-176) -/
def round (w : World) (fileSizes : Bool) (maxDepth : Option Int) (s : State) (path : Text) (scan : List (Option Entry))
    (below : List (Text × List (Option Entry))) : Out :=
  match scan with
  | [] => .go { s with stack := below }
  | none :: _ => .raised
  | some e :: scan' =>
    let s := { s with stack := (path, scan') :: below }
    if e.name.head? = some '.' then .go s
    else if e.isDir then
      if tooDeep maxDepth s.stack.length then .go s
      else match e.inode with
        | none => .go (push w s (Path.join path e.name) e.target)
        | some i =>
          if s.visited.contains i then .go s
          else
            let s := addDir s path e.name
            .go (push w { s with visited := i :: s.visited } (Path.join path e.name) e.target)
    else if e.isFile then .go (addFile s path (fileInfo fileSizes e))
    else .go s

/-- How a scan ends.  (134, 137, 183) -/
inductive Result where
  | running
  | raised
  | done (directories : Text → Option Info)

/-- The loop (134-176), with fuel. -/
def loop (w : World) (fileSizes : Bool) (maxDepth : Option Int) : Nat → State → Result
  | 0, _ => .running
  | fuel + 1, s =>
    match s.stack with
    | [] => .done s.dirs
    | (path, scan) :: below =>
      match round w fileSizes maxDepth s path scan below with
      | .raised => .raised
      | .go s => loop w fileSizes maxDepth fuel s

/-- The state before the loop (132). -/
def start (w : World) : State := push w ⟨[], fun _ => none, []⟩ [] w.root

/-- `scan_directory(root, file_sizes, max_depth)` (74-183). -/
def scanDirectory (w : World) (fileSizes : Bool) (maxDepth : Option Int) (fuel : Nat) : Result :=
  loop w fileSizes maxDepth fuel (start w)

end Verif.Scan
