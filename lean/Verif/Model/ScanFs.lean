import Verif.Model.Scan
import Verif.Model.Links
/-!
`scan_directory` (scan_directory.py:74-183) as `DirectoryScanner._perform_scan` calls it (directory_scanner.py:49), on the file system with
symbolic links of Model/Links: the graph of directories of Model/Scan is got from the file system, and a directory is known by its path
relative to the root, as in the code.

Simplification: the file system does not change during the scan.
-/
namespace Verif.ScanFs
open Verif
open _root_.Verif.RemoteDirectory (Cfg)
open _root_.Verif.Links (LFS LNode)

/-- One more than the largest code of a character.  (Model infrastructure.) -/
def radix : Nat := 1114113

/-- A number for every text: Model/Scan has numbers for directories.  (Model infrastructure.) -/
def num : Text → Nat
  | [] => 0
  | x :: xs => (x.toNat + 1) + radix * num xs

/-- The text with a number, with fuel.  (Model infrastructure.) -/
def textOf : Nat → Nat → Text
  | 0, _ => []
  | fuel + 1, n => if n = 0 then [] else Char.ofNat (n % radix - 1) :: textOf fuel (n / radix)

/-- The text with a number.  (Model infrastructure.) -/
def text (n : Nat) : Text := textOf n n

/-- What the operating system does during the scan: the names in the directory at a place, in the order of the listing; which calls fail, for
a path relative to the root (`breaks`: before which entry `next` raises); the inode numbers, which belong to the entries themselves, and the
size that `stat` gives for a directory.  (scan_directory.py:121, 137, 145, 150, 160, 172) -/
structure Env where
  names : List Text → List Text
  scandirFails : Text → Bool := fun _ => false
  breaks : Text → Option Nat := fun _ => none
  isDirFails : Text → Bool := fun _ => false
  isFileFails : Text → Bool := fun _ => false
  inodeFails : Text → Bool := fun _ => false
  sizeFails : Text → Bool := fun _ => false
  inode : List Text → Nat
  dirSize : Nat := 4096

/-- The entry with name `n` of the directory at `path`, whose place is `k`: `is_dir`, `is_file` and `stat` follow links, `inode` does not.
The path of an entry is that given to `scandir` (line 119) with the name appended.  (scan_directory.py:137-176) -/
def entryOf (c : Cfg) (env : Env) (fs : LFS) (path : Text) (k : List Text) (n : Text) : Scan.Entry :=
  let rel := Path.join path n
  let full := Path.join (Path.join c.root path) n
  { name := n
    isDir := !env.isDirFails rel && fs.isDir c.cwd full
    isFile := !env.isFileFails rel && (fs.content c.cwd full).isSome
    inode := if env.inodeFails rel then none else some (env.inode (k ++ [n]))
    target := num rel
    size := if env.sizeFails rel then none
      else match fs.stat c.cwd full with
        | some (.file d) => some d.length
        | some .dir => some env.dirSize
        | _ => none }

/-- A listing that breaks off.  (scan_directory.py:137) -/
def cut (es : List (Option Scan.Entry)) : Option Nat → List (Option Scan.Entry)
  | none => es
  | some i => es.take i ++ [none]

/-- `scandir(os.path.join(root_path, path))` (scan_directory.py:119-121). -/
def list (c : Cfg) (env : Env) (fs : LFS) (path : Text) : Option (List (Option Scan.Entry)) :=
  if env.scandirFails path then none
  else match fs.place c.cwd (Path.join c.root path) with
    | some k => if fs k = some .dir then some (cut ((env.names k).map fun n => some (entryOf c env fs path k n)) (env.breaks path)) else none
    | none => none

/-- The directories as the scan finds them.  (scan_directory.py:116-137) -/
def world (c : Cfg) (env : Env) (fs : LFS) : Scan.World := ⟨num [], fun d => list c env fs (text d)⟩

/-- `scan_directory(root, file_sizes=True)` (scan_directory.py:74-183), with the depth limit 10 and the test of the root (line 108-109). -/
def scan (c : Cfg) (env : Env) (fs : LFS) (fuel : Nat) : Scan.Result :=
  if fs.isDir c.cwd c.root then Scan.scanDirectory (world c env fs) true (some 10) fuel else .raised

/-- `DirEntry` for Pythons whose `os` has none: every answer comes from `os.stat`, which follows links, so that the inode number is that of
the place to which the entry leads, and whatever is no directory counts as a file.  (scan_directory.py:27-50)

Simplification: `_stat` (32, 36-38), which spares further calls, is left out; whether each call fails is free, as in `entryOf`. -/
def entryOld (c : Cfg) (env : Env) (fs : LFS) (path : Text) (k : List Text) (n : Text) : Scan.Entry :=
  let rel := Path.join path n
  let full := Path.join (Path.join c.root path) n
  { name := n
    isDir := !env.isDirFails rel && fs.isDir c.cwd full
    isFile := !env.isFileFails rel && (match fs.stat c.cwd full with | none => false | some x => x ≠ .dir)
    inode := if env.inodeFails rel then none else (fs.place c.cwd full).map env.inode
    target := num rel
    size := (entryOf c env fs path k n).size }

/-- `scandir` for such Pythons: `os.listdir` reads the whole listing at once, so that it does not break off later.  (scan_directory.py:52-54) -/
def listOld (c : Cfg) (env : Env) (fs : LFS) (path : Text) : Option (List (Option Scan.Entry)) :=
  if env.scandirFails path then none
  else match fs.place c.cwd (Path.join c.root path) with
    | some k => if fs k = some .dir then some ((env.names k).map fun n => some (entryOld c env fs path k n)) else none
    | none => none

/-- The directories as such a Python finds them.  (scan_directory.py:116-137) -/
def worldOld (c : Cfg) (env : Env) (fs : LFS) : Scan.World := ⟨num [], fun d => listOld c env fs (text d)⟩

/-- `scan` there.  (scan_directory.py:74-183) -/
def scanOld (c : Cfg) (env : Env) (fs : LFS) (fuel : Nat) : Scan.Result :=
  if fs.isDir c.cwd c.root then Scan.scanDirectory (worldOld c env fs) true (some 10) fuel else .raised

end Verif.ScanFs
