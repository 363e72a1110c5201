import Verif.Model.RemoteDirectory
/-!
The uploads and the temporary files of `dataplicity/remote_directory.py` on a file system with symbolic links.  The calls are those of
Model/RemoteDirectory; only the file system below them is another one.  A link is followed wherever the operating system follows it: in
the middle of a path always, at its end by `stat`, `open` and `copyfile`, but not by `mkdir`, `remove` and `rename`.
-/
namespace Verif.Links
open Verif RemoteDirectory

/-- A file, a directory, or a symbolic link with its text.  (Model infrastructure: path_resolution(7), symlink(7).) -/
inductive LNode where
  | file (data : Bytes)
  | dir
  | link (target : Text)
  deriving DecidableEq, Repr

/-- A file system with links.  (Model infrastructure.) -/
abbrev LFS := List Text → Option LNode

namespace LFS

/-- Assignment.  (Model infrastructure.) -/
def set (fs : LFS) (k : List Text) (n : Option LNode) : LFS := fun k' => if k' = k then n else fs k'

/-- Where the text of a link is looked up that lies in directory `k`: at the root if it is absolute.  (Model infrastructure.) -/
def base (k : List Text) (target : Text) : List Text := if target.head? = some '/' then [] else k

/-- The components of a path, looked up one after the other from directory `k`; at a link `follow` goes on with the text of the link and
the components that are left.  `last`: a link at the very end is followed too.  (Model infrastructure.) -/
def go (fs : LFS) (last : Bool) (follow : List Text → List Text → Option (List Text)) : List Text → List Text → Option (List Text)
  | k, [] => some k
  | k, c :: cs =>
    if fs k = some .dir then
      match fs (Path.lexStep k c) with
      | some (.link t) =>
        if cs = [] ∧ last = false then some (Path.lexStep k c) else follow (base k t) (splitOn '/' t ++ cs)
      | _ => go fs last follow (Path.lexStep k c) cs
    else none

/-- Path resolution with at most `n` links on the way; with more it is an error (ELOOP).  (Model infrastructure.) -/
def walk (fs : LFS) (last : Bool) : Nat → List Text → List Text → Option (List Text)
  | 0 => go fs last (fun _ _ => none)
  | n + 1 => go fs last (walk fs last n)

/-- The number of links that Linux follows in one path.  (Model infrastructure.) -/
def maxLinks : Nat := 40

/-- The place that a path leads to, with all links followed.  A NUL character in a path is an error.  (Model infrastructure.) -/
def place (fs : LFS) (cwd p : Text) : Option (List Text) :=
  if p.contains (Char.ofNat 0) then none else walk fs true maxLinks [] (splitOn '/' (Path.join cwd p))

/-- The same, but a link at the end of the path is not followed.  (Model infrastructure.) -/
def entry (fs : LFS) (cwd p : Text) : Option (List Text) :=
  if p.contains (Char.ofNat 0) then none else walk fs false maxLinks [] (splitOn '/' (Path.join cwd p))

/-- `os.stat(p)`; `none` is an error.  (Model infrastructure.) -/
def stat (fs : LFS) (cwd p : Text) : Option LNode := (fs.place cwd p).bind fs

/-- `os.path.exists(p)`: false for a link that leads nowhere.  (Model infrastructure.) -/
def pathExists (fs : LFS) (cwd p : Text) : Bool := (fs.stat cwd p).isSome

/-- `os.path.isdir(p)`.  (Model infrastructure.) -/
def isDir (fs : LFS) (cwd p : Text) : Bool := fs.stat cwd p = some .dir

/-- The contents of the regular file to which `p` leads.  (Model infrastructure.) -/
def content (fs : LFS) (cwd p : Text) : Option Bytes :=
  match fs.stat cwd p with
  | some (.file d) => some d
  | _ => none

/-- The place at which `open(p, "wb")` creates or truncates a file: that to which a link leads.  (Model infrastructure.) -/
def writable (fs : LFS) (cwd p : Text) : Option (List Text) :=
  match fs.place cwd p with
  | some k => if fs k = some .dir then none else some k
  | none => none

/-- `os.mkdir(p)`: an error if there is anything, also a link that leads nowhere.  (Model infrastructure.) -/
def mkdir (fs : LFS) (cwd p : Text) : Option LFS :=
  match fs.entry cwd p with
  | some k => if fs k = none then some (fs.set k (some .dir)) else none
  | none => none

end LFS

/-- `get_snapshot_path` (remote_directory.py:83-103). -/
def getSnapshotPath (c : Cfg) (mkdirFails : Bool) (fs : LFS) (uploadId : Text) : LFS × Except Err Text :=
  let path := Path.join (snapDir c) uploadId
  if fs.isDir c.cwd (snapDir c) then (fs, .ok path)
  else if mkdirFails then (fs, .error (.plain "Failed to get snapshot path".toList))
  else match fs.mkdir c.cwd (snapDir c) with
    | some fs' => (fs', .ok path)
    | none => (fs, .error (.plain "Failed to get snapshot path".toList))

/-- The check of the disk margin (remote_directory.py:163-173); `getsize` follows links. -/
def lowSpace (c : Cfg) (env : OpenEnv) (fs : LFS) (filePath : Text) : Bool :=
  match env.usage with
  | none => false
  | some (used, total) =>
    if env.sizeFails then false
    else match fs.stat c.cwd filePath with
      | some (.file d) => decide ((used : Int) + d.length > total - margin)
      | some .dir => decide ((used : Int) + env.dirSize > total - margin)
      | _ => false

/-- `shutil.copyfile` (remote_directory.py:182): reads what `src` leads to, and writes what `dst` leads to. -/
def copyfile (c : Cfg) (io : Io) (fs : LFS) (src dst : Text) : LFS × Bool :=
  match fs.content c.cwd src, fs.writable c.cwd dst with
  | some d, some k =>
    if fs.place c.cwd src = some k then (fs, false)    -- SameFileError
    else match io with
      | .good => (fs.set k (some (.file d)), true)
      | .fails none => (fs, false)
      | .fails (some n) => (fs.set k (some (.file (d.take n))), false)
  | _, _ => (fs, false)

/-- `add_upload` (remote_directory.py:132-190): the checks of the path look at its text only (`uploadFile`). -/
def addUpload (c : Cfg) (env : OpenEnv) (fs : LFS) (path uploadId : Text) : LFS × Except Err Nat :=
  match uploadFile c path with
  | .error e => (fs, .error e)
  | .ok filePath =>
    if lowSpace c env fs filePath then
      (fs, .error (.low ("not enough space on ".toList ++ c.temp ++ " to create snapshot".toList)))
    else match getSnapshotPath c env.mkdirFails fs uploadId with
      | (fs, .error e) => (fs, .error e)
      | (fs, .ok snapshot) =>
        if !startsWith c.temp snapshot then (fs, .error (.illegal ("Path ".toList ++ path ++ " is illegal".toList)))
        else match copyfile c env.copy fs filePath snapshot with
          | (fs, false) => (fs, .error (.add env.msg))
          | (fs, true) =>
            match fs.content c.cwd snapshot with
            | some d => if env.size2Fails then (fs, .error (.add env.msg)) else (fs, .ok d.length)
            | none => (fs, .error (.add env.msg))

/-- `read_upload` (remote_directory.py:192-217). -/
def readUpload (c : Cfg) (env : ReadEnv) (fs : LFS) (uploadId : Text) (offset size : Int) : LFS × Except Err Bytes :=
  match getSnapshotPath c env.mkdirFails fs uploadId with
  | (fs, .error e) => (fs, .error e)
  | (fs, .ok snapshot) =>
    let fail := Except.error (Err.read ("unable to read ".toList ++ c.repr uploadId))
    if env.readFails then (fs, fail)
    else match fs.content c.cwd snapshot with
      | none => (fs, fail)
      | some d => match seekRead d offset size with
        | none => (fs, fail)
        | some r => (fs, .ok r)

/-- `os.remove(p)`: a link is removed, not what it leads to; `fails`: the operating system refuses.  (remote_directory.py:230, 349) -/
def remove (cwd : Text) (fails : Bool) (fs : LFS) (p : Text) : LFS :=
  if fails then fs
  else match fs.entry cwd p with
    | some k => match fs k with
      | some (.file _) => fs.set k none
      | some (.link _) => fs.set k none
      | _ => fs
    | none => fs

/-- `close_upload` (remote_directory.py:219-232) as called by `on_close_remote_file` (260-266), which catches everything. -/
def closeUpload (c : Cfg) (env : CloseEnv) (fs : LFS) (uploadId : Text) : LFS :=
  match getSnapshotPath c env.mkdirFails fs uploadId with
  | (fs, .error _) => fs
  | (fs, .ok snapshot) =>
    if fs.pathExists c.cwd snapshot then remove c.cwd env.removeFails fs snapshot else fs

/-- `write_scan` (directory_scanner.py:79-83): the JSON is written to the place to which the fixed name leads; `io` tells how it goes. -/
def writeScan (c : Cfg) (io : Io) (fs : LFS) (json : Bytes) : LFS × Bool :=
  match fs.writable c.cwd (Path.join c.sysTemp "__dataplicity_remote_directory_scan___.json".toList) with
  | some k => match io with
    | .good => (fs.set k (some (.file json)), true)
    | .fails none => (fs, false)
    | .fails (some n) => (fs.set k (some (.file (json.take n))), false)
  | none => (fs, false)

/-- The loop of `copy_download` (remote_directory.py:395-402); see Model/RemoteDirectory. -/
def findFree (fs : LFS) (cwd dirname basename ext : Text) : (left : Nat) → (dest : Text) → Option Text
  | left, dest =>
    if fs.pathExists cwd dest then
      match left with
      | 0 => none
      | left + 1 => findFree fs cwd dirname basename ext left (copyName dirname basename (100 - left) ext)
    else some dest

/-- Where `copy_download` puts a download (remote_directory.py:385-402); `none` if it raises. -/
def destination (c : Cfg) (fs : LFS) (path : Bytes) : Option Text :=
  match utf8Decode path with
  | none => none
  | some path =>
    let dest := Path.join c.root (lstripSlash path)
    let (dirname, filename) := Path.split dest
    let dirname := if fs.isDir c.cwd dirname then dirname else c.root
    let (basename, ext) := Path.splitext filename
    findFree fs c.cwd dirname basename ext 100 dest

/-- The end of `copy_download` (remote_directory.py:405-413) for a temporary file that is a regular file or a link: `os.rename`
puts it in the place of whatever is at the destination, a link too; if that fails, `shutil.move` writes to the place to which the
destination leads, or makes a link with the same text at the destination (`os.symlink`, an error if there is anything) and removes the
first.  Simplification: a temporary file that the server gave as a directory is left out (nothing happens). -/
def copyDownload (c : Cfg) (renameOk : Bool) (io : Io) (unlinkOk : Bool) (fs : LFS) (devicePath : Text) (path : Bytes) : LFS × Bool :=
  match destination c fs path with
  | none => (fs, false)
  | some dest =>
    match fs.entry c.cwd devicePath with
    | none => (fs, false)
    | some k =>
      match fs k with
      | some (.file d) =>
        match fs.entry c.cwd dest, fs.writable c.cwd dest with
        | some e, w =>
          if renameOk ∧ fs e ≠ some .dir then ((fs.set k none).set e (some (.file d)), true)
          else match w with
            | none => (fs, false)
            | some k' => match io with
              | .good => if unlinkOk then ((fs.set k none).set k' (some (.file d)), true) else (fs.set k' (some (.file d)), false)
              | .fails none => (fs, false)
              | .fails (some n) => (fs.set k' (some (.file (d.take n))), false)
        | none, _ => (fs, false)
      | some (.link t) =>
        match fs.entry c.cwd dest with
        | some e =>
          if renameOk ∧ fs e ≠ some .dir then ((fs.set k none).set e (some (.link t)), true)
          else if fs e = none ∧ io = .good then
            if unlinkOk then ((fs.set k none).set e (some (.link t)), true) else (fs.set e (some (.link t)), false)
          else (fs, false)
        | none => (fs, false)
      | _ => (fs, false)

end Verif.Links
