import Verif.Model.RemoteDirectory
/-!
Model of `copy_download` and of the copy in `add_upload` (`dataplicity/remote_directory.py`) while other programs work on the same files: each system call
of the agent is a step of its own, and other programs may change the files between two of them.  The standard library functions are `shutil.move` and
`shutil.copyfile` of Python 3.

Simplifications: no symbolic links (as in Model/RemoteDirectory); the temporary file is a regular file (a directory in its place makes the move fail here,
see Model/RemoteDirectory for directories); the copy made by `shutil.move` is one step, and so is that `shutil.copy2` looks once more whether the
destination is a directory, which makes it fail here.
-/
namespace Verif.Interference
open Verif

/-- What other programs do to the files before the `i`-th system call of the handler. -/
abbrev Others := Nat → FS → FS

/-- The loop of `copy_download` (remote_directory.py:395-402): the files at the end, the number of the next system call, and the free name, or `none`
(`TooManyCopies`).  `left` counts the tries up to 100. -/
def findFree (o : Others) (cwd dirname basename ext : Text) : (left i : Nat) → FS → (dest : Text) → FS × Nat × Option Text
  | left, i, fs, dest =>
    if (o i fs).pathExists cwd dest then
      match left with
      | 0 => (o i fs, i + 1, none)
      | left + 1 => findFree o cwd dirname basename ext left (i + 1) (o i fs) (RemoteDirectory.copyName dirname basename (100 - left) ext)
    else (o i fs, i + 1, some dest)

/-- Where `copy_download` puts a download (remote_directory.py:385-402); `none` if it raises. -/
def destination (o : Others) (c : RemoteDirectory.Cfg) (fs : FS) (path : Bytes) : FS × Nat × Option Text :=
  match utf8Decode path with
  | none => (fs, 0, none)
  | some path =>
    let dest := Path.join c.root (lstripSlash path)
    let dirname := (Path.split dest).1
    let dirname := if (o 0 fs).isDir c.cwd dirname then dirname else c.root
    let name := Path.splitext (Path.split dest).2
    findFree o c.cwd dirname name.1 name.2 100 1 (o 0 fs) dest

/-- The end of `copy_download`: the files, the changes that the agent itself made (before and after), and whether there was no exception. -/
structure Run where
  fs : FS
  own : List (FS × FS)
  ok : Bool

/-- `os.rename(src, dst)` of a file; `none` is an exception.  `possible`: both are on the same device.  A file at the destination is replaced.
(remote_directory.py:406) -/
def rename (cwd : Text) (possible : Bool) (fs : FS) (src dst : Text) : Option FS :=
  match fs.place cwd src, fs.content cwd src, fs.writable cwd dst with
  | some k, some d, some k' => if possible then some ((fs.set k none).set k' (some (.file d))) else none
  | _, _, _ => none

/-- The copy and the removal in `shutil.move` (remote_directory.py:410). -/
def copyOver (o : Others) (cwd : Text) (env : RemoteDirectory.WriteEnv) (i : Nat) (fs : FS) (src real : Text) : Run :=
  match fs.content cwd src, fs.writable cwd real with
  | some d, some k' =>
    if fs.place cwd src = some k' then ⟨fs, [], false⟩    -- SameFileError
    else match env.copy with
      | .fails none => ⟨fs, [], false⟩
      | .fails (some n) => ⟨fs.set k' (some (.file (d.take n))), [(fs, fs.set k' (some (.file (d.take n))))], false⟩
      | .good =>
        let fs1 := fs.set k' (some (.file d))
        let fs2 := o i fs1
        let fs3 := RemoteDirectory.remove cwd (!env.unlinkOk) fs2 src
        ⟨fs3, [(fs, fs1), (fs2, fs3)], env.unlinkOk && (fs2.content cwd src).isSome⟩
  | _, _ => ⟨fs, [], false⟩

/-- The second half of `shutil.move` (remote_directory.py:410): `os.rename` is tried, then the file is copied. -/
def moveTo (o : Others) (cwd : Text) (env : RemoteDirectory.WriteEnv) (i : Nat) (fs : FS) (src real : Text) : Run :=
  match rename cwd env.renameOk (o i fs) src real with
  | some fs1 => ⟨fs1, [(o i fs, fs1)], true⟩
  | none => copyOver o cwd env (i + 2) (o (i + 1) (o i fs)) src real

/-- `shutil.move(src, dst)` (remote_directory.py:410): if the destination is a directory, the file is put into it, under its own name. -/
def move (o : Others) (cwd : Text) (env : RemoteDirectory.WriteEnv) (i : Nat) (fs : FS) (src dst : Text) : Run :=
  let fs1 := o i fs
  if fs1.isDir cwd dst then
    let real := Path.join dst (Path.split (RemoteDirectory.rstripSlash src)).2
    let fs2 := o (i + 1) fs1
    if fs2.pathExists cwd real then ⟨fs2, [], false⟩ else moveTo o cwd env (i + 2) fs2 src real
  else moveTo o cwd env (i + 2) fs1 src dst

/-- The end of `copy_download` (remote_directory.py:405-413). -/
def store (o : Others) (cwd : Text) (env : RemoteDirectory.WriteEnv) (i : Nat) (fs : FS) (src dst : Text) : Run :=
  let fs1 := o i fs
  match rename cwd env.renameOk fs1 src dst with
  | some fs2 => ⟨fs2, [(fs1, fs2)], true⟩
  | none => move o cwd env (i + 1) fs1 src dst

/-- `copy_download` (remote_directory.py:381-413). -/
def copyDownload (o : Others) (c : RemoteDirectory.Cfg) (env : RemoteDirectory.WriteEnv) (fs : FS) (devicePath : Text) (path : Bytes) : Run :=
  match destination o c fs path with
  | (fs, _, none) => ⟨fs, [], false⟩
  | (fs, i, some dest) => store o c.cwd env i fs devicePath dest

/-- The loop of `shutil.copyfile` (remote_directory.py:182): `f i` is the contents of the opened file when the `i`-th piece is read, and at most
`size i + 1` bytes are read then; the loop ends when nothing is read.  `none`: it has not ended yet. -/
def copyLoop (f : Nat → Bytes) (size : Nat → Nat) : (fuel i : Nat) → (got : Bytes) → Option Bytes
  | 0, _, _ => none
  | fuel + 1, i, got =>
    let piece := ((f i).drop got.length).take (size i + 1)
    if piece = [] then some got else copyLoop f size fuel (i + 1) (got ++ piece)

/-- The check of the disk margin and the copy in `add_upload` (remote_directory.py:163-183), where usage and size can be determined and the disk does not
fail: `some none` is `LowDiskSpace`.  The size is that of `f 0`. -/
def snapshot (used total : Nat) (f : Nat → Bytes) (size : Nat → Nat) (fuel : Nat) : Option (Option Bytes) :=
  if (used : Int) + (f 0).length > total - RemoteDirectory.margin then some none else (copyLoop f size fuel 1 []).map some

end Verif.Interference
