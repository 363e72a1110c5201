import Verif.Model.Links
/-!
Write requests (`on_write_remote_file`, `dataplicity/remote_directory.py:304-379`) on a file system with symbolic links: the temporary file is
created and opened wherever links lead, and removed or moved without following a link at the end of its path.  As in Model/RemoteDirectory, but
only the code of the answer is kept; a temporary file that is a directory is left out, as in Model/Links.
-/
namespace Verif.Links
open Verif RemoteDirectory

/-- `add_download` (remote_directory.py:105-130); `none` is an exception. -/
def addDownload (c : Cfg) (mkdirFails createFails : Bool) (fs : LFS) (id : Text) : LFS × Option Text :=
  let path := Path.join (downloadDir c) id
  let made : Option LFS :=
    if fs.isDir c.cwd (downloadDir c) then some fs
    else if mkdirFails then none
    else fs.mkdir c.cwd (downloadDir c)
  match made with
  | none => (fs, none)
  | some fs =>
    if createFails then (fs, none)
    else match fs.writable c.cwd path with
      | some k => (fs.set k (some (.file [])), some path)
      | none => (fs, none)

/-- `open(path, "r+b")`, `seek`, `write` (remote_directory.py:332-334): the file to which the path leads. -/
def writeChunk (cwd : Text) (io : Io) (fs : LFS) (path : Text) (offset : Int) (data : Bytes) : LFS × Bool :=
  match fs.place cwd path, fs.content cwd path with
  | some k, some old =>
    if offset < 0 ∨ offset > maxSize then (fs, false)
    else match io with
      | .good => (fs.set k (some (.file (writeAt old offset.toNat data))), true)
      | .fails none => (fs, false)
      | .fails (some 0) => (fs, false)
      | .fails (some (n + 1)) => (fs.set k (some (.file (writeAt old offset.toNat (data.take (n + 1))))), false)
  | _, _ => (fs, false)

/-- The end of `on_write_remote_file` (remote_directory.py:335-379), after the data have been written or not. -/
def ending (c : Cfg) (env : WriteEnv) (device : Text) (path : Bytes) (final : Int) : LFS × Bool → LFS × Option Nat
  | (fs, false) => (remove c.cwd env.removeFails fs device, some 2)
  | (fs, true) =>
    match (if final ≠ 0 then copyDownload c env.renameOk env.copy env.unlinkOk fs device path else (fs, true) : LFS × Bool) with
    | (fs, false) => (fs, some 3)
    | (fs, true) => (fs, some 0)

/-- `on_write_remote_file` from where the temporary file is known (remote_directory.py:328-379). -/
def rest (c : Cfg) (env : WriteEnv) (fs : LFS) (device : Text) (path : Bytes) (offset : Int) (data : Bytes) (final : Int) : LFS × Option Nat :=
  ending c env device path final (if data.isEmpty then (fs, true) else writeChunk c.cwd env.write fs device offset data)

/-- `on_write_remote_file` (remote_directory.py:304-379): the file system and the code in the answer; `none`: an exception leaves the handler. -/
def onWrite (c : Cfg) (env : WriteEnv) (fs : LFS) (id path devicePath : Bytes) (offset : Int) (data : Bytes) (final : Int) : LFS × Option Nat :=
  match utf8Decode devicePath with
  | none => (fs, none)
  | some given =>
    let added : LFS × Option Text :=
      if given = [] then
        match utf8Decode id with
        | none => (fs, none)
        | some id => addDownload c env.mkdirFails env.createFails fs id
      else (fs, some given)
    match added with
    | (fs, none) => (fs, some 1)
    | (fs, some device) => rest c env fs device path offset data final

end Verif.Links
