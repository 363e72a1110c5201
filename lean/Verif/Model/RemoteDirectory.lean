import Verif.Py.FS
import Verif.Model.Packets
/-!
Model of `dataplicity/remote_directory.py`.

The handlers run one after the other (they are called by the receive thread only).  What the operating system may do wrong is an input of
each call.  Symbolic links are not modelled.
-/
namespace Verif.RemoteDirectory
open Verif

/-- The settings of the agent: working directory, remote directory (`self.path`), folder for temporary files (`self.temp_path`),
`tempfile.gettempdir()`, and Python's `repr` for strings, which only appears in messages.  (remote_directory.py:64-72, 152) -/
structure Cfg where
  cwd : Text
  root : Text
  temp : Text
  sysTemp : Text
  repr : Text → Text

/-- `RemoteDirectory.__init__` (remote_directory.py:64-72); `path` is the result of `expanduser`. -/
def Cfg.init (cwd path temp sysTemp : Text) (repr : Text → Text) : Cfg := ⟨cwd, Path.abspath cwd path, temp, sysTemp, repr⟩

/-- The exceptions derived from `RemoteDirectoryError` (24-45), with their text. -/
inductive Err where
  | illegal (msg : Text)
  | low (msg : Text)
  | add (msg : Text)
  | read (msg : Text)
  | copies (msg : Text)
  | plain (msg : Text)
  deriving DecidableEq, Repr

/-- `str(error)` (246, 280). -/
def Err.msg : Err → Text
  | .illegal m => m
  | .low m => m
  | .add m => m
  | .read m => m
  | .copies m => m
  | .plain m => m

/-- `validate_path` (48-58). -/
def validatePath (path : Text) : Bool := !(splitOn '/' path).contains ['.', '.']

/-- `FREE_SPACE_MARGIN` (18). -/
def margin : Int := 50 * 1000 * 1000

/-- The snapshot folder (95). -/
def snapDir (c : Cfg) : Text := Path.join c.temp "dataplicity_remote".toList

/-- `get_snapshot_path` (83-103): makes the folder if it is missing.  `mkdirFails`: the operating system refuses to make it. -/
def getSnapshotPath (c : Cfg) (mkdirFails : Bool) (fs : FS) (uploadId : Text) : FS × Except Err Text :=
  let path := Path.join (snapDir c) uploadId
  if fs.isDir c.cwd (snapDir c) then (fs, .ok path)
  else if mkdirFails then (fs, .error (.plain "Failed to get snapshot path".toList))
  else match fs.mkdir c.cwd (snapDir c) with
    | some fs' => (fs', .ok path)
    | none => (fs, .error (.plain "Failed to get snapshot path".toList))

/-- How a copy or write goes: `fails none`: before the destination is opened; `fails (some n)`: after `n` bytes were written.  (182, 334, 410) -/
inductive Io where
  | good
  | fails (written : Option Nat)
  deriving DecidableEq, Repr

/-- What the operating system does during `add_upload`: disk usage (used and total bytes) if it can be determined, whether the size of
the file can be determined, and so on.  `msg` is the text of an error, if there is one.
`dirSize` is the size that `getsize` gives for a directory.  (164-165, 97, 182-190) -/
structure OpenEnv where
  usage : Option (Nat × Nat)
  sizeFails : Bool := false
  mkdirFails : Bool := false
  copy : Io := .good
  size2Fails : Bool := false
  msg : Text := []
  dirSize : Nat := 4096

/-- The file that `add_upload` serves for a path (148-161). -/
def uploadFile (c : Cfg) (path : Text) : Except Err Text :=
  if startsWith [Char.ofNat 0] path then
    if path = Char.ofNat 0 :: "scan.json".toList then
      .ok (Path.join c.sysTemp "__dataplicity_remote_directory_scan___.json".toList)
    else .error (.illegal ("Unknown special path; ".toList ++ c.repr path))
  else
    let filePath := Path.join c.root (lstripSlash path)
    if !validatePath filePath || !startsWith c.root filePath then
      .error (.illegal ("Path ".toList ++ filePath ++ " is illegal".toList))
    else .ok filePath

/-- The check of the disk margin (163-173): true if there is not enough space. -/
def lowSpace (c : Cfg) (env : OpenEnv) (fs : FS) (filePath : Text) : Bool :=
  match env.usage with
  | none => false
  | some (used, total) =>
    if env.sizeFails then false
    else match fs.stat c.cwd filePath with
      | none => false
      | some (.file d) => decide ((used : Int) + d.length > total - margin)
      | some .dir => decide ((used : Int) + env.dirSize > total - margin)

/-- `shutil.copyfile` (182): the new file system, and whether it succeeded. -/
def copyfile (c : Cfg) (io : Io) (fs : FS) (src dst : Text) : FS × Bool :=
  match fs.content c.cwd src, fs.writable c.cwd dst with
  | some d, some k =>
    if fs.place c.cwd src = some k then (fs, false)    -- SameFileError
    else match io with
      | .good => (fs.set k (some (.file d)), true)
      | .fails none => (fs, false)
      | .fails (some n) => (fs.set k (some (.file (d.take n))), false)
  | _, _ => (fs, false)

/-- `add_upload` (132-190). -/
def addUpload (c : Cfg) (env : OpenEnv) (fs : FS) (path uploadId : Text) : FS × Except Err Nat :=
  match uploadFile c path with
  | .error e => (fs, .error e)
  | .ok filePath =>
    if lowSpace c env fs filePath then
      (fs, .error (.low ("not enough space on ".toList ++ c.temp ++ " to create snapshot".toList)))
    else match getSnapshotPath c env.mkdirFails fs uploadId with
      | (fs, .error e) => (fs, .error e)
      | (fs, .ok snapshot) =>
        if !startsWith c.temp snapshot then (fs, .error (.illegal ("Path ".toList ++ path ++ " is illegal".toList)))
        else match copyfile c env.copy fs filePath snapshot with
          | (fs, false) => (fs, .error (.add env.msg))
          | (fs, true) =>
            match fs.content c.cwd snapshot with
            | some d => if env.size2Fails then (fs, .error (.add env.msg)) else (fs, .ok d.length)
            | none => (fs, .error (.add env.msg))

/-- `file.seek(offset)`, `file.read(size)` on a file opened for reading (210-211); `none` is an exception. -/
def seekRead (data : Bytes) (offset size : Int) : Option Bytes :=
  if offset < 0 ∨ offset > maxSize ∨ size < -1 ∨ size > maxSize then none
  else if size = -1 then some (data.drop offset.toNat)
  else some ((data.drop offset.toNat).take size.toNat)

/-- What may go wrong in `read_upload`.  (97, 209-216) -/
structure ReadEnv where
  mkdirFails : Bool := false
  readFails : Bool := false

/-- `read_upload` (192-217). -/
def readUpload (c : Cfg) (env : ReadEnv) (fs : FS) (uploadId : Text) (offset size : Int) : FS × Except Err Bytes :=
  match getSnapshotPath c env.mkdirFails fs uploadId with
  | (fs, .error e) => (fs, .error e)
  | (fs, .ok snapshot) =>
    let fail := Except.error (Err.read ("unable to read ".toList ++ c.repr uploadId))
    if env.readFails then (fs, fail)
    else match fs.content c.cwd snapshot with
      | none => (fs, fail)
      | some d => match seekRead d offset size with
        | none => (fs, fail)
        | some r => (fs, .ok r)

/-- `os.remove(p)`; `fails`: the operating system refuses.  (230, 349) -/
def remove (cwd : Text) (fails : Bool) (fs : FS) (p : Text) : FS :=
  if fails then fs
  else match fs.place cwd p with
    | some k => match fs k with
      | some (.file _) => fs.set k none
      | _ => fs
    | none => fs

/-- What may go wrong in `close_upload`.  (97, 230) -/
structure CloseEnv where
  mkdirFails : Bool := false
  removeFails : Bool := false

/-- `close_upload` (219-232) as called by `on_close_remote_file` (260-266), which catches everything. -/
def closeUpload (c : Cfg) (env : CloseEnv) (fs : FS) (uploadId : Text) : FS :=
  match getSnapshotPath c env.mkdirFails fs uploadId with
  | (fs, .error _) => fs
  | (fs, .ok snapshot) =>
    if fs.pathExists c.cwd snapshot then remove c.cwd env.removeFails fs snapshot else fs

/-- What `client.send(type, ...)` makes of its arguments: a packet, or an exception.  (241, 249, 258, 273, 284, 294, 315, 338, 359, 371) -/
abbrev Sent := Except Packets.PErr Packets.Packet

/-- `on_open_remote_file` (234-258). -/
def onOpen (r : PyVal → String) (c : Cfg) (env : OpenEnv) (fs : FS) (uploadId path : Bytes) : FS × List Sent :=
  let failed (reason : Text) : Sent :=
    Packets.create r 25 [] [("upload_id", .bytes uploadId), ("size", .int (-1)), ("fail", .int 1), ("fail_reason", .text reason)]
  match utf8Decode path, utf8Decode uploadId with
  | some path, some idText =>
    match addUpload c env fs path idText with
    | (fs, .error e) => (fs, [failed e.msg])
    | (fs, .ok size) => (fs, [Packets.create r 25 [.bytes uploadId, .int size, .int 0, .text []] []])
  | _, _ => (fs, [failed "open failed, see dataplicity.log".toList])

/-- `on_close_remote_file` (260-266). -/
def onClose (c : Cfg) (env : CloseEnv) (fs : FS) (uploadId : Bytes) : FS :=
  match utf8Decode uploadId with
  | some idText => closeUpload c env fs idText
  | none => fs

/-- `on_read_remote_file` (268-302). -/
def onRead (r : PyVal → String) (c : Cfg) (env : ReadEnv) (fs : FS) (uploadId : Bytes) (offset size : Int) : FS × List Sent :=
  let result (data : PyVal) (fail : Int) (reason : Text) : Sent :=
    Packets.create r 28 [] [("upload_id", .bytes uploadId), ("offset", .int offset), ("size", .int size), ("data", data),
      ("fail", .int fail), ("fail_reason", .text reason)]
  match utf8Decode uploadId with
  | some idText =>
    match readUpload c env fs idText offset size with
    | (fs, .error e) => (fs, [result (.text []) 1 e.msg])
    | (fs, .ok d) => (fs, [result (.bytes d) 0 []])
  | none => (fs, [result (.text []) 1 "read failed, see dataplicity.log".toList])

/-! ### Downloads -/

/-- The folder for downloads (117). -/
def downloadDir (c : Cfg) : Text := Path.join c.temp "dataplicity_remote_downloads".toList

/-- `add_download` (105-130); `none` is an exception.  `createFails`: the operating system refuses to create the file. -/
def addDownload (c : Cfg) (mkdirFails createFails : Bool) (fs : FS) (id : Text) : FS × Option Text :=
  let path := Path.join (downloadDir c) id
  let made : Option FS :=
    if fs.isDir c.cwd (downloadDir c) then some fs
    else if mkdirFails then none
    else fs.mkdir c.cwd (downloadDir c)
  match made with
  | none => (fs, none)
  | some fs =>
    if createFails then (fs, none)
    else match fs.writable c.cwd path with
      | some k => (fs.set k (some (.file [])), some path)
      | none => (fs, none)

/-- Writing `data` at `offset` into a file: a gap is filled with zero bytes.  (333-334) -/
def writeAt (old : Bytes) (offset : Nat) (data : Bytes) : Bytes :=
  old.take offset ++ List.replicate (offset - old.length) 0 ++ data ++ old.drop (offset + data.length)

/-- `open(path, "r+b")`, `seek`, `write` (332-334): the new file system and whether it succeeded.  The write may stop after some bytes. -/
def writeChunk (cwd : Text) (io : Io) (fs : FS) (path : Text) (offset : Int) (data : Bytes) : FS × Bool :=
  match fs.place cwd path, fs.content cwd path with
  | some k, some old =>
    if offset < 0 ∨ offset > maxSize then (fs, false)
    else match io with
      | .good => (fs.set k (some (.file (writeAt old offset.toNat data))), true)
      | .fails none => (fs, false)
      | .fails (some 0) => (fs, false)
      | .fails (some (n + 1)) => (fs.set k (some (.file (writeAt old offset.toNat (data.take (n + 1))))), false)
  | _, _ => (fs, false)

/-- The number as text (`%s` of an int).  (402) -/
def numText (n : Nat) : Text := (decNat n).map (fun b => Char.ofNat b.toNat)

/-- `"%s/%s(%s)%s" % (dirname, basename, tries, ext)` (402). -/
def copyName (dirname basename : Text) (tries : Nat) (ext : Text) : Text :=
  dirname ++ '/' :: basename ++ '(' :: numText tries ++ ')' :: ext

/-- The loop of `copy_download` (395-402), entered with `tries` so far and `dest`: the free name or `none` (`TooManyCopies`).
`left` counts the tries up to 100. -/
def findFree (fs : FS) (cwd dirname basename ext : Text) : (left : Nat) → (dest : Text) → Option Text
  | left, dest =>
    if fs.pathExists cwd dest then
      match left with
      | 0 => none
      | left + 1 => findFree fs cwd dirname basename ext left (copyName dirname basename (100 - left) ext)
    else some dest

/-- How `shutil.move` of a directory goes when it has to copy (410): all is well; the copy fails after some of the changes (`made k` tells
how many bytes of the new file at `k` have been written); or the old directory is only removed in part. -/
inductive TreeIo where
  | good
  | copyFails (made : List Text → Option Nat)
  | removeFails (gone : List Text → Bool)

/-- The directory `k` with all that is in it is also at `k'` (410, `shutil.copytree`). -/
def copiedTree (fs : FS) (k k' : List Text) : FS := fun x => if k'.isPrefixOf x then fs (k ++ x.drop k'.length) else fs x

/-- The directory `k` with all that is in it is now at `k'` (406, `os.rename`). -/
def movedTree (fs : FS) (k k' : List Text) : FS :=
  fun x => if k'.isPrefixOf x then fs (k ++ x.drop k'.length) else if k.isPrefixOf x then none else fs x

/-- A file that has been written up to some byte (410). -/
def cutNode (n : Nat) : Option Node → Option Node
  | some (.file d) => some (.file (d.take n))
  | x => x

/-- `os.makedirs`, which `shutil.copytree` calls for the destination, without its last step: the missing directories on the way are made;
the result is the place of the last component, if nothing is there (410). -/
def makeDirs : FS → List Text → List Text → FS × Option (List Text)
  | fs, k, [] => (fs, if fs k = none then some k else none)
  | fs, k, comp :: cs =>
    match fs k with
    | some .dir => makeDirs fs (Path.lexStep k comp) cs
    | none => makeDirs (fs.set k (some .dir)) (Path.lexStep k comp) cs
    | some (.file _) => (fs, none)

/-- The path without slashes at its end: `os.rename` and `os.makedirs` of a directory accept them (406, 410). -/
def rstripSlash (p : Text) : Text := (p.reverse.dropWhile (· == '/')).reverse

/-- `os.rename` or `shutil.move` (405-413) of the directory at `k`.  `shutil.move` refuses a destination inside the directory; a NUL
character is a ValueError in both.  Simplification: a destination whose last name is `.` counts as taken. -/
def moveDir (cwd : Text) (renameOk : Bool) (io : TreeIo) (fs : FS) (k : List Text) (dst : Text) : FS × Bool :=
  let dst := rstripSlash dst
  let k' := Path.lexKey (Path.join cwd dst)
  if dst.contains (Char.ofNat 0) then (fs, false)
  else if k.isPrefixOf k' then (fs, false)
  else if renameOk ∧ fs.place cwd dst = some k' ∧ fs k' = none then (movedTree fs k k', true)
  else match makeDirs fs [] (splitOn '/' (Path.join cwd dst)) with
    | (fs1, none) => (fs1, false)
    | (fs1, some k') =>
      match io with
      | .good => (movedTree fs1 k k', true)
      | .copyFails made =>
        (fun x => match made x with
          | none => fs x
          | some n => if copiedTree fs1 k k' x = fs x then fs x else cutNode n (copiedTree fs1 k k' x), false)
      | .removeFails gone => (fun x => if k.isPrefixOf x && gone x then none else copiedTree fs1 k k' x, false)

/-- The end of `copy_download` (405-413): `os.rename`, or, if that fails, `shutil.move`.  `renameOk`: the rename is possible (same
device); `io`: how the copy goes; `unlinkOk`: the source can be removed after the copy; `tree`: the same for a directory. -/
def moveFile (cwd : Text) (renameOk : Bool) (io : Io) (unlinkOk : Bool) (tree : TreeIo) (fs : FS) (src dst : Text) : FS × Bool :=
  match fs.place cwd src, fs.stat cwd src with
  | some k, some (.file d) =>
    match fs.writable cwd dst with
    | some k' =>
      if renameOk then ((fs.set k none).set k' (some (.file d)), true)
      else match io with
        | .good => if unlinkOk then ((fs.set k none).set k' (some (.file d)), true) else (fs.set k' (some (.file d)), false)
        | .fails none => (fs, false)
        | .fails (some n) => (fs.set k' (some (.file (d.take n))), false)
    | none => (fs, false)
  | some k, some .dir => moveDir cwd renameOk tree fs k dst
  | _, _ => (fs, false)

/-- Where `copy_download` puts a download (385-402); `none` if it raises. -/
def destination (c : Cfg) (fs : FS) (path : Bytes) : Option Text :=
  match utf8Decode path with
  | none => none
  | some path =>
    let dest := Path.join c.root (lstripSlash path)
    let (dirname, filename) := Path.split dest
    let dirname := if fs.isDir c.cwd dirname then dirname else c.root
    let (basename, ext) := Path.splitext filename
    findFree fs c.cwd dirname basename ext 100 dest

/-- What may go wrong while a chunk is handled; `msg` is the text of the exception.  (119, 127, 332-334, 349, 406, 410) -/
structure WriteEnv where
  mkdirFails : Bool := false
  createFails : Bool := false
  write : Io := .good
  removeFails : Bool := false
  renameOk : Bool := true
  copy : Io := .good
  unlinkOk : Bool := true
  tree : TreeIo := .good
  msg : Text := []

/-- `copy_download` (381-413); the second component is false if it raises. -/
def copyDownload (c : Cfg) (env : WriteEnv) (fs : FS) (devicePath : Text) (path : Bytes) : FS × Bool :=
  match destination c fs path with
  | none => (fs, false)
  | some dest => moveFile c.cwd env.renameOk env.copy env.unlinkOk env.tree fs devicePath dest

/-- `on_write_remote_file` (304-379); `none` in place of the replies: an exception leaves the handler. -/
def onWrite (r : PyVal → String) (c : Cfg) (env : WriteEnv) (fs : FS) (id path devicePath : Bytes) (offset : Int) (data : Bytes)
    (final : Int) : FS × Option (List Sent) :=
  let result (position : Int) (device : Bytes) (code : Int) (reason : Bytes) : Sent :=
    Packets.create r 32 [.bytes id, .int position, .int data.length, .bytes device, .int code, .bytes reason] []
  match utf8Decode devicePath with
  | none => (fs, none)
  | some given =>
    let added : FS × Option Text :=
      if given = [] then
        match utf8Decode id with
        | none => (fs, none)
        | some id => addDownload c env.mkdirFails env.createFails fs id
      else (fs, some given)
    match added with
    | (fs, none) => (fs, some [result offset devicePath 1 (utf8Encode env.msg)])
    | (fs, some device) =>
      let written : FS × Bool := if data.isEmpty then (fs, true) else writeChunk c.cwd env.write fs device offset data
      match written with
      | (fs, false) => (remove c.cwd env.removeFails fs device, some [result offset (utf8Encode device) 2 (utf8Encode env.msg)])
      | (fs, true) =>
        let copied : FS × Bool := if final ≠ 0 then copyDownload c env fs device path else (fs, true)
        match copied with
        | (fs, false) => (fs, some [result offset (utf8Encode device) 3 (utf8Encode env.msg)])
        | (fs, true) => (fs, some [result (offset + data.length) (utf8Encode device) 0 []])

end Verif.RemoteDirectory
