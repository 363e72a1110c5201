import Verif.Model.JsonText
import Verif.Model.Scan
/-!
The result of a scan (`dataplicity/scan_directory.py:178-183`) as the JSON text that `write_scan` stores (`dataplicity/directory_scanner.py:75-77`).
-/
namespace Verif.ScanJson
open Verif JsonText

/-- (scan_directory.py:179) -/
def sRoot : Text := "root".toList
/-- (scan_directory.py:180) -/
def sTime : Text := "time".toList
/-- (scan_directory.py:181) -/
def sDirectories : Text := "directories".toList
/-- (scan_directory.py:167) -/
def sDirs : Text := "dirs".toList
/-- (scan_directory.py:176) -/
def sFiles : Text := "files".toList

/-- The key `dirs`, which is there only if a subdirectory was found.  (scan_directory.py:127-129, 167) -/
def dirsPart (i : Scan.Info) : List (Text × Json) := if i.dirs.isEmpty then [] else [(sDirs, .arr (i.dirs.map .str))]

/-- The key `files`, which is there only if a file was found; tuples are written as lists.  (scan_directory.py:127-129, 175-176) -/
def filesPart (i : Scan.Info) : List (Text × Json) := if i.files.isEmpty then [] else [(sFiles, .arr (i.files.map fun f => .arr [.str f.1, .int f.2]))]

/-- The dict of a directory; the keys are in the order in which they were set.  (scan_directory.py:127-129, 167, 176) -/
def infoJson (filesFirst : Bool) (i : Scan.Info) : Json :=
  .obj (if filesFirst then filesPart i ++ dirsPart i else dirsPart i ++ filesPart i)

/-- `scan_result` (scan_directory.py:178-182): `dirs` are the items of the dict `directories`, `time` is the float `time.time()`. -/
def scanJson (root : Text) (time : Option Int × Nat) (filesFirst : Text → Bool) (dirs : List (Text × Scan.Info)) : Json :=
  .obj [(sRoot, .str root), (sTime, .flt time.1 time.2), (sDirectories, .obj (dirs.map fun d => (d.1, infoJson (filesFirst d.1) d.2)))]

/-- What `write_scan` writes to the file (directory_scanner.py:75-77, 83). -/
def fileBytes (ftext : Option Int → Nat → Text) (root : Text) (time : Option Int × Nat) (filesFirst : Text → Bool) (dirs : List (Text × Scan.Info)) : Bytes :=
  utf8Encode (dumps ftext (scanJson root time filesFirst dirs))

end Verif.ScanJson
