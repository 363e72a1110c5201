import Verif.Model.DirectoryScanner
import Verif.Model.Interference
/-!
The copy that `add_upload` makes of the file of a scan (`dataplicity/remote_directory.py:148-154, 163-183`, in the receive thread) while the threads
of `dataplicity/directory_scanner.py` go on: `shutil.copyfile` opens the file once and reads it piece by piece, and `open(file_path, "wb")`
(directory_scanner.py:82) empties that same file and writes it anew.

Simplifications: as in Model/Interference (`copyLoop`, `snapshot`: any sizes of pieces) and Model/DirectoryScanner.
-/
namespace Verif.ScanCopy
open Verif DirectoryScanner

/-- The scanner when the `i`-th piece is read; `segs i` is what its threads do between this and the next piece.  (directory_scanner.py:31-83) -/
def states (s : State) (segs : Nat → List Op) : Nat → State
  | 0 => s
  | i + 1 => run (states s segs i) (segs i)

/-- The bytes of the file of the scan.  (directory_scanner.py:79-83) -/
def bytes (s : State) : Bytes := s.file.getD []

/-- `add_upload("\0scan.json", ...)` (remote_directory.py:148-183) up to the copy: as `Interference.snapshot`. -/
def copyScan (used total : Nat) (s : State) (segs : Nat → List Op) (size : Nat → Nat) (fuel : Nat) : Option (Option Bytes) :=
  Interference.snapshot used total (fun i => bytes (states s segs i)) size fuel

end Verif.ScanCopy
