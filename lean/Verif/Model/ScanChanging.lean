import Verif.Model.Scan
/-!
Model of `scan_directory` (dataplicity/scan_directory.py:74-183) over directories that change while the scan runs.

The directories are those of Model/Scan at every moment: `c t` is the device during round `t` of the loop, and `c 0` when the root is opened.
A round opens at most one directory, so nothing is fixed about what a directory holds when it is opened later.  The entries that an open
directory gives are those of the moment at which it was opened: what the operating system would give in the end, which may be anything,
is a possible listing of that moment.  Left out: listings that never come to an end.
-/
namespace Verif.Scan
open Verif

/-- The device in the course of time, told by the rounds of the loop (134). -/
abbrev Changing := Nat → World

/-- The loop (134-176), with fuel, from round `t`. -/
def loopC (c : Changing) (fileSizes : Bool) (maxDepth : Option Int) : Nat → Nat → State → Result
  | 0, _, _ => .running
  | fuel + 1, t, s =>
    match s.stack with
    | [] => .done s.dirs
    | (path, scan) :: below =>
      match round (c t) fileSizes maxDepth s path scan below with
      | .raised => .raised
      | .go s => loopC c fileSizes maxDepth fuel (t + 1) s

/-- `scan_directory(root, file_sizes, max_depth)` (74-183) while the directories change. -/
def scanChanging (c : Changing) (fileSizes : Bool) (maxDepth : Option Int) (fuel : Nat) : Result :=
  loopC c fileSizes maxDepth fuel 1 (start (c 0))

end Verif.Scan
