import Verif.Model.ScanCopy
/-!
Specification vocabulary for C185.
-/
namespace Verif.ScanCopy
open Verif DirectoryScanner

/-- A thread opens the file of the scan for writing. -/
def Opens (ops : List Op) : Prop := ∃ t ok, Op.openFile t ok ∈ ops

/-- All that the threads do until the `i`-th piece is read. -/
def upTo (segs : Nat → List Op) : Nat → List Op
  | 0 => []
  | i + 1 => upTo segs i ++ segs i

end Verif.ScanCopy
