import Verif.Py.Json
import Verif.Model.Scan
/-!
What a reader finds in the file of a scan, as the documentation of `scan_directory` describes the format, for C153.
-/
namespace Verif.ScanJson
open Verif

/-- `l` are the items of the dict, in any order. -/
def Items (l : List (Text × Scan.Info)) (dirs : Text → Option Scan.Info) : Prop :=
  (l.map (·.1)).Nodup ∧ ∀ p i, (p, i) ∈ l ↔ dirs p = some i

/-- A name. -/
def asName : Json → Option Text
  | .str s => some s
  | _ => none

/-- A file: its name and its size. -/
def asFile : Json → Option (Text × Int)
  | .arr [.str s, .int n] => some (s, n)
  | _ => none

/-- All elements of a list, if each can be read. -/
def allOf {α : Type} (f : Json → Option α) : List Json → Option (List α)
  | [] => some []
  | j :: l => match f j, allOf f l with
    | some a, some as => some (a :: as)
    | _, _ => none

/-- A list that may be missing. -/
def optional {α : Type} (f : Json → Option α) : Option Json → Option (List α)
  | none => some []
  | some (.arr l) => allOf f l
  | some _ => none

/-- The subdirectories and files of a directory. -/
def readInfo : Json → Option Scan.Info
  | .obj m => match optional asName (lookup m "dirs".toList), optional asFile (lookup m "files".toList) with
    | some d, some f => some ⟨d, f⟩
    | _, _ => none
  | _ => none

/-- What is listed for a path. -/
def listing : Json → Text → Option Scan.Info
  | .obj l, p => match lookup l "directories".toList with
    | some (.obj d) => (lookup d p).bind readInfo
    | _ => none
  | _, _ => none

/-- The path of the remote directory. -/
def rootOf : Json → Option Text
  | .obj l => (lookup l "root".toList).bind asName
  | _ => none

end Verif.ScanJson
