import Verif.Model.Links
/-!
Specification vocabulary for C125-C127.
-/
namespace Verif.Links
open Verif RemoteDirectory

/-- As in any real file system: the root is a directory, and what exists is in a directory. -/
structure Tree (fs : LFS) : Prop where
  root : fs [] = some .dir
  closed : ∀ k name, fs (k ++ [name]) ≠ none → fs k = some .dir

/-- Every link inside the directory at `R` leads to a place inside it, if it leads anywhere. -/
def Contained (fs : LFS) (R : List Text) : Prop :=
  ∀ k name t, R <+: k → fs (k ++ [name]) = some (.link t) → ∀ n key, n ≤ 40 →
    fs.walk true n (if t.head? = some '/' then [] else k) (splitOn '/' t) = some key → R <+: key

/-- The same file system in the model with links. -/
def plain (fs : FS) : LFS := fun k => match fs k with
  | some (.file d) => some (.file d)
  | some .dir => some .dir
  | none => none

/-- There is no link at this place. -/
def NoLink (fs : LFS) (k : List Text) : Prop := ∀ t, fs k ≠ some (.link t)

/-- The place of the scan file: the name of it in the directory for temporary files. -/
def scanName : Text := "__dataplicity_remote_directory_scan___.json".toList

end Verif.Links
