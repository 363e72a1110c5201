import Verif.Model.Interference
import Verif.Spec.RemoteDirectory
/-!
Specification vocabulary for C176-C178.
-/
namespace Verif.Interference
open Verif

/-- The change takes away or replaces what is at some place, other than the place `src` of the temporary file. -/
def Overwrites (src : List Text) (change : FS × FS) : Prop := ∃ k, k ≠ src ∧ change.1 k ≠ none ∧ change.2 k ≠ change.1 k

/-- What other programs do leaves a file system in which everything is in a directory. -/
def Fair (o : Others) : Prop := ∀ i fs, RemoteDirectory.Closed fs → RemoteDirectory.Closed (o i fs)

/-- Other programs may change and remove, but make nothing new. -/
def MakesNothing (o : Others) : Prop := ∀ i fs k, fs k = none → o i fs k = none

/-- The file is only appended to. -/
def Appended (f : Nat → Bytes) : Prop := ∀ i, f i <+: f (i + 1)

end Verif.Interference
