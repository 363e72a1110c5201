import Verif.Model.ScanFs
import Verif.Spec.Scan
import Verif.Spec.Links
import Verif.Spec.RemoteDirectory
/-!
Specification vocabulary for C140-C142.
-/
namespace Verif.ScanFs
open Verif
open _root_.Verif.RemoteDirectory (Cfg)
open _root_.Verif.Links (LFS LNode NoLink)

/-- A name that a file can have. -/
def Proper (n : Text) : Prop := n ≠ [] ∧ n ≠ ['.'] ∧ n ≠ ['.', '.'] ∧ '/' ∉ n ∧ Char.ofNat 0 ∉ n

/-- The listings give exactly the names that are there, each once, in any order. -/
def Lists (fs : LFS) (names : List Text → List Text) : Prop :=
  ∀ k, (names k).Nodup ∧ ∀ n, n ∈ names k ↔ Proper n ∧ fs (k ++ [n]) ≠ none

/-- Not hidden. -/
def Visible (n : Text) : Prop := n.head? ≠ some '.'

/-- There are no links in the directory at `R`, however deep. -/
def NoLinks (fs : LFS) (R : List Text) : Prop := ∀ k, R <+: k → NoLink fs k

/-- Nothing fails, and inode numbers tell entries apart. -/
structure Env.Calm (env : Env) (fs : LFS) : Prop where
  scandir : ∀ p, env.scandirFails p = false
  breaks : ∀ p, env.breaks p = none
  isDir : ∀ p, env.isDirFails p = false
  isFile : ∀ p, env.isFileFails p = false
  inode : ∀ p, env.inodeFails p = false
  size : ∀ p, env.sizeFails p = false
  distinct : ∀ k k', fs k ≠ none → fs k' ≠ none → env.inode k = env.inode k' → k = k'

end Verif.ScanFs
