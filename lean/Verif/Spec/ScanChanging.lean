import Verif.Model.ScanChanging
import Verif.Spec.Scan
/-!
Specification vocabulary for C179 and C180.
-/
namespace Verif.Scan
open Verif

/-- At some moment `es` are the entries of directory `d`. -/
def Changing.Gives (c : Changing) (d : Nat) (es : List (Option Entry)) : Prop := ∃ t, (c t).ls d = some es

/-- Names as the operating system gives them, at every moment. -/
def Changing.Named (c : Changing) : Prop := ∀ t, (c t).Named

/-- Directory `d` can be opened at moment `t` under these names: each is a visible directory, within the depth limit, in a listing of the one
above, which was opened before. -/
inductive ReachAt (c : Changing) (maxDepth : Option Int) : List Text → Nat → Nat → Prop where
  | root : (c 0).ls (c 0).root ≠ none → ReachAt c maxDepth [] (c 0).root 0
  | sub {names d t es e t'} : ReachAt c maxDepth names d t → (c t).ls d = some es → some e ∈ es → e.visible → e.isDir = true →
      deeper maxDepth names.length → t < t' → (c t').ls e.target ≠ none → ReachAt c maxDepth (names ++ [e.name]) e.target t'

/-- Directory `d` stays where it is, under these names, as long as the scan runs, whatever else changes: it can always be opened, it is always
listed in the directory above, which stays too, its inode number is not used for another directory, and no link leads to it. -/
inductive Stays (c : Changing) (maxDepth : Option Int) : List Text → Nat → Prop where
  | root : (∀ t, (c t).ls (c 0).root ≠ none) → (∀ d es e, c.Gives d es → some e ∈ es → e.isDir = true → e.target ≠ (c 0).root) →
      Stays c maxDepth [] (c 0).root
  | sub {names d n target i} : Stays c maxDepth names d → n.head? ≠ some '.' → deeper maxDepth names.length →
      (∀ t, (c t).ls target ≠ none) → (∀ es, c.Gives d es → ∃ e, some e ∈ es ∧ e.name = n) →
      (∀ es e, c.Gives d es → some e ∈ es → e.name = n → e.isDir = true ∧ e.inode = some i ∧ e.target = target) →
      (∀ d' es e, c.Gives d' es → some e ∈ es → e.isDir = true → e.inode = some i ∨ e.target = target → d' = d ∧ e.name = n) →
      target ≠ (c 0).root → Stays c maxDepth (names ++ [n]) target

end Verif.Scan
