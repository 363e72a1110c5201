import Verif.Model.Scan
/-!
Specification vocabulary for C62-C64 and C146.
-/
namespace Verif.Scan
open Verif

/-- The key of a directory in the result: its names, separated by slashes; empty for the root. -/
def key (names : List Text) : Text := joinWith '/' names

/-- Names as the operating system gives them. -/
def World.Named (w : World) : Prop := ∀ d es e, w.ls d = some es → some e ∈ es → e.name ≠ [] ∧ '/' ∉ e.name

/-- The names in a directory are different. -/
def World.Distinct (w : World) : Prop :=
  ∀ d es, w.ls d = some es → es.Pairwise (fun a b => ∀ x y, a = some x → b = some y → x.name ≠ y.name)

/-- The scan may go from a directory at depth `n` into its subdirectories. -/
def deeper (maxDepth : Option Int) (n : Nat) : Prop := match maxDepth with
  | none => True
  | some m => (n : Int) + 1 < m

instance (maxDepth : Option Int) (n : Nat) : Decidable (deeper maxDepth n) :=
  match maxDepth with
  | none => isTrue trivial
  | some m => inferInstanceAs (Decidable ((n : Int) + 1 < m))

/-- Not hidden. -/
def Entry.visible (e : Entry) : Prop := e.name.head? ≠ some '.'

instance (e : Entry) : Decidable e.visible := inferInstanceAs (Decidable (_ ≠ _))

/-- The names along which the scan may reach a directory that can be read: no hidden name, within the depth limit. -/
inductive Reach (w : World) (maxDepth : Option Int) : List Text → Nat → Prop where
  | root : w.ls w.root ≠ none → Reach w maxDepth [] w.root
  | sub {names d es e} : Reach w maxDepth names d → w.ls d = some es → some e ∈ es → e.visible → e.isDir = true →
      deeper maxDepth names.length → w.ls e.target ≠ none → Reach w maxDepth (names ++ [e.name]) e.target

/-- What the result should say about a directory with entries `es` at depth `n`. -/
def infoOf (fileSizes : Bool) (maxDepth : Option Int) (n : Nat) (es : List (Option Entry)) : Info :=
  let seen := es.filterMap (fun o => o.bind (fun e => if e.visible then some e else none))
  { dirs := if deeper maxDepth n then (seen.filter (fun e => e.isDir)).map (·.name) else []
    files := (seen.filter (fun e => !e.isDir && e.isFile)).map
      (fun e => (e.name, if fileSizes then (match e.size with | some k => (k : Int) | none => -1) else -1)) }

/-- No listing breaks off. -/
def World.Whole (w : World) : Prop := ∀ d es, w.ls d = some es → none ∉ es

/-- No inode fails. -/
def World.Inodes (w : World) : Prop := ∀ d es e, w.ls d = some es → some e ∈ es → e.isDir = true → e.inode ≠ none

/-- Different directory entries have different inodes: a tree without links to directories that are also reached otherwise. -/
def World.Tree (w : World) (maxDepth : Option Int) : Prop :=
  ∀ names d es e names' d' es' e', Reach w maxDepth names d → w.ls d = some es → some e ∈ es → e.isDir = true →
    Reach w maxDepth names' d' → w.ls d' = some es' → some e' ∈ es' → e'.isDir = true → e.inode = e'.inode →
    names = names' ∧ e.name = e'.name

/-- The device has no link to a directory and no directory mounted twice, and inode numbers tell directories apart. -/
def World.Plain (w : World) : Prop :=
  (∀ d es e d' es' e', w.ls d = some es → some e ∈ es → e.isDir = true → w.ls d' = some es' → some e' ∈ es' → e'.isDir = true →
    (e.inode = e'.inode → d = d' ∧ e.name = e'.name) ∧ (e.target = e'.target → d = d' ∧ e.name = e'.name)) ∧
  ∀ d es e, w.ls d = some es → some e ∈ es → e.isDir = true → e.target ≠ w.root

/-- Inode numbers tell directories apart: entries with the same number lead to the same directory. -/
def World.Known (w : World) : Prop :=
  ∀ d es e d' es' e', w.ls d = some es → some e ∈ es → w.ls d' = some es' → some e' ∈ es' → e.isDir = true → e'.isDir = true →
    e.inode = e'.inode → e.target = e'.target

end Verif.Scan
