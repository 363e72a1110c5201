import Verif.Model.Locks
/-!
Who waits for whom.  Apart from the state of the threads (what each will do next and the locks it holds) this uses nothing of the model.
-/
namespace Verif.Spec.Locks
open Verif.Locks

/-- What thread `i` will do next. -/
def Next (s : List Thread) (i : Nat) (e : Ev) : Prop := ∃ t r, s[i]? = some t ∧ t.rest = e :: r

/-- Thread `j` has the lock. -/
def Holds (s : List Thread) (j : Nat) (l : Lock) : Prop := ∃ t, s[j]? = some t ∧ l ∈ t.held

/-- Thread `i` wants a lock that thread `j` has; a thread that has an `RLock` can take it once more. -/
def WaitsFor (s : List Thread) (i j : Nat) (l : Lock) : Prop :=
  Next s i (.acquire l) ∧ Holds s j l ∧ ¬ (j = i ∧ l.again = true)

/-- Thread `i` cannot go on for a lock. -/
def Waiting (s : List Thread) (i : Nat) : Prop := ∃ j l, WaitsFor s i j l

/-- Thread `i` waits for a thread that waits for … that waits for thread `j`. -/
inductive Chain (s : List Thread) : Nat → Nat → Prop where
  | one {i j l} : WaitsFor s i j l → Chain s i j
  | more {i j k l} : WaitsFor s i j l → Chain s j k → Chain s i k

/-- Thread `i` is of that kind. -/
def Is (s : List Thread) (i : Nat) (k : Kind) : Prop := ∃ t, s[i]? = some t ∧ t.kind = k

/-- Thread `i` has something left to do. -/
def Unfinished (s : List Thread) (i : Nat) : Prop := ∃ e, Next s i e

end Verif.Spec.Locks
