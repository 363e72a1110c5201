import Verif.Spec.Client
/-!
Specification vocabulary for C190.
-/
namespace Verif.Client
open Verif Verif.JsonRpc

/-- The disk can be read, and the server is reached and answers. -/
def Reached (e : DiskEnv) : Prop := (∃ total used, e.usage = .ok (total, used)) ∧ ∃ r, e.net = .reply r ∧ r ≠ .unreachable

/-- The server got disk figures, at this time of the clock of the device. -/
def Got (x : Event × List (List Call)) (t : Int) : Prop := ∃ e, x.1 = .disk e ∧ x.2 ≠ [] ∧ Reached e ∧ e.now = t

/-- An hour. -/
def hour : Int := 3600 * 1000000

/-- A minute. -/
def minute : Int := 60 * 1000000

end Verif.Client
