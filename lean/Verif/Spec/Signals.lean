import Verif.Model.Signals
/-!
What C156 says.
-/
namespace Verif.Signals

/-- Each signal that was sent was got by the child of the terminal. -/
def OnlyChild (s : St) : Prop := ∀ x ∈ s.sent, ∃ b pid, s.child = some (b, pid) ∧ x.2 = some b

/-- Nobody calls `close` while another thread is in it. -/
def Apart (s : St) : List Op → Prop
  | [] => True
  | op :: ops => (∀ t, op = .test t → ∀ u, u ≠ t → s.place u = .outside) ∧ Apart (step s op) ops

end Verif.Signals
