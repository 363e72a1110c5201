import Verif.Spec.WSClient
/-!
Specification vocabulary for C175.
-/
namespace Verif.WSClient
open Verif

/-- `open_channels` (wsclient.py:213-216). -/
def openChannels (s : St) : List Int := s.channels.map (·.1)

/-- `is_closed` of the channel with this number. -/
def isClosed (n : Int) (s : St) : Prop := ∃ c, (n, c) ∈ s.channels ∧ c.closed = true

/-- The bytes that wait in the channels to be read. -/
def waiting (s : St) : Nat := (s.channels.map fun x => x.2.deque.flatten.length).sum

/-- The server does not say that channel `n` is closed. -/
def Kept (n : Int) (hist : List (Env × Ev)) : Prop := ∀ x ∈ hist, ∀ data, x.2 = .binary data → ¬ closes n data

/-- Channel `n` was named, and not closed by the server afterwards. -/
def NamedIn (n : Int) (hist : List (Env × Ev)) : Prop := ∃ h1 x h2, hist = h1 ++ x :: h2 ∧ mentions n x.2 ∧ Kept n h2

/-- The connection ended after channel `n` was named, and the server has not closed the channel, neither before nor afterwards. -/
def LostIn (n : Int) (hist : List (Env × Ev)) : Prop := ∃ h1 env h2, hist = h1 ++ (env, .disconnected) :: h2 ∧ NamedIn n h1 ∧ Kept n h2

end Verif.WSClient
