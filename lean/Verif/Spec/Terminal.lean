import Verif.Model.Terminal
/-!
Specification vocabulary for C46-C51 and C92.
-/
namespace Verif.Terminal
open Verif

/-- Every write takes at least one byte and none raises. -/
def Progress (env : Nat → WriteRes) : Prop := ∀ k, ∃ n, env k = .wrote (n + 1)

/-- Every write takes at least one byte or raises. -/
def Steady (env : Nat → WriteRes) : Prop := ∀ k, env k = .raises ∨ ∃ n, env k = .wrote (n + 1)

/-- All bytes of a sequence of messages. -/
def allBytes (msgs : List (Bool × Bytes)) : Bytes := (msgs.map (·.2)).flatten

/-- Number of kill signals sent by the wait thread. -/
def kills (acts : List (List WAct)) : Nat := acts.flatten.count .kill

/-- The last size requested, initially `init`. -/
def lastSize (init : Int × Int) : List SOp → Int × Int
  | [] => init
  | .resize s :: ops => lastSize s ops
  | _ :: ops => lastSize init ops

/-- The size stored last, initially `init`. -/
def stored (init : Int × Int) : List FineOp → Int × Int
  | [] => init
  | .setSize s :: ops => stored s ops
  | _ :: ops => stored init ops

/-- A size that is not negative and fits in the 16 bits of the agent's buffer. -/
def fits (s : Int × Int) : Prop := 0 ≤ s.1 ∧ s.1 ≤ 32767 ∧ 0 ≤ s.2 ∧ s.2 ≤ 32767

/-- The bytes read from the terminal. -/
def readBytes (acts : List Act) : Bytes := acts.flatMap fun | .read d => d | _ => []

/-- The bytes written to the channel. -/
def wroteBytes (acts : List Act) : Bytes := acts.flatMap fun | .write d => d | _ => []

end Verif.Terminal
