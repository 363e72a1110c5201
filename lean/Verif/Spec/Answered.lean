import Verif.Spec.Opening
/-!
Specification vocabulary for C168.
-/
namespace Verif.Opening
open Verif WSClient System
open _root_.Verif.Instructions (Op)

/-- An operation that opens a service on channel `n`. -/
inductive OnChannel (n : Int) : Op → Prop where
  | echo : OnChannel n (.openEcho (.int n))
  | terminal (name : Text) (size : Option PyVal) : OnChannel n (.openTerminal (.text name) (.int n) size)
  | forward (name : Text) (x y z : PyVal) : OnChannel n (.openPortforward (.text name) (.list [x, y, z, .int n]))
  | redirect (port : Int) : OnChannel n (.openPortredirect (.int n) (.int port))

/-- The name in the operation, if it has one, is that of the terminal, or of a local service. -/
def Known : Op → Prop
  | .openTerminal (.text name) _ _ => name = "shell".toList
  | .openPortforward (.text name) _ => ∃ x ∈ localServices, x.1.toList = name
  | _ => True

/-- A service was started on channel `n`, or the server is told on it why not, and asked to close it. -/
def Replied (n : Int) (l : List Did) : Prop := ∃ d, l = [d] ∧
  (d = .echo n ∨ (∃ host port, d = .connection n host port) ∨ (∃ name, d = .terminal n name) ∨ ∃ why, d = .refused n [.write why, .close] ∧ why ≠ [])

end Verif.Opening
