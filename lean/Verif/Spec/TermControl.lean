import Verif.Model.TermControl
/-!
Specification vocabulary for C113 and C114.
-/
namespace Verif.TermControl
open Verif

/-- The value of a JSON number (or truth value) that is an integer from -32768 to 32767; a negative one stands for the number of columns or rows with
the same 16 bits. -/
def number : Json → Option Int
  | .int i => if 0 ≤ i ∧ i ≤ 32767 then some i else if -32768 ≤ i ∧ i < 0 then some (65536 + i) else none
  | .bool true => some 1
  | .bool false => some 0
  | _ => none

/-- Columns and rows of a size `[columns, rows]`. -/
def pair : Json → Option (Int × Int)
  | .arr [a, b] => match number a, number b with
    | some x, some y => some (x, y)
    | _, _ => none
  | _ => none

/-- A message that names itself a resize request. -/
def isRequest : Option Json → Bool
  | some (.obj l) => decide (lookup l sType = some (.str sResize))
  | _ => false

/-- The size that a well-formed resize request asks for: `{"type": "window_resize", "size": [columns, rows]}`. -/
def asked : Option Json → Option (Int × Int)
  | some (.obj l) => if lookup l sType = some (.str sResize) then (lookup l sSize).bind pair else none
  | _ => none

/-- The last size asked for in a sequence of messages, or `init`. -/
def lastAsked (init : Option (Int × Int)) (ms : List (Option Json)) : Option (Int × Int) :=
  ms.foldl (fun cur m => match asked m with
    | some s => some s
    | none => cur) init

/-- A value with at least two parts: elements, characters or different keys. -/
def several : Json → Bool
  | .arr (_ :: _ :: _) => true
  | .str (_ :: _ :: _) => true
  | .obj l => l.any fun x => l.any fun y => x.1 ≠ y.1
  | _ => false

/-- The last size in the resize requests of a sequence, well formed or not, as long as it has several parts; or `init`. -/
def lastSize (init : Json) (ms : List (Option Json)) : Json :=
  ms.foldl (fun cur m => match m with
    | some (.obj l) => if lookup l sType = some (.str sResize) then ((lookup l sSize).filter several).getD cur else cur
    | _ => cur) init

/-- The messages in a history. -/
def messages (ops : List Op) : List (Option Json) := ops.filterMap fun
  | .control m => some m
  | _ => none

/-- The terminal has been started and not stopped since. -/
def Running (ops : List Op) : Prop := ∃ before after, ops = before ++ .start :: after ∧ ∀ op ∈ after, op ≠ .stop

/-- The window of the device as columns and rows. -/
def window (t : Term) : Option (Int × Int) := t.device.map fun w => (w.cols, w.rows)

/-- When the terminal has been started: `tfd` is its descriptor, no other descriptor leads to it, and no input has come yet. -/
structure Fresh (tfd f : Nat) (s : Fds) : Prop where
  file : fileAt s.files tfd = some f
  only : ∀ x ∈ s.files, x.2 = f → x.1 = tfd
  fd : s.fd = some tfd
  idle : s.local_ = none
  written : s.written = []
  shut : s.shut = false

/-- All that was written went to file `f`. -/
def OnlyTo (f : Nat) (s : Fds) : Prop := ∀ x ∈ s.written, x.1 = f

end Verif.TermControl
