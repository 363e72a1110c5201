import Verif.Model.Packets
import Verif.Spec.Bencode
/-! Specification vocabulary for the packet properties. -/
namespace Verif.Packets
open Verif

/-- The values fit the declared attributes, one by one. -/
def Typed : List (String × AType) → List PyVal → Prop
  | [], [] => True
  | (_, t) :: as, v :: vs => t.has v = true ∧ Typed as vs
  | _, _ => False

/-- `f` has a value of the declared type for every attribute, and `vs` are these values. -/
def Resolved (f : String → Option PyVal) : List (String × AType) → List PyVal → Prop
  | [], [] => True
  | (n, t) :: as, v :: vs => f n = some v ∧ t.has v = true ∧ Resolved f as vs
  | _, _ => False

/-- The value meant for attribute `name` by a call with these arguments: the keyword argument if there is one, otherwise the
positional argument at its place; text becomes UTF-8 bytes. -/
def meant (attrs : List (String × AType)) (args : List PyVal) (kwargs : List (String × PyVal)) (name : String) : Option PyVal :=
  match kwargs.find? (fun kv => decide (kv.1 = name)) with
  | some kv => some (match kv.2 with | .text s => .bytes (utf8Encode s) | v => v)
  | none => match ((attrs.map (·.1)).zip args).find? (fun kv => decide (kv.1 = name)) with
    | some kv => some (match kv.2 with | .text s => .bytes (utf8Encode s) | v => v)
    | none => none

/-- The same value, or two byte strings of one length, more than 32, that start with the same 32 bytes. -/
def AlikeStart (v w : PyVal) : Prop :=
  v = w ∨ ∃ a b : Bytes, v = .bytes a ∧ w = .bytes b ∧ 32 < a.length ∧ a.length = b.length ∧ ∀ i, i < 32 → a[i]? = b[i]?

end Verif.Packets
