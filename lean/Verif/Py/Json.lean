import Verif.Py.Bytes
/-!
The values that `json.loads` gives, with the Python operations on them that the agent uses.
-/
namespace Verif
open Verif

/-- A value read by `json.loads`.  Of a floating point number only two things are kept: the integer to which it is equal, if there is one
(`2.0 == 2` in Python), and a number that tells it from other floats. -/
inductive Json where
  | null
  | bool (b : Bool)
  | int (i : Int)
  | flt (eqInt : Option Int) (tag : Nat)
  | str (s : Text)
  | arr (l : List Json)
  | obj (l : List (Text × Json))
  deriving Repr

namespace Json

mutual
/-- Structural equality, for the examples. -/
def beq : Json → Json → Bool
  | .null, .null => true
  | .bool a, .bool b => a == b
  | .int a, .int b => a == b
  | .flt a s, .flt b t => a == b && s == t
  | .str a, .str b => a == b
  | .arr a, .arr b => beqList a b
  | .obj a, .obj b => beqObj a b
  | _, _ => false
def beqList : List Json → List Json → Bool
  | [], [] => true
  | a :: l, b :: m => beq a b && beqList l m
  | _, _ => false
def beqObj : List (Text × Json) → List (Text × Json) → Bool
  | [], [] => true
  | (k, a) :: l, (k', b) :: m => k == k' && beq a b && beqObj l m
  | _, _ => false
end

mutual
theorem beq_eq : ∀ {a b : Json}, beq a b = true → a = b
  | .null, b, h => by cases b <;> simp_all [beq]
  | .bool _, b, h => by cases b <;> simp_all [beq]
  | .int _, b, h => by cases b <;> simp_all [beq]
  | .flt _ _, b, h => by cases b <;> simp_all [beq]
  | .str _, b, h => by cases b <;> simp_all [beq]
  | .arr l, b, h => by
    cases b with
    | arr m => simp only [beq] at h; rw [beqList_eq h]
    | _ => simp [beq] at h
  | .obj l, b, h => by
    cases b with
    | obj m => simp only [beq] at h; rw [beqObj_eq h]
    | _ => simp [beq] at h
theorem beqList_eq : ∀ {a b : List Json}, beqList a b = true → a = b
  | [], b, h => by cases b <;> simp_all [beqList]
  | x :: l, b, h => by
    cases b with
    | nil => simp [beqList] at h
    | cons y m => simp only [beqList, Bool.and_eq_true] at h; rw [beq_eq h.1, beqList_eq h.2]
theorem beqObj_eq : ∀ {a b : List (Text × Json)}, beqObj a b = true → a = b
  | [], b, h => by cases b <;> simp_all [beqObj]
  | (k, x) :: l, b, h => by
    cases b with
    | nil => simp [beqObj] at h
    | cons y m =>
      obtain ⟨k', y⟩ := y
      simp only [beqObj, Bool.and_eq_true, beq_iff_eq] at h
      rw [h.1.1, beq_eq h.1.2, beqObj_eq h.2]
end

mutual
theorem beq_refl : ∀ a : Json, beq a a = true
  | .null => by simp [beq]
  | .bool _ => by simp [beq]
  | .int _ => by simp [beq]
  | .flt _ _ => by simp [beq]
  | .str _ => by simp [beq]
  | .arr l => by simp only [beq]; exact beqList_refl l
  | .obj l => by simp only [beq]; exact beqObj_refl l
theorem beqList_refl : ∀ a : List Json, beqList a a = true
  | [] => by simp [beqList]
  | x :: l => by simp only [beqList, Bool.and_eq_true]; exact ⟨beq_refl x, beqList_refl l⟩
theorem beqObj_refl : ∀ a : List (Text × Json), beqObj a a = true
  | [] => by simp [beqObj]
  | (k, x) :: l => by simp only [beqObj, Bool.and_eq_true, beq_self_eq_true, true_and]; exact ⟨beq_refl x, beqObj_refl l⟩
end

instance : DecidableEq Json := fun a b =>
  if h : beq a b = true then isTrue (beq_eq h) else isFalse (fun e => h (e ▸ beq_refl a))

end Json

/-- The value of a key in a dict that was read from the pairs `l`: the last one counts. -/
def lookup {κ α : Type} [DecidableEq κ] (l : List (κ × α)) (k : κ) : Option α := match l with
  | [] => none
  | (k', v) :: l => match lookup l k with
    | some w => some w
    | none => if k' = k then some v else none

/-- What Python compares when a value is used as a key of a dict: numbers are compared by value, whatever their type. -/
inductive Key where
  | null
  | num (i : Int)
  | flt (tag : Nat)
  | str (s : Text)
  deriving DecidableEq, Repr

namespace Json

/-- The key; `none` for the values that cannot be keys (`TypeError: unhashable`). -/
def key : Json → Option Key
  | .null => some .null
  | .bool b => some (.num (if b then 1 else 0))
  | .int i => some (.num i)
  | .flt (some i) _ => some (.num i)
  | .flt none tag => some (.flt tag)
  | .str s => some (.str s)
  | .arr _ => none
  | .obj _ => none

end Json
end Verif
