import Verif.Model.JsonRpc
/-!
Specification vocabulary for C68-C74.
-/
namespace Verif.JsonRpc
open Verif

/-- The number `n` in JSON: an integer, or a float with that value. -/
def IsNumber (j : Json) (n : Int) : Prop := j = .int n ∨ ∃ tag, j = .flt (some n) tag

/-- The five codes that JSON-RPC reserves, and their texts. -/
def Standard (code : Int) (text : String) : Prop :=
  (code = -32700 ∧ text = "Parse error") ∨ (code = -32600 ∧ text = "Invalid Request") ∨ (code = -32601 ∧ text = "Method not found") ∨
  (code = -32602 ∧ text = "Invalid params") ∨ (code = -32603 ∧ text = "Internal error")

/-- The exceptions that callers are told of. -/
def Exc.documented : Exc → Prop
  | .unreachable | .invalidResponse | .protocol | .remote .. | .remoteMethod .. => True
  | _ => False

/-- Neither a list nor a dict. -/
def Scalar (j : Json) : Prop := (∀ l, j ≠ .arr l) ∧ ∀ l, j ≠ .obj l

/-- The ids supplied in a block. -/
def supplied (ops : List BOp) : List CallId := ops.filterMap (fun op => match op with
  | .callWithId id _ _ => some id
  | _ => none)

/-- A call for which a number is given out. -/
def isCall : BOp → Bool
  | .call .. => true
  | _ => false

/-- The calls that a block adds, if the numbers given out so far go up to `n`. -/
def expected : Nat → List BOp → List Call
  | _, [] => []
  | n, .call m p :: ops => ⟨m, p, some (.num (n + 1))⟩ :: expected (n + 1) ops
  | n, .callWithId id m p :: ops => ⟨m, p, some id⟩ :: expected n ops
  | n, .notify m p :: ops => ⟨m, p, none⟩ :: expected n ops
  | n, .abandon :: ops => expected n ops

/-- The number given out by an operation: the id of the call that is new afterwards. -/
def made (w : World) (op : Op) : Option CallId := match op with
  | .call .. => (step w op).direct.getLast?.bind (·.id)
  | .add b (.call ..) => ((step w op).batches b).calls.getLast?.bind (·.id)
  | _ => none

/-- All numbers given out by a sequence of operations. -/
def trace : World → List Op → List CallId
  | _, [] => []
  | w, op :: ops => (made w op).toList ++ trace (step w op) ops

/-- No thread takes a step while another one is inside `new_call_id`. -/
def Exclusive : Ids → List IdStep → Prop
  | _, [] => True
  | s, a :: as => (∀ t, t ≠ a.thread → s.place t = .outside) ∧ Exclusive (s.step a) as

/-- The values that are equal to the number `n` in Python: also floats and the truth values. -/
inductive Denotes : Json → Int → Prop where
  | int (n) : Denotes (.int n) n
  | flt (n tag) : Denotes (.flt (some n) tag) n
  | true : Denotes (.bool true) 1
  | false : Denotes (.bool false) 0

/-- The replies to call `n` that make `call` raise something that callers are not told of: values in which nothing can be looked for; lists and
strings that contain both of the words looked for; responses in which the error is no object, or has a list or an object as its code. -/
inductive Breaks (n : Int) : Json → Prop where
  | null : Breaks n .null
  | bool (b) : Breaks n (.bool b)
  | int (i) : Breaks n (.int i)
  | flt (e tag) : Breaks n (.flt e tag)
  | arr {l} : .str "jsonrpc".toList ∈ l → .str "id".toList ∈ l → Breaks n (.arr l)
  | str {s} : "jsonrpc".toList <:+: s → "id".toList <:+: s → Breaks n (.str s)
  | noObject {l id e} : lookup l "jsonrpc".toList = some (.str "2.0".toList) → lookup l "id".toList = some id → Denotes id n →
      lookup l "error".toList = some e → (∀ m, e ≠ .obj m) → Breaks n (.obj l)
  | code {l id m c} : lookup l "jsonrpc".toList = some (.str "2.0".toList) → lookup l "id".toList = some id → Denotes id n →
      lookup l "error".toList = some (.obj m) → lookup m "code".toList = some c → ¬ Scalar c → Breaks n (.obj l)

/-- The response has this id. -/
def HasId (r : List (Text × Json)) : CallId → Prop
  | .num n => ∃ j, lookup r "id".toList = some j ∧ Denotes j n
  | .text s => lookup r "id".toList = some (.str s)

/-- Each error has an id, and each id is neither a list nor an object. -/
def Usable (rs : List (List (Text × Json))) : Prop :=
  ∀ r ∈ rs, (lookup r "error".toList ≠ none ∨ lookup r "id".toList ≠ none) → ∃ j, lookup r "id".toList = some j ∧ Scalar j

end Verif.JsonRpc
