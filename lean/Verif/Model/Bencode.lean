import Verif.Py.Bytes
/-!
Model of `dataplicity/m2m/bencode.py`.
-/
namespace Verif

/-- The Python values that can be handed to `bencode.encode` or come out of `bencode.decode`.
`float` stands for any object of a type that `encode` does not know (its payload only tells them apart).
A `dict` is its list of items in insertion order; Python guarantees distinct keys (`PyVal.WF`).  Types told apart at bencode.py:66-90. -/
inductive PyVal where
  | none
  | bool (b : Bool)
  | int (i : Int)
  | float (tag : Nat)
  | bytes (b : Bytes)
  | text (s : Text)
  | list (xs : List PyVal)
  | tuple (xs : List PyVal)
  | dict (kvs : List (PyVal × PyVal))
  deriving Repr, Inhabited

mutual
/-- Decidable equality of `PyVal` (model infrastructure, not code of the repository). -/
def PyVal.decEq : (a b : PyVal) → Decidable (a = b)
  | .none, .none => isTrue rfl
  | .bool a, .bool b => if h : a = b then isTrue (by rw [h]) else isFalse (by intro e; injection e with e; exact h e)
  | .int a, .int b => if h : a = b then isTrue (by rw [h]) else isFalse (by intro e; injection e with e; exact h e)
  | .float a, .float b => if h : a = b then isTrue (by rw [h]) else isFalse (by intro e; injection e with e; exact h e)
  | .bytes a, .bytes b => if h : a = b then isTrue (by rw [h]) else isFalse (by intro e; injection e with e; exact h e)
  | .text a, .text b => if h : a = b then isTrue (by rw [h]) else isFalse (by intro e; injection e with e; exact h e)
  | .list a, .list b => match PyVal.decEqList a b with
    | isTrue h => isTrue (by rw [h])
    | isFalse h => isFalse (by intro e; injection e with e; exact h e)
  | .tuple a, .tuple b => match PyVal.decEqList a b with
    | isTrue h => isTrue (by rw [h])
    | isFalse h => isFalse (by intro e; injection e with e; exact h e)
  | .dict a, .dict b => match PyVal.decEqItems a b with
    | isTrue h => isTrue (by rw [h])
    | isFalse h => isFalse (by intro e; injection e with e; exact h e)
  | .none, .bool _ | .none, .int _ | .none, .float _ | .none, .bytes _ | .none, .text _ | .none, .list _ | .none, .tuple _ | .none, .dict _
  | .bool _, .none | .bool _, .int _ | .bool _, .float _ | .bool _, .bytes _ | .bool _, .text _ | .bool _, .list _ | .bool _, .tuple _ | .bool _, .dict _
  | .int _, .none | .int _, .bool _ | .int _, .float _ | .int _, .bytes _ | .int _, .text _ | .int _, .list _ | .int _, .tuple _ | .int _, .dict _
  | .float _, .none | .float _, .bool _ | .float _, .int _ | .float _, .bytes _ | .float _, .text _ | .float _, .list _ | .float _, .tuple _ | .float _, .dict _
  | .bytes _, .none | .bytes _, .bool _ | .bytes _, .int _ | .bytes _, .float _ | .bytes _, .text _ | .bytes _, .list _ | .bytes _, .tuple _ | .bytes _, .dict _
  | .text _, .none | .text _, .bool _ | .text _, .int _ | .text _, .float _ | .text _, .bytes _ | .text _, .list _ | .text _, .tuple _ | .text _, .dict _
  | .list _, .none | .list _, .bool _ | .list _, .int _ | .list _, .float _ | .list _, .bytes _ | .list _, .text _ | .list _, .tuple _ | .list _, .dict _
  | .tuple _, .none | .tuple _, .bool _ | .tuple _, .int _ | .tuple _, .float _ | .tuple _, .bytes _ | .tuple _, .text _ | .tuple _, .list _ | .tuple _, .dict _
  | .dict _, .none | .dict _, .bool _ | .dict _, .int _ | .dict _, .float _ | .dict _, .bytes _ | .dict _, .text _ | .dict _, .list _ | .dict _, .tuple _ =>
    isFalse (by intro e; cases e)
/-- Equality of lists of values.  (Model infrastructure.) -/
def PyVal.decEqList : (a b : List PyVal) → Decidable (a = b)
  | [], [] => isTrue rfl
  | x :: xs, y :: ys => match PyVal.decEq x y, PyVal.decEqList xs ys with
    | isTrue h, isTrue h' => isTrue (by rw [h, h'])
    | isFalse h, _ => isFalse (by intro e; injection e with e _; exact h e)
    | _, isFalse h => isFalse (by intro e; injection e with _ e; exact h e)
  | [], _ :: _ => isFalse (by intro e; cases e)
  | _ :: _, [] => isFalse (by intro e; cases e)
/-- Equality of lists of items.  (Model infrastructure.) -/
def PyVal.decEqItems : (a b : List (PyVal × PyVal)) → Decidable (a = b)
  | [], [] => isTrue rfl
  | (k, v) :: xs, (k', v') :: ys => match PyVal.decEq k k', PyVal.decEq v v', PyVal.decEqItems xs ys with
    | isTrue h, isTrue h', isTrue h'' => isTrue (by rw [h, h', h''])
    | isFalse h, _, _ => isFalse (by intro e; injection e with e _; injection e with e _; exact h e)
    | _, isFalse h, _ => isFalse (by intro e; injection e with e _; injection e with _ e; exact h e)
    | _, _, isFalse h => isFalse (by intro e; injection e with _ e; exact h e)
  | [], _ :: _ => isFalse (by intro e; cases e)
  | _ :: _, [] => isFalse (by intro e; cases e)
end

instance : DecidableEq PyVal := PyVal.decEq

namespace Bencode

/-- Exceptions that can leave `encode`/`decode`.
`encoding` is `EncodingError`, or the `TypeError` that `sorted()` raises first when a dict mixes key types that
can not be compared (bencode.py:82-85: both mean "raises, returns nothing"); `decode` is `DecodeError`;
`value` is `ValueError` from `int()`; `overflow` is `OverflowError` from `read(size)`;
`unhashable` is the `TypeError` of `dict(kv)` with a list or dict as key; `assertion` is `AssertionError`. -/
inductive Err where
  | encoding | decode | value | overflow | unhashable | assertion
  deriving DecidableEq, Repr

/-- Insert an item in key order.  One step of `sorted` (bencode.py:82). -/
def insertItem (x : Bytes × Bytes) : List (Bytes × Bytes) → List (Bytes × Bytes)
  | [] => [x]
  | y :: ys => if bytesLt x.1 y.1 then x :: y :: ys else y :: insertItem x ys

/-- `keys = sorted(obj.keys())` (bencode.py:82), carried out on the pairs (key, encoded value). -/
def sortItems : List (Bytes × Bytes) → List (Bytes × Bytes)
  | [] => []
  | x :: xs => insertItem x (sortItems xs)

/-- `"{}:".format(len(obj)).encode()` followed by the bytes (bencode.py:67-68). -/
def encBytes (b : Bytes) : Bytes := decNat b.length ++ (58 :: b)

mutual
/-- `add_encode` (bencode.py:65-90): the bytes appended for `obj`, or `none` if it raises `EncodingError`.
`True`/`False` are `int`s in Python, and are formatted as `iTruee`/`iFalsee` (bencode.py:73-74). -/
def addEncode : PyVal → Option Bytes
  | .bytes b => some (encBytes b)
  | .text s => some (encBytes (utf8Encode s))
  | .bool b => some (105 :: (if b then asc "True" else asc "False") ++ [101])
  | .int i => some (105 :: decInt i ++ [101])
  | .list xs => (addEncodeList xs).map fun b => 108 :: b ++ [101]
  | .tuple xs => (addEncodeList xs).map fun b => 108 :: b ++ [101]
  | .dict kvs => (addEncodeItems kvs).map fun items =>
      100 :: (sortItems items).flatMap (fun kv => encBytes kv.1 ++ kv.2) ++ [101]
  | .none => none
  | .float _ => none
/-- The loop over list items (bencode.py:77-78). -/
def addEncodeList : List PyVal → Option Bytes
  | [] => some []
  | x :: xs => do
    let a ← addEncode x
    let b ← addEncodeList xs
    pure (a ++ b)
/-- The loop over dict items (bencode.py:83-87): (key, encoded value) pairs in insertion order;
`none` if a key is not `bytes` (bencode.py:84-85) or a value can not be encoded.
Simplification: values are encoded before sorting; only the order of exceptions could differ. -/
def addEncodeItems : List (PyVal × PyVal) → Option (List (Bytes × Bytes))
  | [] => some []
  | (.bytes k, v) :: r => do
    let e ← addEncode v
    let es ← addEncodeItems r
    pure ((k, e) :: es)
  | _ :: _ => none
end

/-- Result of running the reader: a value and the unread input, an exception, or not finished within the fuel.  (bencode.py:105-149) -/
inductive DRes where
  | ok (v : PyVal) (rest : Bytes)
  | raise (e : Err)
  | out
  deriving Repr, DecidableEq

/-- The digit loop of an integer (bencode.py:114-123); at end of input `read(1)` is `b""`, which is neither a digit nor
`-` nor `e`, so it raises `DecodeError`. -/
def readInt (acc : Bytes) : Bytes → DRes
  | [] => .raise .decode
  | c :: r =>
    if !isDigitB c && c != 45 then
      if c != 101 then .raise .decode
      else match pyInt acc with
        | some i => .ok (.int i) r
        | none => .raise .value
    else readInt (acc ++ [c]) r

/-- `read(size)` on a `BytesIO` (bencode.py:149): all the rest if negative, at most what is there otherwise;
`OverflowError` if `size` does not fit a C `ssize_t`. -/
def readN (size : Int) (inp : Bytes) : DRes :=
  if size > (maxSize : Int) || size < - (maxSize : Int) - 1 then .raise .overflow
  else if size < 0 then .ok (.bytes inp) []
  else .ok (.bytes (inp.take size.toNat)) (inp.drop size.toNat)

/-- The loop reading the length of a byte string up to `:` (bencode.py:142-149).  At end of input `read(1)` is `b""`:
the loop appends nothing and goes on, so only the fuel ends it. -/
def sizeLoop : Nat → Bytes → Bytes → DRes
  | 0, _, _ => .out
  | n + 1, acc, [] => sizeLoop n acc []
  | n + 1, acc, c :: r =>
    if c == 58 then
      match pyInt acc with
      | some size => readN size r
      | none => .raise .value
    else sizeLoop n (acc ++ [c]) r

/-- Python `==` on dict keys that `decode` can produce (byte strings and ints).  (bencode.py:140) -/
def keyEq : PyVal → PyVal → Bool
  | .bytes a, .bytes b => a == b
  | .int a, .int b => a == b
  | _, _ => false

/-- Lists and dicts are not hashable.  (bencode.py:140) -/
def hashable : PyVal → Bool
  | .list _ => false
  | .dict _ => false
  | _ => true

/-- `d[k] = v` on items in insertion order.  (bencode.py:140) -/
def dictSet (k v : PyVal) : List (PyVal × PyVal) → List (PyVal × PyVal)
  | [] => [(k, v)]
  | (k', v') :: r => if keyEq k k' then (k', v) :: r else (k', v') :: dictSet k v r

/-- `dict(kv)` (bencode.py:140): later items replace earlier ones; `TypeError` for an unhashable key. -/
def mkDict (kv : List (PyVal × PyVal)) : Option (List (PyVal × PyVal)) :=
  if kv.all (fun p => hashable p.1) then some (kv.foldl (fun d p => dictSet p.1 p.2 d) []) else none

/-- `i is None`.  (bencode.py:128, 136, 95) -/
def isNone : PyVal → Bool
  | .none => true
  | _ => false

mutual
/-- `_decode(read)` (bencode.py:105-149).  The fuel counts calls and loop iterations. -/
def decodeF : Nat → Bytes → DRes
  | 0, _ => .out
  | _ + 1, [] => .raise .decode
  | n + 1, t :: r =>
    if t == 101 then .ok .none r
    else if t == 105 then readInt [] r
    else if t == 108 then listLoop n [] r
    else if t == 100 then dictLoop n [] r
    else sizeLoop n [t] r
/-- The loop of a list (bencode.py:125-131); `acc` is the list `l` built so far. -/
def listLoop : Nat → List PyVal → Bytes → DRes
  | 0, _, _ => .out
  | n + 1, acc, inp =>
    match decodeF n inp with
    | .ok v r => if isNone v then .ok (.list acc) r else listLoop n (acc ++ [v]) r
    | .raise e => .raise e
    | .out => .out
/-- The loop of a dict (bencode.py:133-140); `acc` is the list `kv` built so far. -/
def dictLoop : Nat → List (PyVal × PyVal) → Bytes → DRes
  | 0, _, _ => .out
  | n + 1, acc, inp =>
    match decodeF n inp with
    | .ok k r =>
      if isNone k then
        match mkDict acc with
        | some d => .ok (.dict d) r
        | none => .raise .unhashable
      else
        match decodeF n r with
        | .ok v r' => dictLoop n (acc ++ [(k, v)]) r'
        | .raise e => .raise e
        | .out => .out
    | .raise e => .raise e
    | .out => .out
end

/-- What a call of `decode` does: return, raise, or run for ever.  (bencode.py:99-102) -/
inductive Outcome where
  | ok (v : PyVal)
  | raise (e : Err)
  | hang
  deriving Repr, DecidableEq

/-- Fuel that is enough for every input on which the reader ends (`Proofs/Bencode.lean`, `fuel_enough`).  (Model infrastructure.) -/
def enough (data : Bytes) : Nat := 2 * data.length + 2

/-- `decode(data)` (bencode.py:99-102).  Bytes after the first value are ignored. -/
def decode (data : Bytes) : Outcome :=
  match decodeF (enough data) data with
  | .ok v _ => .ok v
  | .raise e => .raise e
  | .out => .hang

/-- `encode(obj)` (bencode.py:60-96), including `assert decode(bencode_data) is not None`. -/
def encode (obj : PyVal) : Except Err Bytes :=
  match addEncode obj with
  | none => .error .encoding
  | some data =>
    match decode data with
    | .ok v => if isNone v then .error .assertion else .ok data
    | .raise e => .error e
    | .hang => .error .assertion -- unreachable (`encode_total`)

end Bencode
end Verif
