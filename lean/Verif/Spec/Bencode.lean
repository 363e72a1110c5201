import Verif.Model.Bencode
/-!
Specification vocabulary for C01-C07.  Nothing here mentions the encoder or the decoder.
-/
namespace Verif

mutual
/-- `Same v w`: `w` is the bencode view of the Python value `v`: text has become its UTF-8 bytes, tuples have become
lists, and a dict is the same mapping (its items in any order). -/
inductive Same : PyVal → PyVal → Prop where
  | bytes (b) : Same (.bytes b) (.bytes b)
  | text (s) : Same (.text s) (.bytes (utf8Encode s))
  | int (i) : Same (.int i) (.int i)
  | list {xs ys} : SameList xs ys → Same (.list xs) (.list ys)
  | tuple {xs ys} : SameList xs ys → Same (.tuple xs) (.list ys)
  | dict {kvs kws kws'} : SameItems kvs kws → kws.Perm kws' → Same (.dict kvs) (.dict kws')
/-- Item by item. -/
inductive SameList : List PyVal → List PyVal → Prop where
  | nil : SameList [] []
  | cons {x y xs ys} : Same x y → SameList xs ys → SameList (x :: xs) (y :: ys)
/-- Item by item, with byte-string keys. -/
inductive SameItems : List (PyVal × PyVal) → List (PyVal × PyVal) → Prop where
  | nil : SameItems [] []
  | cons {k v w r s} : Same v w → SameItems r s → SameItems ((.bytes k, v) :: r) ((.bytes k, w) :: s)
end

mutual
/-- Built only from byte strings, text, integers, lists, tuples and dicts with byte-string keys. -/
inductive Supported : PyVal → Prop where
  | bytes (b) : Supported (.bytes b)
  | text (s) : Supported (.text s)
  | int (i) : Supported (.int i)
  | list {xs} : SupportedList xs → Supported (.list xs)
  | tuple {xs} : SupportedList xs → Supported (.tuple xs)
  | dict {kvs} : SupportedItems kvs → Supported (.dict kvs)
/-- All items. -/
inductive SupportedList : List PyVal → Prop where
  | nil : SupportedList []
  | cons {x xs} : Supported x → SupportedList xs → SupportedList (x :: xs)
/-- All items, with byte-string keys. -/
inductive SupportedItems : List (PyVal × PyVal) → Prop where
  | nil : SupportedItems []
  | cons {k v r} : Supported v → SupportedItems r → SupportedItems ((.bytes k, v) :: r)
end

mutual
/-- What Python guarantees of every object: byte strings are no longer than `sys.maxsize`, the byte-string keys of
a dict are distinct. -/
inductive WF : PyVal → Prop where
  | none : WF .none
  | bool (b) : WF (.bool b)
  | float (t) : WF (.float t)
  | bytes {b} : b.length ≤ maxSize → WF (.bytes b)
  | text {s} : (utf8Encode s).length ≤ maxSize → WF (.text s)
  | int (i) : WF (.int i)
  | list {xs} : WFList xs → WF (.list xs)
  | tuple {xs} : WFList xs → WF (.tuple xs)
  | dict {kvs} : WFItems kvs → (kvs.map (·.1)).Nodup → WF (.dict kvs)
/-- All items. -/
inductive WFList : List PyVal → Prop where
  | nil : WFList []
  | cons {x xs} : WF x → WFList xs → WFList (x :: xs)
/-- All keys and values. -/
inductive WFItems : List (PyVal × PyVal) → Prop where
  | nil : WFItems []
  | cons {k v r} : WF k → WF v → WFItems r → WFItems ((k, v) :: r)
end

mutual
/-- What `decode` may return: no text, tuple, bool or float anywhere. `None` only at the top or as a dict value
(never inside a list), dict keys are byte strings or integers (or None is absent as key). -/
inductive Clean : PyVal → Prop where
  | none : Clean .none
  | bytes (b) : Clean (.bytes b)
  | int (i) : Clean (.int i)
  | list {xs} : CleanList xs → Clean (.list xs)
  | dict {kvs} : CleanItems kvs → Clean (.dict kvs)
/-- All items, none of which is `None`. -/
inductive CleanList : List PyVal → Prop where
  | nil : CleanList []
  | cons {x xs} : Clean x → x ≠ .none → CleanList xs → CleanList (x :: xs)
/-- Keys are byte strings or integers, values are clean. -/
inductive CleanItems : List (PyVal × PyVal) → Prop where
  | nil : CleanItems []
  | bytesKey {k v r} : Clean v → CleanItems r → CleanItems ((.bytes k, v) :: r)
  | intKey {i v r} : Clean v → CleanItems r → CleanItems ((.int i, v) :: r)
end

/-- `ds` is the decimal notation of `n`: digits only, at least one, no leading zero, and their value is `n`. -/
def Dec (n : Nat) (ds : Bytes) : Prop :=
  ds ≠ [] ∧ (∀ d ∈ ds, 48 ≤ d.toNat ∧ d.toNat ≤ 57) ∧ ds.foldl (fun a d => a * 10 + (d.toNat - 48)) 0 = n ∧
    (ds.head? = some 48 → ds = [48])

mutual
/-- The bencode format: `Wire v data` if `data` is the notation of `v`, with dict keys in ascending order. -/
inductive Wire : PyVal → Bytes → Prop where
  | bytes {b ds} : Dec b.length ds → Wire (.bytes b) (ds ++ asc ":" ++ b)
  | text {s ds} : Dec (utf8Encode s).length ds → Wire (.text s) (ds ++ asc ":" ++ utf8Encode s)
  | nat {n : Nat} {ds} : Dec n ds → Wire (.int n) (asc "i" ++ ds ++ asc "e")
  | neg {n : Nat} {ds} : 0 < n → Dec n ds → Wire (.int (-n)) (asc "i-" ++ ds ++ asc "e")
  | list {xs body} : WireList xs body → Wire (.list xs) (asc "l" ++ body ++ asc "e")
  | tuple {xs body} : WireList xs body → Wire (.tuple xs) (asc "l" ++ body ++ asc "e")
  | dict {kvs} {items : List (Bytes × PyVal)} {body} : kvs.Perm (items.map fun kv => (.bytes kv.1, kv.2)) →
      items.Pairwise (fun a b => bytesLt a.1 b.1 = true) → WireItems items body → Wire (.dict kvs) (asc "d" ++ body ++ asc "e")
/-- One after the other. -/
inductive WireList : List PyVal → Bytes → Prop where
  | nil : WireList [] []
  | cons {x xs a b} : Wire x a → WireList xs b → WireList (x :: xs) (a ++ b)
/-- Key, value, key, value. -/
inductive WireItems : List (Bytes × PyVal) → Bytes → Prop where
  | nil : WireItems [] []
  | cons {k v r ds a b} : Dec k.length ds → Wire v a → WireItems r b → WireItems ((k, v) :: r) (ds ++ asc ":" ++ k ++ a ++ b)
end

end Verif
