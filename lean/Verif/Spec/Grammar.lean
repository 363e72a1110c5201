import Verif.Model.Bencode
/-!
The language that `bencode.decode` reads (C130), as a grammar.  Nothing here mentions the decoder.
-/
namespace Verif.Grammar
open Verif

/-- A decimal digit. -/
def Digit (b : UInt8) : Prop := 48 ≤ b.toNat ∧ b.toNat ≤ 57
/-- White space: space, tab, line feed, vertical tab, form feed, carriage return. -/
def White (b : UInt8) : Prop := b.toNat = 32 ∨ (9 ≤ b.toNat ∧ b.toNat ≤ 13)

/-- Digits, between any two of which there may be one underscore. -/
inductive Digits : Bytes → Nat → Prop where
  | one {d} : Digit d → Digits [d] (d.toNat - 48)
  | more {bs n d} : Digits bs n → Digit d → Digits (bs ++ [d]) (10 * n + (d.toNat - 48))
  | underscore {bs n d} : Digits bs n → Digit d → Digits (bs ++ [95, d]) (10 * n + (d.toNat - 48))

/-- Text that Python's `int()` takes for a number: a sign or none, digits, white space around. -/
inductive IntText : Bytes → Int → Prop where
  | plain {l ds r n} : (∀ b ∈ l, White b) → Digits ds n → (∀ b ∈ r, White b) → IntText (l ++ ds ++ r) n
  | plus {l ds r n} : (∀ b ∈ l, White b) → Digits ds n → (∀ b ∈ r, White b) → IntText (l ++ [43] ++ ds ++ r) n
  | minus {l ds r n} : (∀ b ∈ l, White b) → Digits ds n → (∀ b ∈ r, White b) → IntText (l ++ [45] ++ ds ++ r) (-(n : Int))

/-- The bytes that may stand between `i` and `e`: digits and minus signs. -/
def IntBytes (ds : Bytes) : Prop := ∀ b ∈ ds, Digit b ∨ b = 45
/-- The bytes that may stand before the `:` of a byte string: anything that does not begin with `e`, `i`, `l` or `d` and has no `:` after the
first byte. -/
def LengthBytes (ds : Bytes) : Prop := ∃ t r, ds = t :: r ∧ t ≠ 101 ∧ t ≠ 105 ∧ t ≠ 108 ∧ t ≠ 100 ∧ 58 ∉ r

/-- The keys, each once, in the order of their first appearance. -/
def firsts : List PyVal → List PyVal
  | [] => []
  | k :: ks => k :: (firsts ks).filter (· ≠ k)

/-- `d` is the dict with the given items, of which the last one with a key counts. -/
def DictOf (kv d : List (PyVal × PyVal)) : Prop :=
  d.map (·.1) = firsts (kv.map (·.1)) ∧ ∀ x ∈ d, kv.reverse.find? (fun y => y.1 = x.1) = some x

/-- Keys of dicts. -/
def Key (k : PyVal) : Prop := (∃ b, k = .bytes b) ∨ ∃ i, k = .int i

mutual
/-- `Reads inp v r`: `inp` begins with a notation of `v`, after which `r` is left.  An `e` alone is `None`. -/
inductive Reads : Bytes → PyVal → Bytes → Prop where
  | none {r} : Reads (101 :: r) .none r
  | int {ds i r} : IntBytes ds → IntText ds i → Reads (105 :: ds ++ 101 :: r) (.int i) r
  /-- A byte string; fewer bytes at the end of the input. -/
  | bytes {ds r} {n : Nat} : LengthBytes ds → IntText ds n → n ≤ maxSize → Reads (ds ++ 58 :: r) (.bytes (r.take n)) (r.drop n)
  /-- A negative length: all that is left. -/
  | all {ds r} {n : Nat} : LengthBytes ds → IntText ds (-(n : Int)) → 0 < n → n ≤ maxSize + 1 → Reads (ds ++ 58 :: r) (.bytes r) []
  | list {inp xs r} : Elems inp xs (101 :: r) → Reads (108 :: inp) (.list xs) r
  | dict {inp kv d r} : Pairs inp kv (101 :: r) → (∀ x ∈ kv, Key x.1) → DictOf kv d → Reads (100 :: inp) (.dict d) r
/-- Values one after the other, none of them `None`. -/
inductive Elems : Bytes → List PyVal → Bytes → Prop where
  | nil {r} : Elems r [] r
  | cons {inp x r xs r'} : Reads inp x r → x ≠ .none → Elems r xs r' → Elems inp (x :: xs) r'
/-- Keys and values one after the other; no key is `None`, but a value may be. -/
inductive Pairs : Bytes → List (PyVal × PyVal) → Bytes → Prop where
  | nil {r} : Pairs r [] r
  | cons {inp k r v r' kv r''} : Reads inp k r → k ≠ .none → Reads r v r' → Pairs r' kv r'' → Pairs inp ((k, v) :: kv) r''
end

/-- `Fails inp e`: the notation at the beginning of `inp` is broken, and `e` is the exception. -/
inductive Fails : Bytes → Bencode.Err → Prop where
  /-- The end of the input where a value should begin. -/
  | nothing : Fails [] .decode
  /-- The input ends within an integer. -/
  | intEnd {ds} : IntBytes ds → Fails (105 :: ds) .decode
  /-- Something else within an integer. -/
  | intByte {ds c r} : IntBytes ds → ¬ Digit c → c ≠ 45 → c ≠ 101 → Fails (105 :: ds ++ c :: r) .decode
  /-- No number between `i` and `e`. -/
  | int {ds r} : IntBytes ds → (∀ i, ¬ IntText ds i) → Fails (105 :: ds ++ 101 :: r) .value
  /-- No number before the `:`. -/
  | length {ds r} : LengthBytes ds → (∀ i, ¬ IntText ds i) → Fails (ds ++ 58 :: r) .value
  /-- A length that does not fit 64 bits. -/
  | range {ds i r} : LengthBytes ds → IntText ds i → (i > maxSize ∨ i < - (maxSize : Int) - 1) → Fails (ds ++ 58 :: r) .overflow
  | list {inp xs r e} : Elems inp xs r → Fails r e → Fails (108 :: inp) e
  | key {inp kv r e} : Pairs inp kv r → Fails r e → Fails (100 :: inp) e
  | item {inp kv r k r' e} : Pairs inp kv r → Reads r k r' → k ≠ .none → Fails r' e → Fails (100 :: inp) e
  /-- A list or dict as key. -/
  | dict {inp kv r} : Pairs inp kv (101 :: r) → (∃ x ∈ kv, ¬ Key x.1) → Fails (100 :: inp) .unhashable

/-- `Endless inp`: there is a byte string without a `:` after its length. -/
inductive Endless : Bytes → Prop where
  | length {ds} : LengthBytes ds → Endless ds
  | list {inp xs r} : Elems inp xs r → Endless r → Endless (108 :: inp)
  | key {inp kv r} : Pairs inp kv r → Endless r → Endless (100 :: inp)
  | item {inp kv r k r'} : Pairs inp kv r → Reads r k r' → k ≠ .none → Endless r' → Endless (100 :: inp)

end Verif.Grammar
