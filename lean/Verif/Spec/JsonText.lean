import Verif.Py.Json
/-!
The grammar of JSON (RFC 8259), with the value that each text stands for, and with the three further constants of Python.  Written without the
functions of Model/JsonText.  Strings in which a surrogate stands alone have no value here.
-/
namespace Verif.JsonText
open Verif

/-- White space (RFC 8259, section 2). -/
def Space (c : Char) : Prop := c ∈ [' ', '\t', '\n', '\r']

/-- White space only. -/
def Spaces (s : Text) : Prop := ∀ c ∈ s, Space c

/-- The digits. -/
def decDigits : List Char := "0123456789".toList
/-- Digits to the base 16. -/
def lowHex : List Char := "0123456789abcdef".toList
/-- Digits to the base 16. -/
def highHex : List Char := "0123456789ABCDEF".toList

/-- A decimal digit and its value. -/
def Dec1 (c : Char) (n : Nat) : Prop := decDigits[n]? = some c
/-- A digit to the base 16 and its value. -/
def Hex1 (c : Char) (n : Nat) : Prop := lowHex[n]? = some c ∨ highHex[n]? = some c

/-- One or more digits and the number they stand for. -/
inductive Digits : Text → Nat → Prop where
  | one {c n} : Dec1 c n → Digits [c] n
  | more {s m c n} : Digits s m → Dec1 c n → Digits (s ++ [c]) (10 * m + n)

/-- Digits without a leading zero. -/
def NatLit (s : Text) (n : Nat) : Prop := Digits s n ∧ (s.head? = some '0' → s = ['0'])

/-- An integer. -/
inductive IntLit : Text → Int → Prop where
  | pos {s n} : NatLit s n → IntLit s n
  | neg {s n} : NatLit s n → IntLit ('-' :: s) (-(n : Int))

/-- A fraction, or nothing. -/
inductive Frac : Text → Prop where
  | none : Frac []
  | some {s n} : Digits s n → Frac ('.' :: s)

/-- An exponent, or nothing. -/
inductive Exp : Text → Prop where
  | none : Exp []
  | some {e sg s n} : e ∈ ['e', 'E'] → sg ∈ [[], ['+'], ['-']] → Digits s n → Exp (e :: (sg ++ s))

/-- A number with a fraction or an exponent. -/
def FloatLit (s : Text) : Prop := ∃ i f e k, s = i ++ f ++ e ∧ IntLit i k ∧ Frac f ∧ Exp e ∧ (f ≠ [] ∨ e ≠ [])

/-- `u` and four digits to the base 16, after the backslash. -/
inductive Unicode : Text → Nat → Prop where
  | mk {a b c d i j k l} : Hex1 a i → Hex1 b j → Hex1 c k → Hex1 d l → Unicode ['u', a, b, c, d] (((i * 16 + j) * 16 + k) * 16 + l)

/-- The short escapes (section 7), after the backslash. -/
def shortEscapes : List (Char × Char) :=
  [('"', '"'), ('\\', '\\'), ('/', '/'), ('b', Char.ofNat 8), ('f', Char.ofNat 12), ('n', '\n'), ('r', '\r'), ('t', '\t')]

/-- The inside of a string and what it stands for. -/
inductive Inner : Text → Text → Prop where
  | nil : Inner [] []
  | plain {c s v} : 32 ≤ c.toNat → c ≠ '"' → c ≠ '\\' → Inner s v → Inner (c :: s) (c :: v)
  | short {c x s v} : (c, x) ∈ shortEscapes → Inner s v → Inner ('\\' :: c :: s) (x :: v)
  | unicode {u x s v} : Unicode u (x : Char).toNat → Inner s v → Inner ('\\' :: (u ++ s)) (x :: v)
  | pair {u hi w lo x s v} : Unicode u hi → Unicode w lo → 0xd800 ≤ hi → hi < 0xdc00 → 0xdc00 ≤ lo → lo < 0xe000 →
      (x : Char).toNat = 0x10000 + (hi - 0xd800) * 0x400 + (lo - 0xdc00) → Inner s v → Inner ('\\' :: (u ++ '\\' :: (w ++ s))) (x :: v)

/-- A string with its quotes. -/
inductive Str : Text → Text → Prop where
  | mk {s v} : Inner s v → Str ('"' :: (s ++ ['"'])) v

/-- The constants of Python that JSON does not have. -/
def extras : List Text := ["NaN".toList, "Infinity".toList, "-Infinity".toList]

mutual
/-- A value without white space around it; `fval` is the number for which a literal with fraction or exponent stands. -/
inductive Denotes (fval : Text → Json) : Text → Json → Prop where
  | null : Denotes fval "null".toList .null
  | true : Denotes fval "true".toList (.bool true)
  | false : Denotes fval "false".toList (.bool false)
  | int {s i} : IntLit s i → Denotes fval s (.int i)
  | float {s} : FloatLit s → Denotes fval s (fval s)
  | extra {s} : s ∈ extras → Denotes fval s (fval s)
  | str {s v} : Str s v → Denotes fval s (.str v)
  | empty {w} : Spaces w → Denotes fval ('[' :: (w ++ [']'])) (.arr [])
  | arr {w s l} : Spaces w → Elements fval s l → Denotes fval ('[' :: (w ++ (s ++ [']']))) (.arr l)
  | emptyObj {w} : Spaces w → Denotes fval ('{' :: (w ++ ['}'])) (.obj [])
  | obj {w s l} : Spaces w → Members fval s l → Denotes fval ('{' :: (w ++ (s ++ ['}']))) (.obj l)
/-- One or more elements of an array. -/
inductive Elements (fval : Text → Json) : Text → List Json → Prop where
  | one {s v w} : Denotes fval s v → Spaces w → Elements fval (s ++ w) [v]
  | more {s v w w' t l} : Denotes fval s v → Spaces w → Spaces w' → Elements fval t l → Elements fval (s ++ (w ++ ',' :: (w' ++ t))) (v :: l)
/-- One or more members of an object. -/
inductive Members (fval : Text → Json) : Text → List (Text × Json) → Prop where
  | one {q k w w' s v w''} : Str q k → Spaces w → Spaces w' → Denotes fval s v → Spaces w'' →
      Members fval (q ++ (w ++ ':' :: (w' ++ (s ++ w'')))) [(k, v)]
  | more {q k w w' s v w'' w3 t l} : Str q k → Spaces w → Spaces w' → Denotes fval s v → Spaces w'' → Spaces w3 → Members fval t l →
      Members fval (q ++ (w ++ ':' :: (w' ++ (s ++ (w'' ++ ',' :: (w3 ++ t)))))) ((k, v) :: l)
end

/-- A whole text. -/
def Document (fval : Text → Json) (s : Text) (v : Json) : Prop := ∃ w t w', s = w ++ (t ++ w') ∧ Spaces w ∧ Denotes fval t v ∧ Spaces w'

mutual
/-- The floating point numbers in a value. -/
def floats : Json → List (Option Int × Nat)
  | .flt a t => [(a, t)]
  | .arr l => floatsList l
  | .obj l => floatsObj l
  | _ => []
/-- Those in the elements of a list. -/
def floatsList : List Json → List (Option Int × Nat)
  | [] => []
  | v :: l => floats v ++ floatsList l
/-- Those in the members of a dict. -/
def floatsObj : List (Text × Json) → List (Option Int × Nat)
  | [] => []
  | (_, v) :: l => floats v ++ floatsObj l
end

/-- What is needed of floating point numbers: their texts are literals that stand for them. -/
def FloatsRead (ftext : Option Int → Nat → Text) (fval : Text → Json) (l : List (Option Int × Nat)) : Prop :=
  ∀ x ∈ l, fval (ftext x.1 x.2) = .flt x.1 x.2 ∧ (FloatLit (ftext x.1 x.2) ∨ ftext x.1 x.2 ∈ extras)

/-- Characters that can be printed, of ASCII. -/
def Printable (s : Text) : Prop := ∀ c ∈ s, 32 ≤ c.toNat ∧ c.toNat ≤ 126

/-- Values whose texts end with a closing character: strings, lists and objects. -/
def Closed : Json → Prop
  | .str _ | .arr _ | .obj _ => True
  | _ => False

end Verif.JsonText
