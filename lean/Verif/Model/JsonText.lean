import Verif.Py.Json
/-!
JSON as text: `json.dumps` and `json.loads` of the standard library with their default arguments, as the agent calls them
(`dataplicity/jsonrpc.py:133, 180, 205`, `dataplicity/m2m/remoteprocess.py:110`, `dataplicity/m2m/wsclient.py:366`, `dataplicity/directory_scanner.py:75`).

Of floating point numbers only their literals are known: `ftext` gives the literal that Python writes for one, `fval` the number that a literal stands
for.  Text has no lone surrogates (see DESIGN.md): where Python would give one, `loads` gives `none`, as for an exception.  Not modelled: the limit for
the digits of a number, the recursion limit.
-/
namespace Verif.JsonText
open Verif

/-! ### `json.dumps` -/

/-- A digit to the base 16 (jsonrpc.py:180, `'\\u{0:04x}'.format(n)`). -/
def hexDigit (n : Nat) : Char := if n < 10 then Char.ofNat (48 + n) else Char.ofNat (87 + n)

/-- `'\\u{0:04x}'.format(n)` (jsonrpc.py:180, `py_encode_basestring_ascii`). -/
def unicodeEscape (n : Nat) : Text :=
  ['\\', 'u', hexDigit (n / 4096 % 16), hexDigit (n / 256 % 16), hexDigit (n / 16 % 16), hexDigit (n % 16)]

/-- One character of a string (jsonrpc.py:180, `ESCAPE_ASCII`, `ESCAPE_DCT`, `py_encode_basestring_ascii`). -/
def escapeChar (c : Char) : Text :=
  if c = '"' then ['\\', '"']
  else if c = '\\' then ['\\', '\\']
  else if c = '\n' then ['\\', 'n']
  else if c = '\r' then ['\\', 'r']
  else if c = '\t' then ['\\', 't']
  else if c.toNat = 12 then ['\\', 'f']
  else if c.toNat = 8 then ['\\', 'b']
  else if 32 ≤ c.toNat ∧ c.toNat ≤ 126 then [c]
  else if c.toNat < 65536 then unicodeEscape c.toNat
  else unicodeEscape (55296 + (c.toNat - 65536) / 1024) ++ unicodeEscape (56320 + (c.toNat - 65536) % 1024)

/-- A string (jsonrpc.py:180). -/
def dumpString (s : Text) : Text := '"' :: (s.flatMap escapeChar ++ ['"'])

/-- `repr` of a number that is not negative, with enough fuel (jsonrpc.py:180). -/
def natTextF : Nat → Nat → Text
  | 0, _ => []
  | f + 1, n => if n < 10 then [Char.ofNat (48 + n)] else natTextF f (n / 10) ++ [Char.ofNat (48 + n % 10)]

/-- `int.__repr__` (jsonrpc.py:180). -/
def dumpInt (i : Int) : Text := if i < 0 then '-' :: natTextF (i.natAbs + 1) i.natAbs else natTextF (i.natAbs + 1) i.natAbs

/-- `null` (jsonrpc.py:180). -/
def sNull : Text := "null".toList
/-- `true` (jsonrpc.py:180). -/
def sTrue : Text := "true".toList
/-- `false` (jsonrpc.py:180). -/
def sFalse : Text := "false".toList

mutual
/-- `json.dumps` (jsonrpc.py:180). -/
def dumps (ftext : Option Int → Nat → Text) : Json → Text
  | .null => sNull
  | .bool true => sTrue
  | .bool false => sFalse
  | .int i => dumpInt i
  | .flt a t => ftext a t
  | .str s => dumpString s
  | .arr [] => ['[', ']']
  | .arr (v :: l) => '[' :: (dumps ftext v ++ dumpsList ftext l)
  | .obj [] => ['{', '}']
  | .obj ((k, v) :: l) => '{' :: (dumpString k ++ ':' :: ' ' :: (dumps ftext v ++ dumpsObj ftext l))
/-- The rest of a list (jsonrpc.py:180). -/
def dumpsList (ftext : Option Int → Nat → Text) : List Json → Text
  | [] => [']']
  | v :: l => ',' :: ' ' :: (dumps ftext v ++ dumpsList ftext l)
/-- The rest of a dict (jsonrpc.py:180). -/
def dumpsObj (ftext : Option Int → Nat → Text) : List (Text × Json) → Text
  | [] => ['}']
  | (k, v) :: l => ',' :: ' ' :: (dumpString k ++ ':' :: ' ' :: (dumps ftext v ++ dumpsObj ftext l))
end

/-! ### `json.loads` -/

/-- White space (jsonrpc.py:205, `WHITESPACE`). -/
def isWs (c : Char) : Bool := c == ' ' || c == '\t' || c == '\n' || c == '\r'

/-- (jsonrpc.py:205) -/
def skipWs (s : Text) : Text := s.dropWhile isWs

/-- A digit to the base 16 (jsonrpc.py:205, `HEXDIGITS`). -/
def hexVal (c : Char) : Option Nat :=
  if 48 ≤ c.toNat ∧ c.toNat ≤ 57 then some (c.toNat - 48)
  else if 97 ≤ c.toNat ∧ c.toNat ≤ 102 then some (c.toNat - 87)
  else if 65 ≤ c.toNat ∧ c.toNat ≤ 70 then some (c.toNat - 55)
  else none

/-- Four digits to the base 16 (jsonrpc.py:205, `_decode_uXXXX`). -/
def hex4 (a b c d : Char) : Option Nat :=
  match hexVal a, hexVal b, hexVal c, hexVal d with
  | some a, some b, some c, some d => some (a * 4096 + b * 256 + c * 16 + d)
  | _, _, _, _ => none

/-- The characters that a backslash stands before, other than `u` (jsonrpc.py:205, `BACKSLASH`). -/
def unescape (c : Char) : Option Char :=
  if c = '"' then some '"' else if c = '\\' then some '\\' else if c = '/' then some '/' else if c = 'b' then some (Char.ofNat 8)
  else if c = 'f' then some (Char.ofNat 12) else if c = 'n' then some '\n' else if c = 'r' then some '\r' else if c = 't' then some '\t' else none

/-- `scanstring` (jsonrpc.py:205): the text up to the closing quote, and what follows. -/
def scanString : Text → Option (Text × Text)
  | [] => none
  | '"' :: r => some ([], r)
  | '\\' :: 'u' :: a :: b :: c :: d :: r =>
    match hex4 a b c d with
    | none => none
    | some n =>
      if 55296 ≤ n ∧ n ≤ 56319 then
        match r with
        | '\\' :: 'u' :: e :: f :: g :: h :: r' => match hex4 e f g h with
          | none => none
          | some m =>
            if 56320 ≤ m ∧ m ≤ 57343 then
              (scanString r').map fun x => (Char.ofNat (65536 + (n - 55296) * 1024 + (m - 56320)) :: x.1, x.2)
            else none
        | _ => none
      else if 56320 ≤ n ∧ n ≤ 57343 then none
      else (scanString r).map fun x => (Char.ofNat n :: x.1, x.2)
  | '\\' :: c :: r =>
    match unescape c with
    | none => none
    | some x => (scanString r).map fun y => (x :: y.1, y.2)
  | c :: r => if c.toNat < 32 || c == '\\' then none else (scanString r).map fun x => (c :: x.1, x.2)

/-- (jsonrpc.py:205, `NUMBER_RE`) -/
def isDigit (c : Char) : Bool := 48 ≤ c.toNat && c.toNat ≤ 57

/-- The number that decimal digits stand for (jsonrpc.py:205, `int`). -/
def digitsVal (s : Text) : Nat := s.foldl (fun n c => 10 * n + (c.toNat - 48)) 0

/-- `-?` (jsonrpc.py:205, `NUMBER_RE`). -/
def signPart : Text → Text × Text
  | '-' :: r => (['-'], r)
  | s => ([], s)

/-- `0|[1-9][0-9]*` (jsonrpc.py:205, `NUMBER_RE`). -/
def intPart : Text → Option (Text × Text)
  | '0' :: r => some (['0'], r)
  | s => if (s.takeWhile isDigit).isEmpty then none else some (s.takeWhile isDigit, s.dropWhile isDigit)

/-- `(\.[0-9]+)?` (jsonrpc.py:205, `NUMBER_RE`). -/
def fracPart : Text → Text × Text
  | '.' :: r => if (r.takeWhile isDigit).isEmpty then ([], '.' :: r) else ('.' :: r.takeWhile isDigit, r.dropWhile isDigit)
  | s => ([], s)

/-- `[-+]?` (jsonrpc.py:205, `NUMBER_RE`). -/
def expSign : Text → Text × Text
  | c :: r => if c = '+' ∨ c = '-' then ([c], r) else ([], c :: r)
  | [] => ([], [])

/-- `([eE][-+]?[0-9]+)?` (jsonrpc.py:205, `NUMBER_RE`). -/
def expPart : Text → Text × Text
  | [] => ([], [])
  | c :: r =>
    if c = 'e' ∨ c = 'E' then
      if ((expSign r).2.takeWhile isDigit).isEmpty then ([], c :: r)
      else (c :: ((expSign r).1 ++ (expSign r).2.takeWhile isDigit), (expSign r).2.dropWhile isDigit)
    else ([], c :: r)

/-- A number (jsonrpc.py:205, `NUMBER_RE`, `_scan_once`). -/
def number (fval : Text → Json) (s : Text) : Option (Json × Text) :=
  let sg := signPart s
  match intPart sg.2 with
  | none => none
  | some (i, r) =>
    let f := fracPart r
    let e := expPart f.2
    if f.1.isEmpty && e.1.isEmpty then
      some (.int (if sg.1.isEmpty then (digitsVal i : Int) else -(digitsVal i : Int)), e.2)
    else some (fval (sg.1 ++ i ++ f.1 ++ e.1), e.2)

/-- The constants, with those that only Python reads (jsonrpc.py:205, `_scan_once`, `_CONSTANTS`). -/
def constants (fval : Text → Json) : List (Text × Json) :=
  [(sNull, .null), (sTrue, .bool true), (sFalse, .bool false), ("NaN".toList, fval "NaN".toList),
   ("Infinity".toList, fval "Infinity".toList), ("-Infinity".toList, fval "-Infinity".toList)]

/-- The beginning of a text, and the rest (jsonrpc.py:205, `string[idx:idx + 4] == 'null'`). -/
def strip : Text → Text → Option Text
  | [], s => some s
  | a :: p, b :: s => if a = b then strip p s else none
  | _ :: _, [] => none

/-- A constant (jsonrpc.py:205, `_scan_once`). -/
def constant : List (Text × Json) → Text → Option (Json × Text)
  | [], _ => none
  | (t, v) :: l, s => match strip t s with
    | some r => some (v, r)
    | none => constant l s

mutual
/-- `_scan_once` with fuel (jsonrpc.py:205): a value and what follows. -/
def value (fval : Text → Json) : Nat → Text → Option (Json × Text)
  | 0, _ => none
  | n + 1, s => match s with
    | '"' :: r => (scanString r).map fun x => (.str x.1, x.2)
    | '[' :: r => match skipWs r with
      | ']' :: r' => some (.arr [], r')
      | r' => (elements fval n r').map fun x => (.arr x.1, x.2)
    | '{' :: r => match skipWs r with
      | '}' :: r' => some (.obj [], r')
      | r' => (members fval n r').map fun x => (.obj x.1, x.2)
    | s => (constant (constants fval) s).or (number fval s)
/-- `JSONArray` after the bracket (jsonrpc.py:205). -/
def elements (fval : Text → Json) : Nat → Text → Option (List Json × Text)
  | 0, _ => none
  | n + 1, s => match value fval n s with
    | none => none
    | some (v, r) => match skipWs r with
      | ']' :: r' => some ([v], r')
      | ',' :: r' => (elements fval n (skipWs r')).map fun x => (v :: x.1, x.2)
      | _ => none
/-- `JSONObject` after the bracket (jsonrpc.py:205). -/
def members (fval : Text → Json) : Nat → Text → Option (List (Text × Json) × Text)
  | 0, _ => none
  | n + 1, s => match s with
    | '"' :: r => match scanString r with
      | none => none
      | some (k, r1) => match skipWs r1 with
        | ':' :: r2 => match value fval n (skipWs r2) with
          | none => none
          | some (v, r3) => match skipWs r3 with
            | '}' :: r4 => some ([(k, v)], r4)
            | ',' :: r4 => (members fval n (skipWs r4)).map fun x => ((k, v) :: x.1, x.2)
            | _ => none
        | _ => none
    | _ => none
end

/-- `json.loads` (jsonrpc.py:205, `JSONDecoder.decode`). -/
def loads (fval : Text → Json) (s : Text) : Option Json :=
  match value fval (s.length + 1) (skipWs s) with
  | none => none
  | some (v, r) => if (skipWs r).isEmpty then some v else none

/-! ### `json.loads` of bytes -/

/-- The encodings that `json.detect_encoding` tells apart (remoteprocess.py:110). -/
inductive Enc where
  | utf8
  | utf8sig
  | utf16
  | utf16be
  | utf16le
  | utf32
  | utf32be
  | utf32le
  deriving DecidableEq, Repr

/-- The last part of `json.detect_encoding`, for texts without a byte order mark (remoteprocess.py:110). -/
def detectPlain : Bytes → Enc
  | a :: b :: c :: d :: _ =>
    if a = 0 then (if b ≠ 0 then .utf16be else .utf32be)
    else if b = 0 then (if c ≠ 0 ∨ d ≠ 0 then .utf16le else .utf32le)
    else .utf8
  | [a, b] => if a = 0 then .utf16be else if b = 0 then .utf16le else .utf8
  | _ => .utf8

/-- `json.detect_encoding` (remoteprocess.py:110). -/
def detectEncoding (data : Bytes) : Enc :=
  if [0, 0, 254, 255].isPrefixOf data || [255, 254, 0, 0].isPrefixOf data then .utf32
  else if [254, 255].isPrefixOf data || [255, 254].isPrefixOf data then .utf16
  else if [239, 187, 191].isPrefixOf data then .utf8sig
  else detectPlain data

/-- `json.loads(data)` for bytes (remoteprocess.py:110, Python 3.6 and later); `other` decodes the encodings other than UTF-8. -/
def loadsBytes (fval : Text → Json) (other : Enc → Bytes → Option Text) (data : Bytes) : Option Json :=
  match detectEncoding data with
  | .utf8 => (utf8Decode data).bind (loads fval)
  | e => (other e data).bind (loads fval)

end Verif.JsonText
