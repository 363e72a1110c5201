import Verif.Model.WSClient
/-!
Limits of the Python interpreter, as they act on `dataplicity/m2m/bencode.py` and on `on_binary` of `dataplicity/m2m/wsclient.py`: how deep
calls may be nested (`RecursionError`), and how many digits a number may have that is converted from or to text (`ValueError`, since
Python 3.10.7).  Model/Bencode.lean leaves these limits out.
-/
namespace Verif.Limits
open Verif Bencode

/-- The limits.  `depth`: how many calls may still be nested where `bencode` is called (`sys.getrecursionlimit()` less the calls that lead
there; calls of built-in functions are not counted); `digits`: `sys.get_int_max_str_digits()`, `none` if there is no limit.  (bencode.py:65, 102, 122, 127, 135, 138, 148) -/
structure Limits where
  depth : Nat
  digits : Option Nat

/-- A number of `n` digits is not converted.  Python never refuses 640 digits or fewer.  (bencode.py:74, 122, 148) -/
def tooLong (lim : Limits) (n : Nat) : Bool := match lim.digits with
  | none => false
  | some m => decide (640 < n) && decide (m < n)

/-- `int(bytes)` (bencode.py:122, 148); signs, white space and underscores are not counted as digits. -/
def intL (lim : Limits) (bs : Bytes) : Option Int := if tooLong lim (bs.filter isDigitB).length then none else pyInt bs

/-- Result of the reader.  (bencode.py:105-149) -/
inductive LRes where
  | ok (v : PyVal) (rest : Bytes)
  | raise (e : Err)
  | recursion
  | out
  deriving DecidableEq, Repr

/-- `readN` (bencode.py:149). -/
def readNL (size : Int) (inp : Bytes) : LRes := match readN size inp with
  | .ok v r => .ok v r
  | .raise e => .raise e
  | .out => .out

/-- The digit loop of an integer (bencode.py:114-123), as `readInt`. -/
def readIntL (lim : Limits) (acc : Bytes) : Bytes → LRes
  | [] => .raise .decode
  | c :: r =>
    if !isDigitB c && c != 45 then
      if c != 101 then .raise .decode
      else match intL lim acc with
        | some i => .ok (.int i) r
        | none => .raise .value
    else readIntL lim (acc ++ [c]) r

/-- The loop reading the length of a byte string (bencode.py:142-149), as `sizeLoop`. -/
def sizeLoopL (lim : Limits) : Nat → Bytes → Bytes → LRes
  | 0, _, _ => .out
  | n + 1, acc, [] => sizeLoopL lim n acc []
  | n + 1, acc, c :: r =>
    if c == 58 then
      match intL lim acc with
      | some size => readNL size r
      | none => .raise .value
    else sizeLoopL lim n (acc ++ [c]) r

mutual
/-- `_decode(read)` (bencode.py:105-149), if `d` calls may be nested here, this one included.  The first number is fuel, as in `decodeF`. -/
def decodeL (lim : Limits) : Nat → Nat → Bytes → LRes
  | 0, _, _ => .out
  | _ + 1, 0, _ => .recursion
  | _ + 1, _ + 1, [] => .raise .decode
  | n + 1, d + 1, t :: r =>
    if t == 101 then .ok .none r
    else if t == 105 then readIntL lim [] r
    else if t == 108 then listLoopL lim n d [] r
    else if t == 100 then dictLoopL lim n d [] r
    else sizeLoopL lim n [t] r
/-- The loop of a list (bencode.py:125-131), as `listLoop`. -/
def listLoopL (lim : Limits) : Nat → Nat → List PyVal → Bytes → LRes
  | 0, _, _, _ => .out
  | n + 1, d, acc, inp =>
    match decodeL lim n d inp with
    | .ok v r => if isNone v then .ok (.list acc) r else listLoopL lim n d (acc ++ [v]) r
    | .raise e => .raise e
    | .recursion => .recursion
    | .out => .out
/-- The loop of a dict (bencode.py:133-140), as `dictLoop`. -/
def dictLoopL (lim : Limits) : Nat → Nat → List (PyVal × PyVal) → Bytes → LRes
  | 0, _, _, _ => .out
  | n + 1, d, acc, inp =>
    match decodeL lim n d inp with
    | .ok k r =>
      if isNone k then
        match mkDict acc with
        | some d => .ok (.dict d) r
        | none => .raise .unhashable
      else
        match decodeL lim n d r with
        | .ok v r' => dictLoopL lim n d (acc ++ [(k, v)]) r'
        | .raise e => .raise e
        | .recursion => .recursion
        | .out => .out
    | .raise e => .raise e
    | .recursion => .recursion
    | .out => .out
end

/-- What a call of `decode` does.  (bencode.py:99-102) -/
inductive LOutcome where
  | ok (v : PyVal)
  | raise (e : Err)
  | recursion
  | hang
  deriving DecidableEq, Repr

/-- `decode(data)` (bencode.py:99-102): the call of `decode` itself is the first of the nested ones. -/
def decode (lim : Limits) (data : Bytes) : LOutcome := match lim.depth with
  | 0 => .recursion
  | d + 1 => match decodeL lim (enough data) d data with
    | .ok v _ => .ok v
    | .raise e => .raise e
    | .recursion => .recursion
    | .out => .hang

mutual
/-- `add_encode` (bencode.py:65-90), as `addEncode`; the number is that of nested calls that are possible, this one included.  `none` in
place of an exception of the unlimited encoder is `RecursionError`. -/
def addEncodeL (lim : Limits) : Nat → PyVal → Except (Option Err) Bytes
  | 0, _ => .error none
  | _ + 1, .bytes b => .ok (encBytes b)
  | _ + 1, .text s => .ok (encBytes (utf8Encode s))
  | _ + 1, .bool b => .ok (105 :: (if b then asc "True" else asc "False") ++ [101])
  | _ + 1, .int i => if tooLong lim (decNat i.natAbs).length then .error (some .value) else .ok (105 :: decInt i ++ [101])
  | d + 1, .list xs => (addEncodeListL lim d xs).map fun b => 108 :: b ++ [101]
  | d + 1, .tuple xs => (addEncodeListL lim d xs).map fun b => 108 :: b ++ [101]
  | d + 1, .dict kvs => (addEncodeItemsL lim d kvs).map fun items =>
      100 :: (sortItems items).flatMap (fun kv => encBytes kv.1 ++ kv.2) ++ [101]
  | _ + 1, .none => .error (some .encoding)
  | _ + 1, .float _ => .error (some .encoding)
/-- The loop over list items (bencode.py:77-78). -/
def addEncodeListL (lim : Limits) : Nat → List PyVal → Except (Option Err) Bytes
  | _, [] => .ok []
  | d, x :: xs => do
    let a ← addEncodeL lim d x
    let b ← addEncodeListL lim d xs
    pure (a ++ b)
/-- The loop over dict items (bencode.py:83-87); `add_encode` is also called for the key. -/
def addEncodeItemsL (lim : Limits) : Nat → List (PyVal × PyVal) → Except (Option Err) (List (Bytes × Bytes))
  | _, [] => .ok []
  | 0, (.bytes _, _) :: _ => .error none
  | d + 1, (.bytes k, v) :: r => do
    let e ← addEncodeL lim (d + 1) v
    let es ← addEncodeItemsL lim (d + 1) r
    pure ((k, e) :: es)
  | _, _ :: _ => .error (some .encoding)
end

/-- `encode(obj)` (bencode.py:60-96), including `assert decode(bencode_data) is not None`; the limit counts the calls below `encode`. -/
def encode (lim : Limits) (obj : PyVal) : Except (Option Err) Bytes :=
  match addEncodeL lim lim.depth obj with
  | .error e => .error e
  | .ok data =>
    match decode lim data with
    | .ok v => if isNone v then .error (some .assertion) else .ok data
    | .raise e => .error (some e)
    | .recursion => .error none
    | .hang => .error (some .assertion)

/-- `on_binary` (wsclient.py:320-328): the `except:` there also takes the `RecursionError`. -/
def onBinary (lim : Limits) (data : Bytes) : Dispatcher.Disp := match decode lim data with
  | .ok v => Dispatcher.onPacket v
  | .raise _ => .dropped
  | .recursion => .dropped
  | .hang => .hang

/-- One step of the client, with limits for the messages it receives (wsclient.py:218-289).  The packets it sends are flat and have no
numbers but those it was given, so that the limits do not matter for them (C137). -/
def step (lim : Limits) (env : WSClient.Env) (s : WSClient.St) : WSClient.Ev → WSClient.St × List WSClient.Out
  | .binary data =>
    if s.hung then (s, []) else
    match onBinary lim data with
    | .hang => ({ s with hung := true }, [])
    | .dropped => (s, [])
    | .raised => (s, [.logged])
    | .call n args =>
      let r := WSClient.handle env s n args
      (r.1, r.2.1 ++ (if r.2.2 then [.logged] else []))
  | e => WSClient.step env s e

/-- A history of events (wsclient.py:263-268); the limits may be different for each. -/
def run (s : WSClient.St) : List (Limits × WSClient.Env × WSClient.Ev) → WSClient.St × List WSClient.Out
  | [] => (s, [])
  | (lim, env, e) :: es =>
    let r := step lim env s e
    let r' := run r.1 es
    (r'.1, r.2 ++ r'.2)

end Verif.Limits
