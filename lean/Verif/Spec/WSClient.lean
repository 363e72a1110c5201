import Verif.Model.WSClient
import Verif.Spec.Packets
import Verif.Spec.Channel
/-!
Specification vocabulary for C14-C21, C26-C28 and C90.  Messages are described by what the bytes decode to, not by the dispatcher.
-/
namespace Verif.WSClient
open Verif Packets

/-- The packet types the client reacts to: null, welcome, log, route, ping, set identity, notify open, instruction, login success,
notify close, route control, open/close/read remote file, scan remote directory, write remote file, response. -/
def handledTypes : List Nat := [0, 3, 4, 6, 7, 9, 14, 16, 17, 19, 21, 24, 26, 27, 29, 31, 100]

/-- `v` is a list message: the number of class `c`, values of the declared types, and possibly surplus elements. -/
def ListMessage (v : PyVal) (c : PClass) (args : List PyVal) : Prop :=
  c ∈ classes ∧ Typed c.attrs args ∧ ∃ surplus, v = .list (.int c.num :: args ++ surplus)

/-- `v` is a byte string that reads like a list message when its bytes are taken as integers. -/
def ByteMessage (v : PyVal) (c : PClass) (args : List PyVal) : Prop :=
  c ∈ classes ∧ Typed c.attrs args ∧ ∃ (t : UInt8) (bs : Bytes) (surplus : List PyVal),
    v = .bytes (t :: bs) ∧ t.toNat = c.num ∧ bs.map (fun b => PyVal.int b.toNat) = args ++ surplus

/-- `m` is the wire form of the packet with number `n` and values `vals`. -/
def IsMessage (m : Bytes) (n : Nat) (vals : List PyVal) : Prop := Wire (.list (.int n :: vals)) m

/-- The bytes of a message that decodes to a list. -/
def decoded (data : Bytes) : List PyVal :=
  match Bencode.decode data with
  | .ok (.list xs) => xs
  | _ => []

/-- The bytes of a message that decodes to a byte string. -/
def decodedBytes (data : Bytes) : Bytes :=
  match Bencode.decode data with
  | .ok (.bytes xs) => xs
  | _ => []

/-- The decoder does not come back (see C05). -/
def Hangs (data : Bytes) : Prop := Bencode.decode data = .hang

/-- No event of the history is a message on which the decoder hangs, or one larger than any Python byte string. -/
def Fair (hist : List (Env × Ev)) : Prop := ∀ x ∈ hist, ∀ data, x.2 = .binary data → ¬ Hangs data ∧ data.length ≤ maxSize

/-- The identity a message assigns. -/
def assigned (data : Bytes) : Option Bytes :=
  match decoded data with
  | .int 9 :: .bytes id :: _ => some id
  | _ => none

/-- The event is a message that assigns identity `id`. -/
def Ev.assigns (e : Ev) (id : Bytes) : Prop := ∃ data, e = .binary data ∧ assigned data = some id

/-- The identity of the last successful announcement. -/
def lastAck : List Out → Option Bytes
  | [] => none
  | o :: os => match lastAck os with
    | some id => some id
    | none => match o with
      | .announce id true => some id
      | _ => none

/-- The output is an announcement. -/
def Out.isAnnounce : Out → Bool
  | .announce _ _ => true
  | _ => false

/-- The calls of command callback `cb`, in order. -/
def callsOf (cb : Nat) (outs : List Out) : List (Option PyVal) :=
  outs.filterMap fun | .cmdCall c r => if c = cb then some r else none | _ => none

/-- The command and the result of a response message. -/
def response (data : Bytes) : Option (Int × PyVal) :=
  match decoded data with
  | .int 100 :: .int id :: .dict r :: _ => some (id, .dict r)
  | _ => none

/-- The event is a response to command `id`. -/
def Ev.responds (e : Ev) (id : Int) (r : PyVal) : Prop := ∃ data, e = .binary data ∧ response data = some (id, r)

/-- What the websocket and the services do to channel `n`: data, control, disconnect, and calls of its methods. -/
def opsFor (n : Int) : Ev → List Channel.Op
  | .binary data => match decoded data with
    | .int 6 :: .int m :: .bytes d :: _ => if m = n then [.data d] else []
    | .int 21 :: .int m :: .bytes d :: _ => if m = n then [.control d] else []
    | _ => []
  | .disconnected => [.onClose]
  | .chanOp m op => if m = n ∧ serviceOp op then [op] else []
  | _ => []

/-- The server says that channel `n` is open (as a list, or as a byte string, see C14). -/
def opens (n : Int) (data : Bytes) : Prop :=
  (∃ surplus, decoded data = .int 14 :: .int n :: surplus) ∨ (∃ b r, decodedBytes data = 14 :: b :: r ∧ (b.toNat : Int) = n)

/-- The server says that channel `n` is closed. -/
def closes (n : Int) (data : Bytes) : Prop :=
  (∃ surplus, decoded data = .int 19 :: .int n :: surplus) ∨ (∃ b r, decodedBytes data = 19 :: b :: r ∧ (b.toNat : Int) = n)

/-- The event concerns channel number `n` in a way that may create it. -/
def mentions (n : Int) : Ev → Prop
  | .binary data => opsFor n (.binary data) ≠ [] ∨ opens n data
  | .getChannel m => m = n
  | _ => False

/-- The calls of a callback registered for command `id` that the code makes: `None` at every disconnect, the result at the first
response, nothing afterwards. -/
def callsMade (id : Int) : List Ev → List (Option PyVal)
  | [] => []
  | .disconnected :: es => none :: callsMade id es
  | .binary data :: es => match response data with
    | some (i, r) => if i = id then [some r] else callsMade id es
    | none => callsMade id es
  | _ :: es => callsMade id es

/-- The calls of a callback registered for command `id` that are wanted: `None` at the first disconnect or the result at the first
response, whichever comes first. -/
def callsWanted (id : Int) : List Ev → List (Option PyVal)
  | [] => []
  | .disconnected :: _ => [none]
  | .binary data :: es => match response data with
    | some (i, r) => if i = id then [some r] else callsWanted id es
    | none => callsWanted id es
  | _ :: es => callsWanted id es

/-- The callbacks called and the results returned by channel `n`. -/
def seenBy (n : Int) (outs : List Out) : List Channel.Out := outs.filterMap fun | .chan m o => if m = n then some o else none | _ => none

/-- The callbacks and results among the outputs of a channel. -/
def local' (os : List Channel.Out) : List Channel.Out := os.filter fun o => !Channel.isSend o

end Verif.WSClient
