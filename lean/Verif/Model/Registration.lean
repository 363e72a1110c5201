import Verif.Model.WSClient
/-!
How packets find their class by name (`dataplicity/m2m/packets.py:144-148`, `dataplicity/m2m/wsclient.py:291-301`), and how the methods of an object
become handlers of packets (`Dispatcher.__init__`, `_init_dispatcher`, `disable`, `dataplicity/m2m/dispatcher.py:24-109`), for any object.
Not modelled: the log; types that are no numbers given to `dispatch` (dispatcher.py:76-77: the decoder gives numbers only); a dispatcher without a
packet class (dispatcher.py:78-80).
-/
namespace Verif.Packets
open Verif

/-- What a packet type may be given as: a number (a member of `PacketType` is one), text, or bytes.  (packets.py:146, wsclient.py:293) -/
inductive TypeArg where
  | num (n : Int)
  | text (s : String)
  | bytes (b : Bytes)

/-- `process_packet_type` (packets.py:144-148); `none` is the `KeyError` of `PacketType[packet_type]`.  The names of an enumeration are text. -/
def processType : TypeArg → Option Int
  | .num n => some n
  | .text s => (packetTypes.find? (fun e => e.1 == s)).map (fun e => (e.2 : Int))
  | .bytes _ => none

/-- `M2MPacket.create` (packetbase.py:80-86) with any packet type; `none` is the `KeyError`. -/
def createBy (r : PyVal → String) (t : TypeArg) (args : List PyVal) (kwargs : List (String × PyVal)) : Option (Except PErr Packet) :=
  (processType t).map fun n => create r n args kwargs

/-- `WSClient.send` (wsclient.py:291-301): the bytes given to the websocket; `none` if it raises. -/
def sendBy (t : TypeArg) (args : List PyVal) (kwargs : List (String × PyVal)) : Option Bytes :=
  match createBy (fun _ => "") t args kwargs with
  | some (.ok p) => match encodeBinary p with
    | .ok d => some d
    | .error _ => none
  | _ => none

end Verif.Packets

namespace Verif.Dispatcher
open Verif Packets

/-- An attribute of the handler instance: its name, and what `expose` noted if it is a marked method.  (dispatcher.py:24-30, 64-69) -/
structure Attr where
  name : Text
  exposed : Option Handler
  deriving DecidableEq

/-- `_packet_handlers` (dispatcher.py:52). -/
abbrev Handlers := Nat → Option Attr

/-- One round of the loop of `_init_dispatcher` (dispatcher.py:65-70). -/
def note (d : Handlers) (a : Attr) : Handlers :=
  if a.name.head? = some '_' then d
  else match a.exposed with
    | none => d
    | some h => fun n => if n = h.num then some a else d n

/-- `_init_dispatcher` (dispatcher.py:63-70); `dir` are the attributes in the order in which `dir()` gives their names. -/
def register (dir : List Attr) : Handlers := dir.foldl note (fun _ => none)

/-- The two variables of a dispatcher (dispatcher.py:52-54). -/
structure Table where
  handlers : Handlers
  enabled : Bool

/-- `__init__` (dispatcher.py:41-54). -/
def Table.init (dir : List Attr) : Table := ⟨register dir, true⟩

/-- `disable` (dispatcher.py:59-62). -/
def Table.disable (_ : Table) : Table := ⟨fun _ => none, false⟩

/-- What comes of a packet: a method is called, `on_missing_handler` is called, nothing, or an exception.  (dispatcher.py:72-109) -/
inductive Outcome where
  | call (method : Text) (num : Nat) (args : List PyVal)
  | missing
  | nothing
  | raised
  deriving DecidableEq

/-- `dispatch_packet` (dispatcher.py:85-109). -/
def Table.dispatchPacket (t : Table) (p : Packet) : Outcome :=
  match t.handlers p.cls.num with
  | none => .missing
  | some a => match a.exposed with
    | none => .missing
    | some h =>
      let (args, kwargs) := methodArgs p (h.params.length + 2)
      if callable h.params args kwargs then .call a.name h.num (bind h.params args kwargs) else .raised

/-- `dispatch` (dispatcher.py:72-83). -/
def Table.dispatch (t : Table) (n : Int) (body : List PyVal) : Outcome :=
  if t.enabled then match create (fun _ => "") n body [] with
    | .error _ => .raised
    | .ok p => t.dispatchPacket p
  else .nothing

/-- The names of the exposed methods of `WSClient`, in the order of `handlers`.  (wsclient.py:373-497) -/
def methodNames : List Text :=
  ["handle_null".toList, "handle_set_identity".toList, "handle_ping".toList, "handle_welcome".toList, "handle_log".toList,
   "handle_route".toList, "handle_route_control".toList, "on_notify_open".toList, "on_notify_close".toList, "on_login_success".toList,
   "on_response".toList, "on_instruction_packet".toList, "on_open_remote_file".toList, "on_close_remote_file".toList,
   "on_read_remote_file".toList, "on_scan_remote_directory".toList, "on_write_remote_file".toList]

/-- The exposed methods of `WSClient` (wsclient.py:373-497). -/
def clientAttrs : List Attr := (methodNames.zip handlers).map fun x => ⟨x.1, some x.2⟩

end Verif.Dispatcher
