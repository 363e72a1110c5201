import Verif.Model.Packets
/-!
Model of `dataplicity/m2m/dispatcher.py`, and of the part of `dataplicity/m2m/wsclient.py` that turns a websocket message into a
handler call.
-/
namespace Verif.Dispatcher
open Verif Packets

/-- A method marked with `@expose`: the packet number and its parameters after `self, packet_type`.  (dispatcher.py:24-30) -/
structure Handler where
  num : Nat
  params : List String
  deriving DecidableEq, Repr

/-- `_packet_handlers` as filled by `_init_dispatcher` (dispatcher.py:63-70) from the exposed methods of `WSClient`
(wsclient.py:373-497). -/
def handlers : List Handler :=
  [⟨0, []⟩,                                                                 -- handle_null
   ⟨9, ["identity"]⟩,                                                       -- handle_set_identity
   ⟨7, ["data"]⟩,                                                           -- handle_ping
   ⟨3, []⟩,                                                                 -- handle_welcome
   ⟨4, ["msg"]⟩,                                                            -- handle_log
   ⟨6, ["channel", "data"]⟩,                                                -- handle_route
   ⟨21, ["channel", "data"]⟩,                                               -- handle_route_control
   ⟨14, ["channel_no"]⟩,                                                    -- on_notify_open
   ⟨19, ["channel_no"]⟩,                                                    -- on_notify_close
   ⟨17, ["user"]⟩,                                                          -- on_login_success
   ⟨100, ["command_id", "result"]⟩,                                         -- on_response
   ⟨16, ["sender", "data"]⟩,                                                -- on_instruction_packet
   ⟨24, ["upload_id", "path"]⟩,                                             -- on_open_remote_file
   ⟨26, ["upload_id"]⟩,                                                     -- on_close_remote_file
   ⟨27, ["upload_id", "offset", "size"]⟩,                                   -- on_read_remote_file
   ⟨29, []⟩,                                                                -- on_scan_remote_directory
   ⟨31, ["id", "path", "device_path", "offset", "data", "final"]⟩]          -- on_write_remote_file

/-- What happens to a message: a handler is called with arguments, it is dropped with a log entry, an exception leaves `on_event`,
or the decoder never comes back.  (dispatcher.py:85-109, wsclient.py:320-353) -/
inductive Disp where
  | call (num : Nat) (args : List PyVal)
  | dropped
  | raised
  | hang
  deriving DecidableEq, Repr

/-- `inspect.getcallargs(method, packet_type, *args, **kwargs)` does not raise (dispatcher.py:100). -/
def callable (params : List String) (args : List PyVal) (kwargs : List (String × PyVal)) : Bool :=
  args.length ≤ params.length && (params.drop args.length).all (fun p => kwargs.any (fun kv => kv.1 == p)) &&
    kwargs.all (fun kv => (params.drop args.length).contains kv.1)

/-- The values the parameters after `packet_type` receive from `method(packet_type, *args, **kwargs)` (dispatcher.py:105). -/
def bind (params : List String) (args : List PyVal) (kwargs : List (String × PyVal)) : List PyVal :=
  args ++ (params.drop args.length).filterMap (fun p => getParam p kwargs)

/-- `dispatch_packet` (dispatcher.py:85-109).  `getfullargspec(method)[0]` contains `self` and `packet_type` as well, hence
the `+ 2`. -/
def dispatchPacket (p : Packet) : Disp :=
  match handlers.find? (fun h => h.num == p.cls.num) with
  | none => .dropped
  | some h =>
    let (args, kwargs) := methodArgs p (h.params.length + 2)
    if callable h.params args kwargs then .call h.num (bind h.params args kwargs) else .raised

/-- `dispatch` (dispatcher.py:72-83).  Error messages are not modelled (`repr` is irrelevant). -/
def dispatch (n : Int) (body : List PyVal) : Disp :=
  match create (fun _ => "") n body [] with
  | .error _ => .raised
  | .ok p => dispatchPacket p

/-- The second half of `on_packet` (wsclient.py:348-353): `PacketType(packet_type)` finds a member only for its number. -/
def byType (t : PyVal) (body : List PyVal) : Disp :=
  match t with
  | .int n => if packetTypes.any (fun e => decide ((e.2 : Int) = n)) then dispatch n body else .dropped
  | _ => .dropped

/-- `on_packet` (wsclient.py:340-353).  Indexing and slicing work on lists and on byte strings (whose items are ints); they raise
for the other values `decode` can return (`None`, ints, and dicts, which do not take slices) and for empty ones. -/
def onPacket : PyVal → Disp
  | .list (t :: body) => byType t body
  | .bytes (t :: body) => byType (.int t.toNat) (body.map fun b => .int b.toNat)
  | _ => .dropped

/-- `on_binary` (wsclient.py:320-328).  Every exception of `bencode.decode` is logged and the message dropped. -/
def onBinary (data : Bytes) : Disp :=
  match Bencode.decode data with
  | .ok v => onPacket v
  | .raise _ => .dropped
  | .hang => .hang

end Verif.Dispatcher
