import Verif.Model.Bencode
/-!
Model of `dataplicity/m2m/packetbase.py` and `dataplicity/m2m/packets.py`.
-/
namespace Verif.Packets
open Verif

/-- The declared attribute types that occur in packets.py: `int`/`int_types`, `bytes`, `dict`, `list`.  (packets.py:156-519) -/
inductive AType where
  | int | bytes | dict | list
  deriving DecidableEq, Repr

/-- `isinstance(value, attrib_type)`; `bool` is a subclass of `int`, a tuple is not a list.  (packetbase.py:151) -/
def AType.has : AType → PyVal → Bool
  | .int, .int _ => true
  | .int, .bool _ => true
  | .bytes, .bytes _ => true
  | .dict, .dict _ => true
  | .list, .list _ => true
  | _, _ => false

/-- `type(value)`, as shown in error messages.  (packetbase.py:154) -/
def typeName : PyVal → String
  | .none => "NoneType"
  | .bool _ => "bool"
  | .int _ => "int"
  | .float _ => "float"
  | .bytes _ => "bytes"
  | .text _ => "str"
  | .list _ => "list"
  | .tuple _ => "tuple"
  | .dict _ => "dict"

/-- A packet class: number (`type`), class name and declared attributes.  (packetbase.py:46-50) -/
structure PClass where
  num : Nat
  name : String
  attrs : List (String × AType)
  deriving DecidableEq, Repr

/-- `PacketType` (packets.py:13-133). -/
def packetTypes : List (String × Nat) :=
  [("null", 0), ("request_join", 1), ("request_identify", 2), ("welcome", 3), ("log", 4), ("request_send", 5), ("route", 6),
   ("ping", 7), ("pong", 8), ("set_identity", 9), ("request_open", 10), ("request_close", 11), ("request_close_all", 12),
   ("keep_alive", 13), ("notify_open", 14), ("request_login", 15), ("instruction", 16), ("notify_login_success", 17),
   ("notify_login_fail", 18), ("notify_close", 19), ("request_leave", 20), ("route_control", 21), ("request_send_control", 22),
   ("open_remote_file", 24), ("open_remote_file_result", 25), ("close_remote_file", 26), ("read_remote_file", 27),
   ("read_remote_file_result", 28), ("scan_remote_directory", 29), ("scan_remote_directory_result", 30),
   ("write_remote_file", 31), ("write_remote_file_result", 32),
   ("response", 100), ("command_add_route", 101), ("command_send_instruction", 102), ("command_log", 103),
   ("command_broadcast_log", 104), ("command_set_name", 106), ("command_check_nodes", 107), ("command_get_identities", 108),
   ("command_set_auth", 109), ("command_set_meta", 110), ("command_get_meta", 111),
   ("peer_add_route", 200), ("peer_forward", 201), ("peer_notify_disconnect", 202), ("peer_notify_name", 203), ("peer_close_port", 204)]

/-- The packet classes in the order of their definition (packets.py:156-519). -/
def classes : List PClass :=
  [⟨0, "NullPacket", []⟩,
   ⟨1, "RequestJoinPacket", []⟩,
   ⟨2, "RequestIdentifyPacket", [("uuid", .bytes)]⟩,
   ⟨3, "WelcomePacket", []⟩,
   ⟨4, "LogPacket", [("text", .bytes)]⟩,
   ⟨5, "RequestSendPacket", [("channel", .int), ("data", .bytes)]⟩,
   ⟨13, "KeepAlivePacket", []⟩,
   ⟨6, "RoutePacket", [("channel", .int), ("data", .bytes)]⟩,
   ⟨21, "RouteControlPacket", [("channel", .int), ("data", .bytes)]⟩,
   ⟨22, "RequestSendControlPacket", [("channel", .int), ("data", .bytes)]⟩,
   ⟨7, "PingPacket", [("data", .bytes)]⟩,
   ⟨8, "PongPacket", [("data", .bytes)]⟩,
   ⟨9, "SetIdentityPacket", [("uuid", .bytes)]⟩,
   ⟨14, "NotifyOpenPacket", [("channel", .int)]⟩,
   ⟨15, "RequestLoginPacket", [("username", .bytes), ("password", .bytes)]⟩,
   ⟨17, "NotifyLoginSuccessPacket", [("user", .bytes)]⟩,
   ⟨18, "NotifyLoginFailPacket", [("message", .bytes)]⟩,
   ⟨19, "NotifyClosePacket", [("port", .int)]⟩,
   ⟨11, "RequestClosePacket", [("port", .int)]⟩,
   ⟨20, "RequestLeavePacket", []⟩,
   ⟨16, "InstructionPacket", [("sender", .bytes), ("data", .dict)]⟩,
   ⟨100, "CommandResponsePacket", [("command_id", .int), ("result", .dict)]⟩,
   ⟨101, "CommandAddRoutePacket", [("command_id", .int), ("node1", .bytes), ("port1", .int), ("node2", .bytes), ("port2", .int),
      ("requester", .bytes), ("forwarded", .int)]⟩,
   ⟨102, "CommandSendInstructionPacket", [("command_id", .int), ("node", .bytes), ("data", .dict)]⟩,
   ⟨103, "CommandLogPacket", [("command_id", .int), ("node", .bytes), ("text", .bytes)]⟩,
   ⟨104, "CommandBroadcastLogPacket", [("command_id", .int), ("text", .bytes)]⟩,
   ⟨106, "CommandSetName", [("command_id", .int), ("node", .bytes), ("name", .bytes)]⟩,
   ⟨107, "CommandCheckNodes", [("command_id", .int), ("nodes", .list)]⟩,
   ⟨108, "CommandGetIdentities", [("command_id", .int), ("nodes", .list)]⟩,
   ⟨109, "CommandSetAuth", [("command_id", .int), ("expire", .int), ("value", .bytes)]⟩,
   ⟨110, "CommandSetMeta", [("command_id", .int), ("requester", .bytes), ("node", .bytes), ("key", .bytes), ("value", .bytes)]⟩,
   ⟨111, "CommandGetMeta", [("command_id", .int), ("requester", .bytes), ("node", .bytes)]⟩,
   ⟨200, "PeerAddRoutePacket", [("command_id", .int), ("requester", .bytes), ("node1", .bytes), ("port1", .int), ("node2", .bytes),
      ("port2", .int)]⟩,
   ⟨201, "PeerForwardPacket", [("recipient", .bytes), ("packet", .bytes)]⟩,
   ⟨202, "PeerNotifyDisconnect", [("node", .bytes)]⟩,
   ⟨203, "PeerNotifyName", [("node", .bytes), ("name", .bytes)]⟩,
   ⟨204, "PeerClosePort", [("node", .bytes), ("port", .int)]⟩,
   ⟨24, "OpenRemoteFile", [("upload_id", .bytes), ("path", .bytes)]⟩,
   ⟨25, "OpenRemoteFileResult", [("upload_id", .bytes), ("size", .int), ("fail", .int), ("fail_reason", .bytes)]⟩,
   ⟨26, "CloseRemoteFile", [("upload_id", .bytes)]⟩,
   ⟨27, "ReadRemoteFile", [("upload_id", .bytes), ("offset", .int), ("size", .int)]⟩,
   ⟨28, "ReadRemoteFileResult", [("upload_id", .bytes), ("offset", .int), ("size", .int), ("data", .bytes), ("fail", .int),
      ("fail_reason", .bytes)]⟩,
   ⟨29, "ScanRemoteDirectory", []⟩,
   ⟨30, "ScanRemoteDirectoryResult", [("error", .bytes)]⟩,
   ⟨31, "WriteRemoteFile", [("id", .bytes), ("path", .bytes), ("device_path", .bytes), ("offset", .int), ("data", .bytes), ("final", .int)]⟩,
   ⟨32, "WriteRemoteFileResult", [("id", .bytes), ("position", .int), ("chunk_size", .int), ("device_path", .bytes), ("fail", .int),
      ("fail_reason", .bytes)]⟩]

/-- `PacketMeta.__new__` (packetbase.py:28-38) applied to the classes in order: registers each under its number;
`none` if the assertion that the number is free fails.  (The base class with `type = -1` is not registered.) -/
def registryOf (cs : List PClass) : Option (List (Nat × PClass)) :=
  cs.foldlM (fun reg c => if reg.any (fun e => e.1 == c.num) then none else some (reg ++ [(c.num, c)])) []

/-- `M2MPacket.registry` after all classes were defined.  (packets.py:141) -/
def registry : List (Nat × PClass) := (registryOf classes).getD []

/-- `registry.get(n)` (packetbase.py:83, 103). -/
def lookupClass (n : Int) : Option PClass := (registry.find? (fun e => decide ((e.1 : Int) = n))).map (·.2)

/-- A packet object: its class and its attribute values in the order of the declaration.  (packetbase.py:157) -/
structure Packet where
  cls : PClass
  vals : List PyVal
  deriving DecidableEq, Repr

/-- Why `PacketFormatError` was raised; the `repr` of the packet is part of the message.  (packetbase.py:94, 97, 100, 147, 152) -/
inductive FMsg where
  | badlyFormatted
  | notAList
  | firstNotInt
  | missing (attr : String) (repr : String)
  | wrongType (attr : String) (declared : AType) (repr : String) (actual : String)
  deriving DecidableEq, Repr

/-- Exceptions of the packet functions: the `PacketError` family (`format`, `unknown`) and the others.  (packetbase.py:13-22) -/
inductive PErr where
  | format (m : FMsg)
  | unknown
  | valueError
  | overflowError
  | typeError
  | indexError
  deriving DecidableEq, Repr

/-- Members of the `PacketError` family (packetbase.py:13-22). -/
def PErr.isPacketError : PErr → Bool
  | .format _ => true
  | .unknown => true
  | _ => false

/-- `params[k] = v`.  (packetbase.py:139, 143) -/
def setParam (k : String) (v : PyVal) : List (String × PyVal) → List (String × PyVal)
  | [] => [(k, v)]
  | (k', v') :: r => if k' = k then (k', v) :: r else (k', v') :: setParam k v r

/-- `params.get(k)`.  (packetbase.py:146, 150) -/
def getParam (k : String) : List (String × PyVal) → Option PyVal
  | [] => none
  | (k', v) :: r => if k' = k then some v else getParam k r

/-- `arg.encode("utf-8")` if it is text (packetbase.py:137-138, 141-142). -/
def convArg : PyVal → PyVal
  | .text s => .bytes (utf8Encode s)
  | v => v

/-- `summarize` inside `__repr__` (packetbase.py:64-70).  `r` is Python's `repr()` on values. -/
def summarize (r : PyVal → String) (key : String) (v : PyVal) : String :=
  if key = "password" then "********"
  else match v with
    | .bytes b =>
      if b.length > 32 then r (.bytes (b.take 32)) ++ " + " ++ toString (b.length - 32) ++ " bytes" else r v
    | _ => r v

/-- Insert by name.  (packetbase.py:73) -/
def insertNamed (x : String × PyVal) : List (String × PyVal) → List (String × PyVal)
  | [] => [x]
  | y :: ys => if x.1 < y.1 then x :: y :: ys else y :: insertNamed x ys

/-- `sorted(data.items())` (packetbase.py:73; the names are distinct, so values are never compared). -/
def sortNamed : List (String × PyVal) → List (String × PyVal)
  | [] => []
  | x :: xs => insertNamed x (sortNamed xs)

/-- `PacketBaseType.__repr__` (packetbase.py:56-75) of a packet of class `c` whose attributes set so far are `data`. -/
def reprData (r : PyVal → String) (c : PClass) (data : List (String × PyVal)) : String :=
  c.name ++ "(" ++ ", ".intercalate ((sortNamed data).map fun kv => kv.1 ++ "=" ++ summarize r kv.1 kv.2) ++ ")"

/-- `repr(packet)` of a finished packet.  (packetbase.py:56-75) -/
def reprPacket (r : PyVal → String) (p : Packet) : String :=
  reprData r p.cls ((p.cls.attrs.map (·.1)).zip p.vals)

/-- The attribute loop of `init_params` (packetbase.py:145-157).  `set` are the attributes set so far. -/
def checkAttrs (r : PyVal → String) (c : PClass) (params : List (String × PyVal)) :
    List (String × PyVal) → List (String × AType) → Except PErr (List PyVal)
  | _, [] => .ok []
  | set, (name, ty) :: rest =>
    match getParam name params with
    | none => .error (.format (.missing name (reprData r c set)))
    | some v =>
      if ty.has v then
        match checkAttrs r c params (set ++ [(name, v)]) rest with
        | .ok vs => .ok (v :: vs)
        | .error e => .error e
      else .error (.format (.wrongType name ty (reprData r c set) (typeName v)))

/-- The parameters collected by `init_params` (packetbase.py:134-143): positional arguments zipped with the attribute
names (surplus arguments are dropped), then keyword arguments. -/
def collect (c : PClass) (args : List PyVal) (kwargs : List (String × PyVal)) : List (String × PyVal) :=
  let p1 := ((c.attrs.map (·.1)).zip args).foldl (fun ps kv => setParam kv.1 (convArg kv.2) ps) []
  kwargs.foldl (fun ps kv => setParam kv.1 (convArg kv.2) ps) p1

/-- `packet_cls(*args, **kwargs)` (packetbase.py:52-54, 130-161; `validate` does nothing). -/
def construct (r : PyVal → String) (c : PClass) (args : List PyVal) (kwargs : List (String × PyVal)) : Except PErr Packet :=
  match checkAttrs r c (collect c args kwargs) [] c.attrs with
  | .ok vs => .ok ⟨c, vs⟩
  | .error e => .error e

/-- `M2MPacket.create(packet_type, *args, **kwargs)` with a number (packetbase.py:80-86). -/
def create (r : PyVal → String) (n : Int) (args : List PyVal) (kwargs : List (String × PyVal)) : Except PErr Packet :=
  match lookupClass n with
  | none => .error .valueError
  | some c => construct r c args kwargs

/-- `from_body` (packetbase.py:108-114). -/
def fromBody (r : PyVal → String) (c : PClass) (body : List PyVal) : Except PErr Packet :=
  construct r c [] ((c.attrs.map (·.1)).zip body)

/-- What a call does: return, raise or run for ever.  (packetbase.py:88-106) -/
inductive FB where
  | ok (p : Packet)
  | raise (e : PErr)
  | hang
  deriving DecidableEq, Repr

/-- `M2MPacket.from_bytes` (packetbase.py:88-106). Only `DecodeError` is caught around `bencode.decode`. -/
def fromBytes (r : PyVal → String) (data : Bytes) : FB :=
  match Bencode.decode data with
  | .hang => .hang
  | .raise .decode => .raise (.format .badlyFormatted)
  | .raise .value => .raise .valueError
  | .raise .overflow => .raise .overflowError
  | .raise .unhashable => .raise .typeError
  | .raise .encoding => .raise .valueError -- `decode` never raises these two
  | .raise .assertion => .raise .valueError
  | .ok (.list []) => .raise .indexError
  | .ok (.list (.int n :: body)) =>
    match lookupClass n with
    | none => .raise .unknown
    | some c => match fromBody r c body with
      | .ok p => .ok p
      | .error e => .raise e
  | .ok (.list (_ :: _)) => .raise (.format .firstNotInt)
  | .ok _ => .raise (.format .notAList)

/-- `packet.encode()` (packetbase.py:172-177). -/
def encodeList (p : Packet) : PyVal := .list (.int p.cls.num :: p.vals)

/-- `packet.as_bytes` / `encode_binary()` (packetbase.py:163-170). -/
def encodeBinary (p : Packet) : Except Bencode.Err Bytes := Bencode.encode (encodeList p)

/-- `get_method_args(arg_count)` (packetbase.py:123-128): the first attributes as positional arguments. The rest would be passed
as keyword arguments. -/
def methodArgs (p : Packet) (argCount : Nat) : List PyVal × List (String × PyVal) :=
  (p.vals.take argCount, ((p.cls.attrs.map (·.1)).zip p.vals).drop argCount)

end Verif.Packets
