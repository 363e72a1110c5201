import Verif.Py.Text
/-!
Models of the small modules that look at the device: `tags.py`, `rpi.py`, `iptool.py`, `device_meta.py`, `disk_tools.py`, `clockcheck.py`
and the limits in `constants.py`.
-/
namespace Verif.Device
open Verif

/-! ### tags.py -/

/-- What happens when the tag script is run (tags.py 28-34). -/
inductive Script where
  | missing
  | osError
  | failed
  | output (data : Bytes)

/-- The characters at which the output is split (39). -/
def isSep (c : Char) : Bool := c == ',' || isSpaceC c

/-- The tags in a text (39-40). -/
def tagsOf (text : Text) : List Text := ((splitP isSep text).filter (fun t => !t.isEmpty)).map (fun t => (stripWith isSpaceC t).take 25)

/-- `get_tag_list` (15-41); `none` is a `TagError`. -/
def getTagList : Script → Option (List Text)
  | .missing => some []
  | .osError => some []
  | .failed => none
  | .output data => some (tagsOf (utf8DecodeIgnore data))

/-! ### rpi.py -/

/-- A binary file as `for line in fp` gives it: each line with its newline.  (rpi.py 21) -/
def lines : Bytes → List Bytes
  | [] => []
  | b :: r => if b == 10 then [b] :: lines r else match lines r with
    | [] => [[b]]
    | l :: ls => (b :: l) :: ls

/-- `line.partition(b":")` (24), for lines that hold a colon (22). -/
def partitionColon (line : Bytes) : Option (Bytes × Bytes) :=
  if line.contains 58 then some (line.takeWhile (· != 58), (line.dropWhile (· != 58)).drop 1) else none

/-- The key that is looked for (rpi.py 27). -/
def revisionKey : Bytes := asc "revision"

/-- The value of a line that has the key (22-29). -/
def revisionIn (line : Bytes) : Option Bytes := match partitionColon line with
  | none => none
  | some (key, value) =>
    if (stripWith isSpaceB key).map lowerB = revisionKey then some ((stripWith isSpaceB value).map lowerB) else none

/-- `get_machine_revision` (9-35); `file` is `none` if it can not be read; `.error ()` is a `UnicodeDecodeError`. -/
def machineRevision (file : Option Bytes) : Except Unit (Option Text) := match file with
  | none => .ok none
  | some data => match (lines data).findSome? revisionIn with
    | none => .ok none
    | some value => match utf8Decode value with
      | none => .error ()
      | some text => .ok (some text)

/-- `get_model_name` (38-47). -/
def modelName (file : Option Bytes) : Except Unit Text := match file with
  | none => .ok []
  | some data => match utf8Decode data with
    | none => .error ()
    | some text => .ok text

/-! ### iptool.py -/

/-- `name.decode("ascii", "replace")`.  (iptool.py 58) -/
def asciiReplace (b : UInt8) : Char := if b.toNat < 128 then Char.ofNat b.toNat else Char.ofNat 0xfffd

/-- `socket.inet_ntoa` of four bytes; other lengths are an `OSError`.  (iptool.py 55) -/
def inetNtoa : Bytes → Option Text
  | [a, b, c, d] => some (([a, b, c, d].map (fun x => (decNat x.toNat).map (fun y => Char.ofNat y.toNat))).intersperse ['.']).flatten
  | _ => none

/-- One record (iptool.py 53-58). -/
def interface (record : Bytes) : Option (Text × Text) := do
  let ip ← inetNtoa ((record.drop 20).take 4)
  pure ((record.takeWhile (· != 0)).map asciiReplace, ip)

/-- `get_all_interfaces` (19-60): `size` is the size of a record (29), `used` the number of bytes that the system reports as filled. -/
def interfacesF (size : Nat) : Nat → Nat → Bytes → Option (List (Text × Text))
  | 0, _, _ => some []
  | fuel + 1, used, buffer =>
    if used = 0 then some []
    else do
      let i ← interface (buffer.take size)
      let is ← interfacesF size fuel (used - size) (buffer.drop size)
      pure (i :: is)

/-- The loop (iptool.py 51-60) with enough fuel: it makes at most `used` rounds. -/
def interfaces (size used : Nat) (buffer : Bytes) : Option (List (Text × Text)) := interfacesF size used used buffer

/-! ### device_meta.py -/

/-- A value in the dict: text, `None`, or the list of addresses, which is an object of its own.  (device_meta.py 24-32) -/
inductive Val where
  | none
  | text (t : Text)
  | list (ref : Nat)
  deriving DecidableEq, Repr

/-- The dicts and lists that were made, by reference.  (device_meta.py 16-32) -/
structure Heap where
  dicts : Nat → Text → Option Val
  nDicts : Nat
  lists : Nat → List Text
  nLists : Nat
  cache : Option Nat

/-- Nothing was made yet (device_meta.py 16). -/
def Heap.init : Heap := ⟨fun _ _ => none, 0, fun _ => [], 0, none⟩

/-- Assignment (auxiliary, for device_meta.py 24-31). -/
def setAt {α : Type} (f : Nat → α) (i : Nat) (v : α) : Nat → α := fun j => if j = i then v else f j

/-- What the device says (device_meta.py 26-31). -/
structure Facts where
  agentVersion : Text
  machineRevision : Except Unit (Option Text)
  modelName : Except Unit Text
  osVersion : Text
  uname : Text
  ipList : Option (List Text)

/-- The keys of the dict (device_meta.py 25-30). -/
def kAgent : Text := "agent_version".toList
/-- (device_meta.py 26) -/
def kRevision : Text := "machine_revision".toList
/-- (device_meta.py 27) -/
def kModel : Text := "model_name".toList
/-- (device_meta.py 28) -/
def kOs : Text := "os_version".toList
/-- (device_meta.py 29) -/
def kUname : Text := "uname".toList
/-- (device_meta.py 30) -/
def kIps : Text := "ip_list".toList

/-- A text or `None` (rpi.py 31-35; device_meta.py 26). -/
def optVal : Option Text → Val
  | .none => .none
  | .some t => .text t

/-- `get_meta` (19-32): a reference to a dict; `.error ()` if a file of the system can not be decoded.  Addresses that can not be got are taken
as none (50-61). -/
def getMeta (h : Heap) (f : Facts) : Heap × Except Unit Nat := match h.cache with
  | some c => ({ h with dicts := setAt h.dicts h.nDicts (h.dicts c), nDicts := h.nDicts + 1 }, .ok h.nDicts)
  | none => match f.machineRevision, f.modelName with
    | .ok revision, .ok model =>
      let dict : Text → Option Val := fun k =>
        if k = kAgent then some (.text f.agentVersion) else if k = kRevision then some (optVal revision)
        else if k = kModel then some (.text model) else if k = kOs then some (.text f.osVersion)
        else if k = kUname then some (.text f.uname) else if k = kIps then some (.list h.nLists) else none
      (⟨setAt h.dicts h.nDicts dict, h.nDicts + 1, setAt h.lists h.nLists (f.ipList.getD []), h.nLists + 1, some h.nDicts⟩, .ok h.nDicts)
    | _, _ => (h, .error ())

/-- What a caller may do: call, set or delete a key of a dict it was given, change a list it found in one.
(device_meta.py 19-32; callers: client.py 255-287) -/
inductive MetaOp where
  | get (f : Facts)
  | set (dict : Nat) (key : Text) (v : Option Val)
  | change (list : Nat) (v : List Text)

/-- One of these (device_meta.py 19-32). -/
def metaStep (h : Heap) : MetaOp → Heap
  | .get f => (getMeta h f).1
  | .set d k v => { h with dicts := setAt h.dicts d (fun k' => if k' = k then v else h.dicts d k') }
  | .change l v => { h with lists := setAt h.lists l v }

/-- A sequence of these (device_meta.py 19-32). -/
def metaRun (h : Heap) : List MetaOp → Heap
  | [] => h
  | op :: ops => metaRun (metaStep h op) ops

/-! ### constants.py -/

/-- `get_environ_int` (constants.py 7-21); `intOf` is Python's `int()` for text, `none` a `ValueError`. -/
def environInt (intOf : Text → Option Int) (var : Option Text) (default : Int) : Int := match var with
  | none => default
  | some t => (intOf t).getD default

/-- `Limiter.__init__` (limiter.py 40-52): `none` is an `AssertionError`, which ends the agent as it starts. -/
def startWith (limit : Int) : Option Int := if 0 < limit then some limit else none

/-! ### disk_tools.py -/

/-- The fields of `statvfs` that are used.  (disk_tools.py 49-53) -/
structure Stat where
  blocks : Nat
  bfree : Nat
  bavail : Nat
  frsize : Nat

/-- `usage_percent` (disk_tools.py 11-20): `rnd` is the rounding of a float operation, `rnd1` that of `round(x, 1)`. -/
def usagePercent (rnd rnd1 : Rat → Rat) (used total : Int) : Rat :=
  if total = 0 then rnd1 0 else rnd1 (rnd (rnd ((used : Rat) / (total : Rat)) * 100))

/-- `disk_usage` (23-69): total, used, free and percent. -/
def diskUsage (rnd rnd1 : Rat → Rat) (st : Stat) : Int × Int × Int × Rat :=
  let total : Int := st.blocks * st.frsize
  let availToRoot : Int := st.bfree * st.frsize
  let availToUser : Int := st.bavail * st.frsize
  let used := total - availToRoot
  let totalUser := used + availToUser
  (total, used, availToUser, usagePercent rnd rnd1 used totalUser)

/-! ### clockcheck.py -/

/-- `MAX_CLOCK_DISCREPANCY` (clockcheck.py 19), in microseconds. -/
def maxDiscrepancy : Int := 180 * 1000000

/-- The loop of `run` (30-38): each entry is one round, the flag `running` as found and the two readings of the clock; whether the process is
killed. -/
def clockLoop : List (Bool × Int × Int) → Bool
  | [] => false
  | (running, start, now) :: rounds =>
    if running then (if now - start > maxDiscrepancy then true else clockLoop rounds) else false

end Verif.Device
