import Verif.Model.JsonRpc
/-!
Model of `dataplicity/client.py`: the polls, the sync with the server and the announcement of the identity.

Times are in microseconds; the rounding of the addition of floats is not modelled.  What disk, tag script, device and network do are inputs.
A poll is made of three parts, each of which is an event; a sync asked for by an instruction may come anywhere between them (syncs exclude
each other by `_sync_lock`, and the three parts touch different variables, so that larger overlaps give the same results).
-/
namespace Verif.Client
open Verif Verif.JsonRpc

/-- A name used in requests.  (client.py:135-147) -/
def nm (s : String) : Text := s.toList

/-- Exceptions, as far as handlers tell them apart; `interrupt` is one that `except Exception` does not catch (`SystemExit`,
`KeyboardInterrupt`).  (153, 173-186, 197, 202, 224) -/
inductive Raised where
  | rpc (e : Exc)
  | tagError
  | other
  | interrupt
  deriving DecidableEq, Repr

/-- `except Exception` (197, 202, 224): what gets through. -/
def caught : Option Raised → Option Raised
  | some .interrupt => some .interrupt
  | _ => none

/-- What comes of a request.  (jsonrpc.py 179-197) -/
inductive Net where
  | reply (r : Reply)
  | interrupt

/-- `serial` and `auth_token` (46-47, 72-73). -/
structure Config where
  serial : Text
  authToken : Option Text

/-- The variables of `Client` (50-54, 71, 81). -/
structure State where
  rpc : JsonRpc.Client
  nextDisk : Int
  tagList : Option (List Text)
  sentMeta : Bool
  deriving DecidableEq

/-- `__init__` (31-54) and `_init` (64-99) at time `now`. -/
def State.init (now : Int) : State := ⟨.init, now, none, false⟩

/-- A `with self.remote.batch()` block that makes the calls `ops`.  (134, 159, 235, 326) -/
def batch (s : State) (ops : List BOp) : Net → State × Batch × List (List Call) × Option Raised
  | .reply r => match block s.rpc ops none r with
    | (c, b, w, e) => ({ s with rpc := c }, b, w, e.map .rpc)
  | .interrupt => match block s.rpc ops none .unreachable with
    | (c, b, w, _) => ({ s with rpc := c }, b, w, some .interrupt)

/-- A value that may be `None` as JSON (140, 268). -/
def jopt : Option Text → Json
  | none => .null
  | some t => .str t

/-- The call that authenticates (135-141, 160-166, 236-243, 327-333). -/
def authCall (cfg : Config) (more : List (Text × Json)) : BOp :=
  .callWithId (.text (nm "authenticate_result")) (nm "device.check_auth")
    (.obj ([(nm "device_class", .str (nm "tuxtunnel")), (nm "serial", .str cfg.serial), (nm "auth_token", jopt cfg.authToken)] ++ more))

/-! ### Disk -/

/-- `disk_poll_rate_seconds` (80). -/
def diskPeriod : Int := 60 * 60 * 1000000

/-- What a disk poll meets (128, 132, 134). -/
structure DiskEnv where
  now : Int
  usage : Except Raised (Int × Int)
  net : Net

/-- The calls of a disk report (135-147). -/
def diskCalls (cfg : Config) (total used : Int) : List BOp :=
  [authCall cfg [], .callWithId (.text (nm "set_disk_space_result")) (nm "device.set_disk_space")
    (.obj [(nm "disk_capacity", .int total), (nm "disk_used", .int used)])]

/-- `disk_poll` (127-147): the state, the messages sent and the exception raised. -/
def diskPoll (cfg : Config) (s : State) (e : DiskEnv) : State × List (List Call) × Option Raised :=
  if s.nextDisk ≤ e.now then
    let s := { s with nextDisk := e.now + diskPeriod }
    match e.usage with
    | .error x => (s, [], some x)
    | .ok (total, used) => match batch s (diskCalls cfg total used) e.net with
      | (s, _, w, x) => (s, w, x)
  else (s, [], none)

/-! ### Tags -/

/-- What a tag poll meets (152, 159). -/
structure TagEnv where
  tags : Except Raised (List Text)
  net : Net

/-- The id of the call that sends the tags (168, 172). -/
def tagId : CallId := .text (nm "set_machine_defined_tags_result")

/-- The calls that send tags (160-171). -/
def tagCalls (cfg : Config) (tags : List Text) : List BOp :=
  [authCall cfg [], .callWithId tagId (nm "device.set_machine_defined_tags") (.obj [(nm "tag_list", .arr (tags.map .str))])]

/-- `tag_poll` (149-189). -/
def tagPoll (cfg : Config) (s : State) (e : TagEnv) : State × List (List Call) × Option Raised :=
  match e.tags with
  | .error .tagError => (s, [], none)
  | .error x => (s, [], some x)
  | .ok tags =>
    if some tags ≠ s.tagList then
      match batch s (tagCalls cfg tags) e.net with
      | (s, b, w, x) => match x with
        | some x => (s, w, caught (some x))
        | none => match getResult b tagId none with
          | .error _ => (s, w, none)
          | .ok _ => ({ s with tagList := some tags }, w, none)
    else ({ s with tagList := some tags }, [], none)

/-! ### Sync -/

/-- What `device_meta.get_meta` returns.  (255, 263-286; device_meta.py 24-32) -/
structure Meta where
  agentVersion : Text
  machineRevision : Option Text
  modelName : Text
  osVersion : Text
  uname : Text
  ipList : List Text

/-- What a sync meets (232, 235, 255). -/
structure SyncEnv where
  info : Except Raised Meta
  syncId : Text
  net : Net

/-- The id of the authentication (237, 245, 340). -/
def authId : CallId := .text (nm "authenticate_result")

/-- The ids that `_check_meta` looks at (297-302). -/
def metaIds : List CallId :=
  [.text (nm "set_agent_version_result"), .text (nm "set_machine_revision_result"), .text (nm "set_model_name_result"),
   .text (nm "set_os_version_result"), .text (nm "set_uname_result"), .text (nm "set_ip_addresses_result")]

/-- `_sync_meta` (252-287): nothing is added if the information can not be got. -/
def metaCalls : Except Raised Meta → List BOp
  | .error _ => []
  | .ok m =>
    [.callWithId (.text (nm "set_agent_version_result")) (nm "device.set_agent_version") (.obj [(nm "agent_version", .str m.agentVersion)]),
     .callWithId (.text (nm "set_machine_revision_result")) (nm "device.set_machine_revision")
       (.obj [(nm "revision_code", jopt m.machineRevision)]),
     .callWithId (.text (nm "set_model_name_result")) (nm "device.set_model_name") (.obj [(nm "model_name", .str m.modelName)]),
     .callWithId (.text (nm "set_os_version_result")) (nm "device.set_os_version") (.obj [(nm "os_version", .str m.osVersion)]),
     .callWithId (.text (nm "set_uname_result")) (nm "device.set_uname") (.obj [(nm "uname", .str m.uname)]),
     .callWithId (.text (nm "set_ip_addresses_result")) (nm "device.set_ip_addresses") (.obj [(nm "ip_list", .arr (m.ipList.map .str))])]

/-- `_check_meta` (289-309). -/
def checkMeta (s : State) (b : Batch) : State :=
  if s.sentMeta then s
  else match check b metaIds with
    | some _ => s
    | none => { s with sentMeta := true }

/-- `_sync` (227-250). -/
def syncBody (cfg : Config) (s : State) (e : SyncEnv) : State × List (List Call) × Option Raised :=
  if s.sentMeta then (s, [], none)
  else match batch s (authCall cfg [(nm "sync_id", .str e.syncId)] :: metaCalls e.info) e.net with
    | (s, b, w, x) => match x with
      | some x => (s, w, some x)
      | none => match getResult b authId none with
        | .error x => (s, w, some (.rpc x))
        | .ok _ => (checkMeta s b, w, none)

/-- `sync` (219-225). -/
def sync (cfg : Config) (s : State) (e : SyncEnv) : State × List (List Call) × Option Raised :=
  match syncBody cfg s e with
  | (s, w, x) => (s, w, caught x)

/-! ### Histories -/

/-- The parts of a poll (195-205). -/
inductive Event where
  | disk (e : DiskEnv)
  | tags (e : TagEnv)
  | sync (e : SyncEnv)

/-- One part of a poll, with its handler in `poll` (195-205). -/
def step (cfg : Config) (s : State) : Event → State × List (List Call) × Option Raised
  | .disk e => match diskPoll cfg s e with
    | (s, w, x) => (s, w, caught x)
  | .tags e => match tagPoll cfg s e with
    | (s, w, x) => (s, w, caught x)
  | .sync e => sync cfg s e

/-- The state after a history.  (191-205, 219-225) -/
def run (cfg : Config) (s : State) : List Event → State
  | [] => s
  | ev :: evs => run cfg (step cfg s ev).1 evs

/-- The events of a history, each with what was sent.  (191-205, 219-225) -/
def record (cfg : Config) (s : State) : List Event → List (Event × List (List Call))
  | [] => []
  | ev :: evs => (ev, (step cfg s ev).2.1) :: record cfg (step cfg s ev).1 evs

/-- The inputs of a poll.  (191-205) -/
structure PollEnv where
  disk : DiskEnv
  tags : TagEnv
  sync : SyncEnv

/-- `poll` (191-205): the parts follow each other unless an exception gets through. -/
def poll (cfg : Config) (s : State) (e : PollEnv) : State × List (List Call) × Option Raised :=
  match step cfg s (.disk e.disk) with
  | (s, w1, some x) => (s, w1, some x)
  | (s, w1, none) => match step cfg s (.tags e.tags) with
    | (s, w2, some x) => (s, w1 ++ w2, some x)
    | (s, w2, none) => match step cfg s (.sync e.sync) with
      | (s, w3, x) => (s, w1 ++ w2 ++ w3, x)

/-- How the agent is doing.  (106-115) -/
inductive Fate where
  | running
  | exited
  | raised (x : Raised)
  deriving DecidableEq

/-- The loop of `run_forever` (108-109): each entry is one wait, `none` if the exit event was set.  The number of polls made is returned. -/
def loop (cfg : Config) (s : State) : List (Option PollEnv) → Nat × Fate
  | [] => (0, .running)
  | none :: _ => (0, .exited)
  | some e :: waits => match poll cfg s e with
    | (_, _, some x) => (1, .raised x)
    | (s, _, none) => match loop cfg s waits with
      | (n, f) => (n + 1, f)

/-- `run_forever` (101-121): a poll, then the loop.  `SystemExit` and `KeyboardInterrupt` end it quietly. -/
def runForever (cfg : Config) (s : State) (first : PollEnv) (waits : List (Option PollEnv)) : Nat × Fate :=
  match loop cfg s (some first :: waits) with
  | (n, .raised .interrupt) => (n, .exited)
  | r => r

/-! ### Identity -/

/-- The id of the call that announces the identity (335, 341). -/
def associateId : CallId := .text (nm "associate_result")

/-- `set_m2m_identity` (311-359); an identity that is not UTF-8 raises within the block, so that nothing is sent (337). -/
def setIdentity (cfg : Config) (s : State) (identity : Bytes) (net : Net) : State × List (List Call) × Except Raised (Option Bytes) :=
  if cfg.authToken = none then (s, [], .ok none)
  else match utf8Decode identity with
    | none => (s, [], .ok none)
    | some text =>
      match batch s [authCall cfg [], .callWithId associateId (nm "m2m.associate") (.obj [(nm "identity", .str text)])] net with
      | (s, b, w, x) => match x with
        | some x => match caught (some x) with
          | some x => (s, w, .error x)
          | none => (s, w, .ok none)
        | none => match getResult b authId none with
          | .error _ => (s, w, .ok none)
          | .ok _ => match getResult b associateId none with
            | .error _ => (s, w, .ok none)
            | .ok _ => (s, w, .ok (some identity))

/-- `M2MManager`: the identity and the one last announced (m2mmanager.py 95, 97). -/
structure Manager where
  identity : Option Bytes
  notified : Option Bytes
  deriving DecidableEq

/-- `set_identity` (m2mmanager.py 120-125), with what `set_m2m_identity` does as input; the result says whether that was called. -/
def Manager.setIdentity (m : Manager) (identity : Bytes) (announce : Bytes → Option Bytes) : Manager × Bool :=
  let m := { m with identity := some identity }
  if identity ≠ [] ∧ some identity ≠ m.notified then ({ m with notified := announce identity }, true) else (m, false)

/-! ### The address -/

/-- `__init__` (40-44): the m2m address; `features` are the elements of `M2M_FEATURES` (constants.py 27) in the order in which the set gives
them. -/
def m2mUrl (given : Option Text) (default : Text) (features : List Text) : Text :=
  let url := match given with
    | some u => if u = [] then default else u
    | none => default
  if '?' ∈ url then url else url ++ nm "?features=" ++ (features.intersperse [',']).flatten

end Verif.Client
