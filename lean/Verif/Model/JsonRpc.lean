import Verif.Py.Json
/-!
Model of `dataplicity/jsonrpc.py`.

What the server does with a request is an input (`Reply`).  The parameters of calls are JSON values, so that `json.dumps` does not fail.
-/
namespace Verif.JsonRpc
open Verif

/-- The keys of requests and responses.  (jsonrpc.py:104-109, 117, 202, 210-225) -/
def sJsonrpc : Text := "jsonrpc".toList
/-- (108, 141-142, 210, 216) -/
def sId : Text := "id".toList
/-- (139, 141-142, 221-222) -/
def sError : Text := "error".toList
/-- (139, 147, 225) -/
def sResult : Text := "result".toList
/-- (237) -/
def sCode : Text := "code".toList
/-- (242, 248) -/
def sData : Text := "data".toList
/-- (243, 249) -/
def sMessage : Text := "message".toList
/-- The version understood (213). -/
def sVersion : Text := "2.0".toList

/-- The exceptions: those of the module (13-48) with what they carry, and those of Python that get out. -/
inductive Exc where
  | unreachable
  | invalidResponse
  | protocol
  | remote (method : Text) (code data message : Json)
  | remoteMethod (method : Text) (code data message : Json)
  | typeError
  | attributeError
  | keyError
  | valueError
  deriving DecidableEq, Repr

/-- What `_send` (179-197) and `json.loads` give: `_send` turns each exception into `ServerUnreachableError`.  (131-133, 203-208) -/
inductive Reply where
  | unreachable
  | notJson
  | json (j : Json)

/-- Whether `k` occurs in `s`: `k in s` for strings.  (210) -/
def occurs (k : Text) : Text → Bool
  | [] => k.isEmpty
  | c :: s => k.isPrefixOf (c :: s) || occurs k s

/-- Whether a value is the string `k` (210, 213). -/
def isStr (k : Text) : Json → Bool
  | .str s => decide (s = k)
  | _ => false

/-- `k in response`: a key of a dict, an element of a list, a part of a string; a `TypeError` for other values.  (210, 221) -/
def contains (k : Text) : Json → Except Exc Bool
  | .obj l => .ok (lookup l k).isSome
  | .arr l => .ok (l.any (isStr k))
  | .str s => .ok (occurs k s)
  | _ => .error .typeError

/-- `response[k]`: lists and strings have no such index.  (213, 216, 222) -/
def index (k : Text) : Json → Except Exc Json
  | .obj l => match lookup l k with
    | some v => .ok v
    | none => .error .keyError
  | _ => .error .typeError

/-- `response.get(k, default)`.  (139, 147, 225, 237-249) -/
def getD (l : List (Text × Json)) (k : Text) (default : Json) : Json := (lookup l k).getD default

/-- `ErrorCode.to_str` (60-66). -/
def toStr : List (Int × Text) :=
  [(-32700, "Parse error".toList), (-32600, "Invalid Request".toList), (-32601, "Method not found".toList),
   (-32602, "Invalid params".toList), (-32603, "Internal error".toList)]

/-- `unknown_error_msg` (169). -/
def unknownErrorMsg : Text := "the server did not supply further information".toList

/-- The text for a code that is one of the keys of `to_str`.  (238, 243) -/
def codeText : Key → Option Text
  | .num i => lookup toStr i
  | _ => none

/-- `_handle_error` (236-250): the exception raised. -/
def handleError (method : Text) : Json → Exc
  | .obj l =>
    let code := getD l sCode .null
    match code.key with
    | none => .typeError
    | some k => match codeText k with
      | some text => .remote method code (getD l sData .null) (getD l sMessage (.str text))
      | none => .remoteMethod method code (getD l sData .null) (getD l sMessage (.str unknownErrorMsg))
  | _ => .attributeError

/-- A call id; the agent uses text and the numbers it counts up.  (108, 113, 175-177) -/
inductive CallId where
  | num (n : Nat)
  | text (s : Text)
  deriving DecidableEq, Repr

/-- The id as a key of a dict (141-142, 146-148). -/
def CallId.key : CallId → Key
  | .num n => .num n
  | .text s => .str s

/-- A call as it is sent; a notification has no id.  (104-109, 117, 123-127, 202) -/
structure Call where
  method : Text
  params : Json
  id : Option CallId
  deriving DecidableEq

/-- `JSONRPC` (171-173): the counter. -/
structure Client where
  callId : Nat
  deriving DecidableEq

/-- `JSONRPC.__init__` (171-173). -/
def Client.init : Client := ⟨1⟩

/-- `new_call_id` (175-177). -/
def newCallId (c : Client) : Client × Nat := (⟨c.callId + 1⟩, c.callId + 1)

/-- Where a thread is in `new_call_id` (175-177): not in it, between reading and writing the counter in line 176, or before reading it again
in line 177. -/
inductive IdPlace where
  | outside
  | read (n : Nat)
  | written
  deriving DecidableEq

/-- The counter, the threads, and the numbers returned so far, the last one first.  (171-177) -/
structure Ids where
  counter : Nat
  place : Nat → IdPlace
  given : List Nat

/-- A new client (171-173). -/
def Ids.init : Ids := ⟨1, fun _ => .outside, []⟩

/-- A thread reads or writes the counter; there is no lock (175-177). -/
inductive IdStep where
  | read (thread : Nat)
  | write (thread : Nat)
  | ret (thread : Nat)
  deriving DecidableEq

/-- The thread that takes a step. -/
def IdStep.thread : IdStep → Nat
  | .read t | .write t | .ret t => t

/-- The thread is at another place now. -/
def Ids.go (s : Ids) (t : Nat) (p : IdPlace) : Ids := { s with place := fun x => if x = t then p else s.place x }

/-- One step of a thread (176-177); one that it cannot take is skipped. -/
def Ids.step (s : Ids) : IdStep → Ids
  | .read t => match s.place t with
    | .outside => s.go t (.read s.counter)
    | _ => s
  | .write t => match s.place t with
    | .read n => { s.go t .written with counter := n + 1 }
    | _ => s
  | .ret t => match s.place t with
    | .written => { s.go t .outside with given := s.counter :: s.given }
    | _ => s

/-- Any number of steps of any threads (175-177). -/
def Ids.run (s : Ids) (steps : List IdStep) : Ids := steps.foldl Ids.step s

/-- What the response to call `n` means (204-225). -/
def callResult (method : Text) (n : Nat) : Reply → Except Exc Json
  | .unreachable => .error .unreachable
  | .notJson => .error .invalidResponse
  | .json response => do
    if !(← contains sJsonrpc response) then throw .protocol
    if !(← contains sId response) then throw .protocol
    let version ← index sJsonrpc response
    if !isStr sVersion version then throw .protocol
    let id ← index sId response
    if id.key ≠ some (.num n) then throw .protocol
    if ← contains sError response then throw (handleError method (← index sError response))
    match response with
    | .obj l => pure (getD l sResult .null)
    | _ => throw .attributeError

/-- `call` (199-225): the client, what is sent and what is returned or raised. -/
def call (c : Client) (method : Text) (params : Json) (reply : Reply) : Client × Call × Except Exc Json :=
  let (c, n) := newCallId c
  (c, ⟨method, params, some (.num n)⟩, callResult method n reply)

/-- A `Batch` (83-93). -/
structure Batch where
  calls : List Call
  sent : Bool
  responses : Option (List (Json × Json))
  errors : Option (List (Key × Json))
  results : Option (List (Key × List (Text × Json)))
  idsUsed : List CallId
  methods : List (CallId × Text)
  abandoned : Bool

/-- `Batch.__init__` (83-93). -/
def Batch.init : Batch := ⟨[], false, none, none, none, [], [], false⟩

/-- What is done in the block of a batch.  (102-128, 161-163) -/
inductive BOp where
  | call (method : Text) (params : Json)
  | callWithId (id : CallId) (method : Text) (params : Json)
  | notify (method : Text) (params : Json)
  | abandon
  deriving DecidableEq

/-- `call` (102-111), `call_with_id` (113-120), `notify` (122-128) and `abandon` (161-163). -/
def add (c : Client) (b : Batch) : BOp → Client × Batch × Option Exc
  | .call method params =>
    let (c, n) := newCallId c
    (c, { b with calls := b.calls ++ [⟨method, params, some (.num n)⟩], methods := b.methods ++ [(.num n, method)] }, none)
  | .callWithId id method params =>
    if b.idsUsed.contains id then (c, b, some .valueError)
    else (c, { b with calls := b.calls ++ [⟨method, params, some id⟩], idsUsed := id :: b.idsUsed, methods := b.methods ++ [(id, method)] }, none)
  | .notify method params => (c, { b with calls := b.calls ++ [⟨method, params, none⟩] }, none)
  | .abandon => (c, { b with abandoned := true }, none)

/-- The dicts in a list of responses; `none` if there is something else, on which `.get` fails (139). -/
def dicts : List Json → Option (List (List (Text × Json)))
  | [] => some []
  | .obj l :: rs => (dicts rs).map (l :: ·)
  | _ :: _ => none

/-- The dict `errors` (141). -/
def errorsOf : List (List (Text × Json)) → Except Exc (List (Key × Json))
  | [] => .ok []
  | r :: rs => match lookup r sError with
    | none => errorsOf rs
    | some e => match lookup r sId with
      | none => .error .keyError
      | some id => match id.key with
        | none => .error .typeError
        | some k => (errorsOf rs).map ((k, e) :: ·)

/-- The dict `results` (142). -/
def resultsOf : List (List (Text × Json)) → Except Exc (List (Key × List (Text × Json)))
  | [] => .ok []
  | r :: rs => match lookup r sId, lookup r sError with
    | some id, none => match id.key with
      | none => .error .typeError
      | some k => (resultsOf rs).map ((k, r) :: ·)
    | _, _ => resultsOf rs

/-- `send` (130-142), without what goes over the wire: that is `b.calls`. -/
def send (b : Batch) : Reply → Batch × Option Exc
  | .unreachable => (b, some .unreachable)
  | .notJson => ({ b with sent := true }, some .valueError)
  | .json (.arr rs) =>
    let b := { b with sent := true }
    match dicts rs with
    | none => (b, some .attributeError)
    | some ds =>
      let b := { b with responses := some (ds.map (fun r => (getD r sError .null, getD r sResult .null))) }
      match errorsOf ds with
      | .error e => (b, some e)
      | .ok errors =>
        let b := { b with errors := some errors }
        match resultsOf ds with
        | .error e => (b, some e)
        | .ok results => ({ b with results := some results }, none)
  | .json _ => ({ b with sent := true }, some .protocol)

/-- `get_result` (144-154); `default` is `none` for the value `Ellipsis`.  Before an answer `results` and `errors` are `None`, in which
`in` cannot look. -/
def getResult (b : Batch) (id : CallId) (default : Option Json) : Except Exc Json :=
  match b.results with
  | none => .error .typeError
  | some results => match lookup results id.key with
    | some r => .ok (getD r sResult .null)
    | none => match b.errors with
      | none => .error .typeError
      | some errors => match lookup errors id.key with
        | none => .error .keyError
        | some e => match default with
          | some d => .ok d
          | none => match lookup b.methods id with
            | none => .error .keyError
            | some method => .error (handleError method e)

/-- `check` (156-159): the exception raised, if any. -/
def check (b : Batch) : List CallId → Option Exc
  | [] => none
  | id :: ids => match getResult b id none with
    | .error e => some e
    | .ok _ => check b ids

/-- The additions of a block, up to the first exception.  (74-76) -/
def addAll (c : Client) (b : Batch) : List BOp → Client × Batch × Option Exc
  | [] => (c, b, none)
  | op :: ops => match add c b op with
    | (c, b, some e) => (c, b, some e)
    | (c, b, none) => addAll c b ops

/-- A `with` block: `ops` are done, then the block raises `raised`, if not `none`.  `__exit__` (98-100) sends the batch, or does nothing.
The result: the client, the batch, the messages that went over the wire and the exception that leaves the block. -/
def block (c : Client) (ops : List BOp) (raised : Option Exc) (reply : Reply) : Client × Batch × List (List Call) × Option Exc :=
  match addAll c .init ops with
  | (c, b, some e) => (c, b, [], some e)
  | (c, b, none) => match raised with
    | some e => (c, b, [], some e)
    | none =>
      if b.abandoned then (c, b, [], none)
      else match send b reply with
        | (b', e) => (c, b', [b.calls], e)

/-- What is done with a client: direct calls, and the parts of blocks for any number of batches, in any order.  (102-128, 199-202) -/
inductive Op where
  | call (method : Text) (params : Json) (reply : Reply)
  | add (b : Nat) (op : BOp)

/-- A client with its batches (as many as wanted, all empty at first) and the direct calls made.  (83-93, 171-173) -/
structure World where
  client : Client
  batches : Nat → Batch
  direct : List Call

/-- A new client (83-93, 171-173). -/
def World.init : World := ⟨.init, fun _ => .init, []⟩

/-- One operation.  (102-128, 199-225) -/
def step (w : World) : Op → World
  | .call method params reply => match call w.client method params reply with
    | (c, sent, _) => { w with client := c, direct := w.direct ++ [sent] }
  | .add b op => match add w.client (w.batches b) op with
    | (c, b', _) => { w with client := c, batches := fun x => if x = b then b' else w.batches x }

/-- A sequence of operations (102-128, 199-225). -/
def run (w : World) (ops : List Op) : World := ops.foldl step w

end Verif.JsonRpc
