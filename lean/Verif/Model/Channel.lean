import Verif.Py.Bytes
/-!
Model of the class `Channel` in `dataplicity/m2m/wsclient.py:50-165`.

Callbacks are opaque names (`Nat`); calling one is an output.  What a callback does afterwards (for instance writing to the channel)
appears as further operations of the history.  `on_data`, `on_control` and `on_close` are called by the one receive thread, the other
methods by any thread.
-/
namespace Verif.Channel
open Verif

/-- The attributes set in `__init__` (wsclient.py:53-63).  `pendingWrites`/`pendingControl`/`pendingCloses` count calls of
`write`/`send_control`/`close` by other threads that found the channel open and have not sent yet. -/
structure Ch where
  closed : Bool := false
  dataCb : Option Nat := none
  closeCb : Option Nat := none
  ctrlCb : Option Nat := none
  deque : List Bytes := []
  event : Bool := false
  pendingWrites : List Bytes := []
  pendingControl : List Bytes := []
  pendingCloses : Nat := 0
  deriving DecidableEq, Repr

/-- What can be observed of a channel.  (wsclient.py:69-162) -/
inductive Out where
  | dataCall (cb : Nat) (data : Bytes)
  | closeCall (cb : Nat)
  | ctrlCall (cb : Nat) (data : Bytes)
  | returned (data : Bytes)              -- result of `read`
  | sendData (data : Bytes)              -- `client.channel_write`
  | sendControl (data : Bytes)           -- `client.channel_control_write` (the JSON text)
  | requestClose                         -- `client.close_channel`
  deriving DecidableEq, Repr

/-- Operations.  `write`, `sendControl` and `close` first look at `_closed` and then send (wsclient.py:69-72, 152-162); another thread
can run in between, so each is a `begin` and a `finish` step; those that have begun may finish in any order (`i` is the place of the one that
finishes).  `set_callbacks` is called by the receive thread (echoservice.py:23, remoteprocess.py:81, portforward.py:40), so that its three
assignments are one step. -/
inductive Op where
  | data (d : Bytes)
  | control (d : Bytes)
  | onClose
  | setCallbacks (data close ctrl : Option Nat)
  | read (n : Int)
  | readBlocking (n : Int) (signalled : Bool)
  | beginWrite (d : Bytes)
  | finishWrite (i : Nat)
  | beginControl (d : Bytes)
  | finishControl (i : Nat)
  | beginClose
  | finishClose
  deriving DecidableEq, Repr

/-- `b[:k]`.  (wsclient.py:140) -/
def sliceTo (b : Bytes) (k : Int) : Bytes := if 0 ≤ k then b.take k.toNat else b.take ((b.length : Int) + k).toNat
/-- `b[k:]`.  (wsclient.py:141) -/
def sliceFrom (b : Bytes) (k : Int) : Bytes := if 0 ≤ k then b.drop k.toNat else b.drop ((b.length : Int) + k).toNat

/-- The loop of `read` (wsclient.py:137-146): the pieces read and the deque afterwards.  If some of the head is left then
`read_bytes` was `bytes_remaining`, nothing remains to be read and the loop ends (`Proofs/Channel.lean`, `readLoop_left`). -/
def readLoop : List Bytes → Int → List Bytes × List Bytes
  | [], _ => ([], [])
  | head :: rest, remaining =>
    if remaining = 0 then ([], head :: rest)
    else
      let readBytes := min remaining (head.length : Int)
      let left := sliceFrom head readBytes
      if left.isEmpty then
        let r := readLoop rest (remaining - readBytes)
        (sliceTo head readBytes :: r.1, r.2)
      else ([sliceTo head readBytes], left :: rest)

/-- `read(count)` after any waiting (wsclient.py:135-150). -/
def readNow (c : Ch) (n : Int) : Ch × List Out :=
  let r := readLoop c.deque n
  ({ c with deque := r.2, event := if r.2.isEmpty then false else c.event }, [.returned r.1.flatten])

/-- `size` (wsclient.py:114-117). -/
def size (c : Ch) : Nat := (c.deque.map List.length).sum

/-- `bool(channel)` (wsclient.py:119-123). -/
def truthy (c : Ch) : Bool := c.event

/-- One operation.  (wsclient.py:69-162) -/
def step (c : Ch) : Op → Ch × List Out
  -- on_data (wsclient.py:89-99)
  | .data d =>
    if c.closed then (c, [])
    else match c.dataCb with
      | some f => (c, [.dataCall f d])
      | none => ({ c with deque := c.deque ++ [d], event := true }, [])
  -- on_control (wsclient.py:101-107)
  | .control d =>
    if c.closed then (c, [])
    else match c.ctrlCb with
      | some f => (c, [.ctrlCall f d])
      | none => (c, [])
  -- on_close (wsclient.py:74-83); an exception of the callback is logged
  | .onClose =>
    if c.closed then (c, [])
    else ({ c with closed := true }, match c.closeCb with | some f => [.closeCall f] | none => [])
  -- set_callbacks (wsclient.py:109-112)
  | .setCallbacks d cl ct => ({ c with dataCb := d, closeCb := cl, ctrlCb := ct }, [])
  | .read n => readNow c n
  -- read(block=True) (wsclient.py:130-133): `wait` either times out or was signalled; other threads may have read in between
  | .readBlocking n signalled => if signalled then readNow c n else (c, [.returned []])
  -- write (wsclient.py:152-156)
  | .beginWrite d => if c.closed then (c, []) else ({ c with pendingWrites := c.pendingWrites ++ [d] }, [])
  | .finishWrite i => match c.pendingWrites[i]? with
    | some d => ({ c with pendingWrites := c.pendingWrites.eraseIdx i }, [.sendData d])
    | none => (c, [])
  -- send_control (wsclient.py:158-162)
  | .beginControl d => if c.closed then (c, []) else ({ c with pendingControl := c.pendingControl ++ [d] }, [])
  | .finishControl i => match c.pendingControl[i]? with
    | some d => ({ c with pendingControl := c.pendingControl.eraseIdx i }, [.sendControl d])
    | none => (c, [])
  -- close (wsclient.py:69-72)
  | .beginClose => if c.closed then (c, []) else ({ c with pendingCloses := c.pendingCloses + 1 }, [])
  | .finishClose => match c.pendingCloses with
    | k + 1 => ({ c with pendingCloses := k }, [.requestClose])
    | 0 => (c, [])

/-- A history of operations.  (Model infrastructure.) -/
def run (c : Ch) : List Op → Ch × List Out
  | [] => (c, [])
  | op :: ops =>
    let r := step c op
    let r' := run r.1 ops
    (r'.1, r.2 ++ r'.2)

end Verif.Channel
