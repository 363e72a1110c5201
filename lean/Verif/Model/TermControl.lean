import Verif.Model.Terminal
import Verif.Py.Json
/-!
Two parts of remote terminals in more detail than `Model/Terminal.lean`: control messages with sizes as the server sends them
(`RemoteProcess.on_control`, `dataplicity/m2m/remoteprocess.py:108-120`, and `Interceptor`, `dataplicity/m2m/proxy.py:94-159`), and the file
descriptor of the terminal, which one thread closes while another writes to it (proxy.py:100-101, 168-176).
-/
namespace Verif.TermControl
open Verif

/-! ### Control messages -/

/-- The strings of remoteprocess.py:114-116. -/
def sType : Text := "type".toList
def sResize : Text := "window_resize".toList
def sSize : Text := "size".toList

/-- The attributes `size` and `master_fd` (proxy.py:54-55), the size of the terminal device, and whether `spawn` came past `_init_fd`
(proxy.py:94); if it did not, the thread of the terminal has ended with an exception. -/
structure Term where
  size : Json
  fd : Bool := false
  device : Option Terminal.Win := none
  ok : Bool := true
  deriving DecidableEq

/-- The elements that `*size` and `rows, cols = size` give; `none`: not iterable.  (remoteprocess.py:117, proxy.py:122) -/
def elems : Json → Option (List Json)
  | .arr l => some l
  | .str s => some (s.map fun c => .str [c])
  | .obj l => some ((l.map (·.1)).eraseDups.map .str)
  | _ => none

/-- An element of `array.array("h", ...)`; `none`: an exception.  (proxy.py:123) -/
def asShort : Json → Option Int
  | .int i => if Terminal.fitsShort i then some i else none
  | .bool b => some (if b then 1 else 0)
  | _ => none

/-- `_set_pty_size` (proxy.py:115-125): the new size of the device; `none`: an exception, the device keeps its size. -/
def setPtySize (size : Json) : Option Terminal.Win :=
  match elems size with
  | some [rows, cols] => match asShort cols, asShort rows with
    | some c, some r => some { rows := Terminal.toUnsigned c, cols := Terminal.toUnsigned r }      -- `[cols, rows, 0, 0]`: the device has the rows first
    | _, _ => none
  | _ => none

/-- `resize_terminal` (proxy.py:155-159).  The second component says whether an exception was raised. -/
def resize (t : Term) (size : Json) : Term × Bool :=
  let t := { t with size := size }
  if t.fd then match setPtySize size with
    | some w => ({ t with device := some w }, false)
    | none => (t, true)
  else (t, false)

/-- `on_control` (remoteprocess.py:108-120); `none`: the message is not JSON.  An exception goes to the receive loop of the websocket client, which
logs it (wsclient.py:263-268). -/
def onControl (t : Term) : Option Json → Term × Bool
  | none => (t, false)
  | some (.obj l) =>
    if lookup l sType = some (.str sResize) then
      match lookup l sSize with
      | none => (t, true)
      | some size => match elems size with
        | some (_ :: _ :: _) => resize t size
        | _ => (t, true)                                   -- `"{} X {}".format(*size)`
    else (t, false)
  | some _ => (t, true)                                    -- no `get`

/-- A control message arrives; the thread of the terminal starts the process (proxy.py:64-66) and sets the size (94); it closes the terminal
(100-101). -/
inductive Op where
  | control (m : Option Json)
  | start
  | stop

/-- One step.  (remoteprocess.py:108-120, proxy.py:64-101) -/
def step (t : Term) : Op → Term
  | .control m => (onControl t m).1
  | .start => match setPtySize t.size with
    | some w => { t with fd := true, device := some w }
    | none => { t with fd := true, ok := false }
  | .stop => { t with fd := false }

/-- (Model infrastructure.) -/
def run (t : Term) (ops : List Op) : Term := ops.foldl step t

/-! ### The file descriptor -/

/-- The open files of the process: descriptor and file.  `fd` is the attribute `master_fd`, `local` the variable of the same name in a call of
`write_master` by the receive thread together with the data it still has to write; `written` is all that was written by such calls, with the file
it went to, `closes` how often the channel was closed because `write_master` raised.  `shut`: the descriptor has been closed, and its number may be
given to somebody else.  (proxy.py:65, 100-101, 168-176; remoteprocess.py:103-106) -/
structure Fds where
  files : List (Nat × Nat)
  fd : Option Nat
  local_ : Option (Nat × Bytes) := none
  written : List (Nat × Bytes) := []
  closes : Nat := 0
  shut : Bool := false
  deriving DecidableEq, Repr

/-- The file behind a descriptor.  (Operating system.) -/
def fileAt (files : List (Nat × Nat)) (fd : Nat) : Option Nat := (files.find? fun x => x.1 = fd).map (·.2)

/-- The least number that is no descriptor, as `open` and `socket` give.  (Operating system.) -/
def free (files : List (Nat × Nat)) : Nat :=
  ((List.range ((files.map (·.1)).sum + 2)).find? fun k => (fileAt files k).isNone).getD 0

/-- The thread of the terminal closes the descriptor (proxy.py:100) and forgets it (101); any other thread opens a file or a socket, or closes one
that is not the terminal's (the number itself it may close once it is its own); the receive thread gets data for the terminal (proxy.py:168-173) or makes an `os.write` that takes `n` bytes
(174-176). -/
inductive FdOp where
  | close
  | clear
  | open_ (file : Nat)
  | closeOther (fd : Nat)
  | data (d : Bytes)
  | write (n : Nat)
  deriving DecidableEq, Repr

/-- One step; `tfd` is the descriptor that `pty.fork` gave (proxy.py:64). -/
def fdstep (tfd : Nat) (s : Fds) : FdOp → Fds
  | .close => { s with files := s.files.filter fun x => x.1 ≠ tfd, shut := true }
  | .clear => { s with fd := none }
  | .open_ f => { s with files := (free s.files, f) :: s.files }
  | .closeOther fd => if fd = tfd ∧ s.shut = false then s else { s with files := s.files.filter fun x => x.1 ≠ fd }
  | .data d => match s.local_ with
    | some _ => s                                          -- the receive thread is still writing
    | none => match s.fd with
      | none => { s with closes := s.closes + 1 }          -- the assertion; remoteprocess.py:105-106
      | some fd => if d.isEmpty then s else { s with local_ := some (fd, d) }
  | .write n => match s.local_ with
    | none => s
    | some (fd, d) => match fileAt s.files fd with
      | none => { s with local_ := none, closes := s.closes + 1 }       -- `OSError`
      | some f => { s with
          written := s.written ++ [(f, d.take n)]
          local_ := if (d.drop n).isEmpty then none else some (fd, d.drop n) }

/-- (Model infrastructure.) -/
def fdrun (tfd : Nat) (s : Fds) (ops : List FdOp) : Fds := ops.foldl (fdstep tfd) s

end Verif.TermControl
