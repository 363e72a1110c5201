/-!
The locks of the agent (`threading.Lock` and `threading.RLock`) and the threads that take them: in which order the functions of the agent take locks,
and what they do meanwhile that may take time.

A function is modelled by what it may do with locks: which it takes, in which order, and the input and output under each; everything else is left out.
An exception may leave a function after any of its parts; `with` gives the lock back.  Loops and branches are taken in any way, so that there are
more runs here than in the program.  Locks of libraries (of the websocket in lomond, of the handlers of `logging`, which format the arguments of a
message while they hold their lock) are taken to be held by one thread at a time, and nothing of the agent is called with them held but the
`__repr__` of arguments.  `Thread.start` waits until the new thread exists, which needs no lock of the agent; `join` (client.py:118) is called by the main thread, without any lock, for a thread
that ends by itself.
-/
namespace Verif.Locks

/-- The locks: of a channel (wsclient.py:61), a forwarded connection (portforward.py:35), a service (portforward.py:224), a limiter (limiter.py:48), the
scanner (directory_scanner.py:29), the callbacks of commands (wsclient.py:195), of `sync` (client.py:50), of the websocket (in lomond) and of the log
(in `logging`).  `write_lock` (wsclient.py:196) is never taken. -/
inductive Lock where
  | channel (n : Nat)
  | connection (n : Nat)
  | service (n : Nat)
  | limiter (n : Nat)
  | scanner
  | callbacks
  | sync
  | socket
  | log
  deriving DecidableEq, Repr

/-- `RLock` or `Lock`: may the thread that has it take it again?  (wsclient.py:61, 195, portforward.py:35, 224, limiter.py:48; directory_scanner.py:29,
client.py:50) -/
def Lock.again : Lock → Bool
  | .scanner | .sync | .socket | .log => false
  | _ => true

/-- What may take time: messages to the server, the log, the socket of a forwarded connection, the process of a terminal, requests to the API server,
files of services and of the remote directory, a scan.  (wsclient.py:306, portforward.py:117-207, remoteprocess.py:102-106, client.py:230-251,
directory_scanner.py:49, 58) -/
inductive Io where
  | websocket
  | log
  | local (n : Nat)
  | terminal
  | http
  | file
  | scan
  | start
  deriving DecidableEq, Repr

/-- What a function may do.  `any`: for some number.  (Model infrastructure.) -/
inductive Code where
  | skip
  | io (k : Io)
  | seq (a b : Code)
  | alt (a b : Code)
  | many (a : Code)
  | any (f : Nat → Code)
  | locked (l : Lock) (a : Code)

/-- A step of a thread.  (Model infrastructure.) -/
inductive Ev where
  | acquire (l : Lock)
  | release (l : Lock)
  | io (k : Io)
  deriving DecidableEq, Repr

/-- The runs of a function.  (Model infrastructure.) -/
inductive Runs : Code → List Ev → Prop where
  | skip : Runs .skip []
  | io {k} : Runs (.io k) [.io k]
  | seq {a b s t} : Runs a s → Runs b t → Runs (.seq a b) (s ++ t)
  | raised {a b s} : Runs a s → Runs (.seq a b) s
  | left {a b s} : Runs a s → Runs (.alt a b) s
  | right {a b s} : Runs b s → Runs (.alt a b) s
  | none {a} : Runs (.many a) []
  | more {a s t} : Runs a s → Runs (.many a) t → Runs (.many a) (s ++ t)
  | any {f s} (n : Nat) : Runs (f n) s → Runs (.any f) s
  | locked {l a s} : Runs a s → Runs (.locked l a) (.acquire l :: (s ++ [.release l]))

/-- (Model infrastructure: one after the other.) -/
def seqs : List Code → Code
  | [] => .skip
  | a :: l => .seq a (seqs l)

/-- (Model infrastructure: it may be left out.) -/
def opt (a : Code) : Code := .alt .skip a

/-- (Model infrastructure: one of them.) -/
def alts : List Code → Code
  | [] => .skip
  | a :: l => .alt a (alts l)

/-- A message for the log; the `__repr__` of channels, limiters, services, terminals and packets takes no lock.
(wsclient.py:65-67, limiter.py:53-54, portforward.py:226-228, m2mmanager.py:30-31, remoteprocess.py:91-94) -/
def log : Code := .locked .log (.io .log)

/-! ### wsclient.py -/

/-- `WSClient.send` and `send_bytes` (291-310). -/
def send : Code := seqs [log, .locked .socket (seqs [.io .websocket, log])]

/-- `Channel.write` and `Channel.send_control` (152-162), with `channel_write` and `channel_control_write` (355-367). -/
def write (c : Nat) : Code := opt (.locked (.channel c) send)

/-- `Channel.close` (69-72) with `close_channel` (250-252). -/
def close : Code := opt (seqs [log, send])

/-! ### limiter.py -/

/-- `increment` (60-73) and `decrement` (75-83). -/
def count (l : Nat) : Code := .locked (.limiter l) log

/-- `with limiter(): body` (24-37), and `decrement` after an exception. -/
def limited (l : Nat) (body : Code) : Code := seqs [count l, .locked (.limiter l) (seqs [body, opt (count l)])]

/-! ### portforward.py -/

/-- `_shutdown_read`, `_shutdown_write`, `_close_socket` (115-145). -/
def shutdown (n : Nat) : Code := .locked (.connection n) (seqs [opt (.io (.local n)), opt log])

/-- `_flush_buffer` (190-198). -/
def flush (n : Nat) : Code := .locked (.connection n) (.many (.io (.local n)))

/-- `on_channel_data` (184-188). -/
def connectionData (n : Nat) : Code := .locked (.connection n) (flush n)

/-- `on_channel_close` (199-207). -/
def connectionClose (n : Nat) : Code := .seq log (.locked (.connection n) (seqs [flush n, shutdown n]))

/-- The thread of a connection: `run`, `_run` and `_connect` (49-113, 158-182). -/
def connection (n : Nat) (c : Nat) (l : Nat) : Code :=
  seqs [log, .io (.local n), log, opt (flush n), opt log, .many (seqs [.io (.local n), opt log, write c]), log, opt close, opt (shutdown n), count l]

/-- `Connection.__init__` (28-42) takes no lock.  `Service.connect` (250-265), `connect` (146-156) and `redirect_port` (337-359). -/
def openConnection (svc : Nat) (c : Nat) (l : Nat) : Code :=
  seqs [log, limited l (seqs [opt (.locked (.service svc) .skip), .io .start]), opt (seqs [log, write c, close])]

/-! ### File and command services -/

/-- `FileService.__init__` (fileservice.py:35-49), `CommandService.__init__` (commandservice.py:31-43). -/
def openService (c : Nat) (l : Nat) : Code := .seq (limited l (.io .start)) (opt (seqs [log, write c, close]))

/-- `run_service` of both (fileservice.py:66-106, commandservice.py:54-122). -/
def serviceThread (c : Nat) (l : Nat) : Code :=
  seqs [log, .io .file, .many (seqs [.io .file, opt log, write c]), write c, opt log, write c, opt close, opt log, write c, count l]

/-! ### Terminals -/

/-- `Terminal.launch` (m2mmanager.py:39-76); `RemoteProcess.__init__` takes no lock. -/
def launch (c : Nat) (l : Nat) : Code :=
  seqs [log, limited l (seqs [.io .start, log]), opt (seqs [log, write c, close])]

/-- `RemoteProcess.run` (remoteprocess.py:96-100) with `spawn`, `_copy` and `master_read` (proxy.py:57-101, 125-151, remoteprocess.py:125-127). -/
def terminalThread (c : Nat) (l : Nat) : Code :=
  seqs [.io .terminal, .many (seqs [.io .terminal, write c]), opt log, .io .terminal, count l]

/-- `RemoteProcess.close` (remoteprocess.py:132-141). -/
def terminalClose : Code := seqs [log, .io .terminal, .io .start, opt log]

/-! ### directory_scanner.py, client.py -/

/-- `_perform_scan` (directory_scanner.py:43-69) with `write_scan` and the callback of `on_scan_remote_directory` (wsclient.py:480-481). -/
def scanThread : Code := .locked .scanner (seqs [.io .scan, log, .io .scan, opt send, opt log])

/-- `sync` (client.py:219-225), `_sync` (227-250). -/
def sync : Code := .seq (.locked .sync (seqs [.many (.alt (.io .http) log), log])) (opt log)

/-- `callback` and `clear_callbacks` (wsclient.py:221-241); nothing in the agent calls `add_callback`. -/
def callbacks : Code := .locked .callbacks (opt log)

/-! ### The threads -/

/-- The data callback of a channel, or the queue (wsclient.py:89-99; portforward.py:184-188, echoservice.py:28-30, remoteprocess.py:102-106). -/
def onData (c : Nat) : Code :=
  alts [log, .locked (.channel c) .skip, .any connectionData, write c, seqs [.io .terminal, opt close]]

/-- The close callback of a channel (wsclient.py:74-83; portforward.py:199-207, remoteprocess.py:122-123). -/
def onClose : Code := .seq (alts [.any connectionClose, terminalClose]) (opt log)

/-- The control callback of a channel (wsclient.py:101-107; portforward.py:209-211, remoteprocess.py:108-120). -/
def onControl : Code := seqs [log, opt (.io .terminal)]

/-- `on_instruction` (m2mmanager.py:150-234): what the server can ask for.  The limiter of services is 0, that of terminals 1 (99-100). -/
def instruction : Code :=
  seqs [log, alts [sync, .any (fun c => launch c 1), log, .any (fun s => .any fun c => openConnection s c 0), .seq log (.io .start),
    .any (fun c => openService c 0), .io .start], opt log]

/-- The requests for remote files (remote_directory.py:232-380). -/
def remoteFile : Code := seqs [opt log, .io .file, opt log, send]

/-- One event of the websocket (wsclient.py:275-284, 312-350, 374-499): log messages, messages to the server, the identity (request to the API server), and the
handlers. -/
def event : Code :=
  seqs [log, alts [send, .io .http, callbacks, .any (fun c => onData c), onControl, onClose, instruction, remoteFile, .seq (.io .start) (opt send)],
    opt log]

/-- The receive thread: `WSClient.run` (wsclient.py:259-273), `on_disconnected` (334-338) and `hard_close_channels` (254-257). -/
def receive : Code := .many (alts [event, .seq callbacks (.many onClose)])

/-- The main thread: `run_forever` and `poll` (client.py:100-120, 194-208). -/
def main : Code := .seq (.many (seqs [log, .many (.alt (.io .http) log), sync])) log

/-- The threads.  The channel of a thread is given by a natural number; the others by their numbers.  (wsclient.py:166, client.py:100, portforward.py:25,
fileservice.py:26, commandservice.py:28, m2mmanager.py:66, directory_scanner.py:37, remoteprocess.py:19, clockcheck.py) -/
inductive Kind where
  | main
  | receive
  | connection (n : Nat) (c : Nat) (limiter : Nat)
  | service (c : Nat) (limiter : Nat)
  | terminal (c : Nat) (limiter : Nat)
  | scan
  | waiter
  | clock
  deriving DecidableEq, Repr

/-- What a thread may do; the threads that wait for a process (remoteprocess.py:31-69) and the clock (clockcheck.py) only write to the log. -/
def program : Kind → Code
  | .main => main
  | .receive => receive
  | .connection n c l => connection n c l
  | .service c l => serviceThread c l
  | .terminal c l => terminalThread c l
  | .scan => scanThread
  | .waiter | .clock => .many (.seq (.io .terminal) log)

/-- A thread: what it is, what it will do, and the locks it holds, the last one first.  (Model infrastructure.) -/
structure Thread where
  kind : Kind
  rest : List Ev
  held : List Lock := []
  deriving DecidableEq, Repr

/-- May thread `i` take the lock?  Not if another thread has it, nor if it has it and it is not an `RLock`.  (Semantics of `threading.Lock` and
`threading.RLock`.) -/
def Free (s : List Thread) (i : Nat) (l : Lock) : Prop :=
  ∀ j t, s[j]? = some t → l ∈ t.held → j = i ∧ l.again = true

/-- One step of some thread, or a new thread.  (Model infrastructure.) -/
inductive Step : List Thread → List Thread → Prop where
  | spawn {s} (k : Kind) (r : List Ev) : Runs (program k) r → Step s (s ++ [⟨k, r, []⟩])
  | io {s i t k r} : s[i]? = some t → t.rest = .io k :: r → Step s (s.set i { t with rest := r })
  | acquire {s i t l r} : s[i]? = some t → t.rest = .acquire l :: r → Free s i l → Step s (s.set i { t with rest := r, held := l :: t.held })
  | release {s i t l r h} : s[i]? = some t → t.rest = .release l :: r → t.held = l :: h → Step s (s.set i { t with rest := r, held := h })

/-- What can be reached from the start of the agent.  (Model infrastructure.) -/
inductive Reach : List Thread → Prop where
  | start : Reach []
  | step {s s'} : Reach s → Step s s' → Reach s'

end Verif.Locks
