import Verif.Model.Limiter
import Verif.Model.Channel
/-!
Model of the services that are launched on a channel: `dataplicity/m2m/fileservice.py`, `dataplicity/m2m/commandservice.py`,
`dataplicity/m2m/echoservice.py`, and of the launching code of `dataplicity/portforward.py` and `Terminal.launch`
(`dataplicity/m2mmanager.py:39-74`).

The operating system (files, pipes, child processes, threads) and the moments at which the channel is found closed are inputs.  Control
messages and requests to close do not raise: `WSClient.send_bytes` (wsclient.py:303-310) takes the errors of the web socket.
-/
namespace Verif.Services
open Verif

/-- The calls a service makes.  (fileservice.py:47-102, commandservice.py:42-127) -/
inductive Act where
  /-- `channel.write(data)`; `sent` says whether it reached the server (`write` does nothing on a closed channel). -/
  | write (data : Bytes) (sent : Bool)
  /-- `send_error(channel, status, ...)`: a control message of type "error". -/
  | error (status : String)
  /-- the control message of type "complete" (commandservice.py:119-121). -/
  | complete (returncode : Option Int)
  | close
  | readOut (data : Bytes)
  | readErr (data : Bytes)
  | kill
  /-- `self.limiter.decrement()`. -/
  | release
  deriving DecidableEq, Repr

/-- The kinds of exceptions that the code tells apart.  (fileservice.py:91-96, commandservice.py:110-113) -/
inductive Fail where
  | io
  | webSocket
  | other
  deriving DecidableEq, Repr

/-! ### Launching -/

/-- Where a service is launched.  (fileservice.py:39, commandservice.py:35, portforward.py:256, 349, m2mmanager.py:65) -/
inductive Kind where
  | file | command | forward | redirect | terminal
  deriving DecidableEq, Repr

/-- `SERVER_BUSY` (constants.py:48-54). -/
def serverBusy : Bytes := asc ("HTTP/1.1 503 Device Busy\r\n\r\n\n<h1>503 - Server busy</h1>\n\n"
  ++ "<p>The device is under heavy load and could not return a response.</p>\n\n"
  ++ "<p>Try increasing <tt>DATAPLICITY_LIMIT_SERVICES</tt></p>\n")

/-- The `except Exception` branch of each launcher: fileservice.py:44-48, commandservice.py:40-43, portforward.py:262-265 and
356-359, m2mmanager.py:69-72.  `closed`: is the channel already closed. -/
def onLaunchError (closed : Bool) : Kind → List Act
  | .file | .forward | .redirect => [.write serverBusy (!closed), .close]
  | .command => [.error "error", .close]
  | .terminal => [.write (asc "Failed to launch remote process\n") (!closed), .close]

/-- `FileService.__init__` (fileservice.py:35-48), `CommandService.__init__` (commandservice.py:31-43), `Service.connect`
(portforward.py:250-265), `PortForwardManager.redirect_port` (portforward.py:337-359) and `Terminal.launch` (m2mmanager.py:39-74):
`with limiter(): ...start()`.  `startOk`: creating and starting the thread succeeds.  The constructor of `RemoteProcess`, called
before the `with` by `Terminal.launch`, only assigns attributes and can not raise. -/
def start (k : Kind) (closed : Bool) (l : Limiter.Lim) (startOk : Bool) : Limiter.Lim × List Act :=
  match Limiter.launch l startOk with
  | (l', true) => (l', [])
  | (l', false) => (l', onLaunchError closed k)

/-! ### File service -/

/-- `CHUNK_SIZE` (constants.py:39). -/
def chunkSize : Nat := 1048576

/-- What `open(path, "rb")` finds.  (fileservice.py:83) -/
inductive Opened where
  | file (content : Bytes)
  | raises (f : Fail)
  deriving DecidableEq, Repr

/-- Everything the file service observes.  `read k`: the k-th call of `read` raises.  `write k`: the k-th `channel.write` raises.
`closed n`: the channel is closed the n-th time its state is looked at.  (fileservice.py:83-89) -/
structure FileEnv where
  fs : Text → Opened
  read : Nat → Option Fail
  write : Nat → Option Fail
  closed : Nat → Bool

/-- What the successive calls `read_file.read(CHUNK_SIZE)` return before the empty one: `BufferedReader.read(n)` returns exactly `n`
bytes unless the end of the file is reached.  `fuel` is at least the length of the content.  (fileservice.py:84-85) -/
def chunksOf (n : Nat) : Nat → Bytes → List Bytes
  | 0, _ => []
  | fuel + 1, b => if b.isEmpty then [] else b.take n :: chunksOf n fuel (b.drop n)

/-- The loop of fileservice.py:83-90: `k` chunks were sent before; returns the exception that ended it, if any. -/
def fileLoop (env : FileEnv) (k : Nat) : List Bytes → List Act × Option Fail
  | [] => ([], env.read k)
  | c :: cs =>
    match env.read k with
    | some f => ([], some f)
    | none =>
      if env.closed (2 * k) then ([], none)
      else
        match env.write k with
        | some f => ([.write c false], some f)
        | none =>
          let r := fileLoop env (k + 1) cs
          (.write c (!env.closed (2 * k + 1)) :: r.1, r.2)

/-- `path = "/" + path` unless it starts with a slash (fileservice.py:80-81). -/
def absPath (path : Text) : Text := if path.head? = some '/' then path else '/' :: path

/-- The `except` clauses of fileservice.py:91-98. -/
def onFail : Option Fail → List Act
  | none => []
  | some .io => [.error "ioerror"]
  | some .webSocket => []
  | some .other => [.error "error"]

/-- `_run_service` (fileservice.py:76-102); the second component says that it raised.  `path` is `none` if the value in the
instruction is not a string: `path.startswith` then raises, outside of the `try`. -/
def fileBody (env : FileEnv) : Option Text → List Act × Bool
  | none => ([], true)
  | some path =>
    match env.fs (absPath path) with
    | .raises f => (onFail (some f) ++ [.close], false)
    | .file content =>
      let r := fileLoop env 0 (chunksOf chunkSize content.length content)
      (r.1 ++ onFail r.2 ++ [.close], false)

/-- `run_service` (fileservice.py:65-74). -/
def fileRun (env : FileEnv) (path : Option Text) : List Act :=
  let r := fileBody env path
  r.1 ++ (if r.2 then [.error "error"] else []) ++ [.release]

/-! ### Command service -/

/-- Result of `os.read`.  (commandservice.py:94, 102) -/
inductive ReadRes where
  | data (d : Bytes)
  | raises (f : Fail)
  deriving DecidableEq, Repr

/-- One entry of the result of `poll.poll`: which descriptor, the two classes of its event mask, what reading it gives, and whether
writing that to the channel raises.  (commandservice.py:91-105) -/
structure PollEvent where
  stdout : Bool
  readable : Bool
  error : Bool
  read : ReadRes := .data []
  write : Option Fail := none
  deriving DecidableEq, Repr

/-- Everything the command service observes.  `popen`: `Popen` succeeds.  `poll k`: the k-th poll (`none`: raises).  `closed n`: the
channel is closed the n-th time it is looked at.  `status1`, `status2`: the two calls of `process.poll()` at the end. -/
structure CmdEnv where
  popen : Bool
  poll : Nat → Option (List PollEvent)
  closed : Nat → Bool
  status1 : Option Int
  status2 : Option Int

/-- How an inner `for` or the loop ended.  (commandservice.py:84-115) -/
inductive Fin where
  | more
  | done
  | raised (f : Fail)
  deriving DecidableEq, Repr

/-- The inner loop (commandservice.py:91-105): the actions, the number of times the channel was looked at, and how it ended. -/
def pollEvents (closed : Nat → Bool) (n : Nat) : List PollEvent → List Act × Nat × Fin
  | [] => ([], n, .more)
  | e :: es =>
    if e.readable then
      match e.read with
      | .raises f => ([], n, .raised f)
      | .data c =>
        if e.stdout then
          if c.isEmpty then ([.readOut c], n, .done)
          else
            match e.write with
            | some f => ([.readOut c, .write c false], n + 1, .raised f)
            | none =>
              if e.error then ([.readOut c, .write c (!closed n)], n + 1, .more)
              else
                let r := pollEvents closed (n + 1) es
                (.readOut c :: .write c (!closed n) :: r.1, r.2)
        else if e.error then ([.readErr c], n, .more)
        else
          let r := pollEvents closed n es
          (.readErr c :: r.1, r.2)
    else if e.error then ([], n, .more)
    else pollEvents closed n es

/-- The outer loop (commandservice.py:84-108), at most `fuel` iterations; `more` means it is still looping.  When the inner loop found
the end of the output (`more_data = False`) the outer loop ends whether or not the channel is closed. -/
def cmdLoop (env : CmdEnv) : Nat → Nat → Nat → List Act × Fin
  | 0, _, _ => ([], .more)
  | fuel + 1, k, n =>
    match env.poll k with
    | none => ([], .done)
    | some es =>
      match pollEvents env.closed n es with
      | (acts, _, .raised f) => (acts, .raised f)
      | (acts, _, .done) => (acts, .done)
      | (acts, n', .more) =>
        if env.closed n' then (acts, .done)
        else
          let r := cmdLoop env fuel (k + 1) (n' + 1)
          (acts ++ r.1, r.2)

/-- The `except` clauses of commandservice.py:110-115. -/
def onCmdFail : Fin → List Act
  | .raised .webSocket => []
  | .raised _ => [.error "error"]
  | _ => []

/-- The `finally` clause (commandservice.py:118-127). -/
def cmdFinally (env : CmdEnv) : List Act :=
  [.complete env.status1, .close] ++ (if env.status2.isNone then [.kill] else [])

/-- `run_service` and `_run_service` (commandservice.py:55-127), at most `fuel` iterations of the loop; the second component says that
the service has ended. -/
def cmdRun (env : CmdEnv) (fuel : Nat) : List Act × Bool :=
  if env.popen then
    match cmdLoop env fuel 0 0 with
    | (acts, .more) => (acts, false)
    | (acts, fin) => (acts ++ onCmdFail fin ++ cmdFinally env ++ [.release], true)
  else ([.error "error", .release], true)

/-! ### Echo service -/

/-- `EchoService.on_data` (echoservice.py:25-27), called by `Channel.on_data` on the receive thread, which therefore handles nothing
else before the write has finished.  `echo` is the name of the callback. -/
def echoReact (echo : Nat) (c : Channel.Ch) : List Channel.Out → Channel.Ch × List Channel.Out
  | [] => (c, [])
  | .dataCall cb d :: outs =>
    if cb = echo then
      let r := Channel.run c [.beginWrite d, .finishWrite 0]
      let r' := echoReact echo r.1 outs
      (r'.1, r.2 ++ r'.2)
    else echoReact echo c outs
  | _ :: outs => echoReact echo c outs

/-- Operations on a channel with an echo service.  (echoservice.py:20-27) -/
def echoRun (echo : Nat) (c : Channel.Ch) : List Channel.Op → Channel.Ch × List Channel.Out
  | [] => (c, [])
  | op :: ops =>
    let r := Channel.step c op
    let e := echoReact echo r.1 r.2
    let r' := echoRun echo e.1 ops
    (r'.1, r.2 ++ e.2 ++ r'.2)

/-- `EchoService.__init__` (echoservice.py:20-23). -/
def echoOpen (echo : Nat) (c : Channel.Ch) : Channel.Ch := (Channel.step c (.setCallbacks (some echo) none none)).1

end Verif.Services
