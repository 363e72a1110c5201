import Verif.Model.RemoteFiles
import Verif.Model.DirectoryScanner
import Verif.Model.Instructions
/-!
The client and the remote directory of Model/RemoteFiles together with the scanner of Model/DirectoryScanner: a request of the server
starts a thread (`dataplicity/m2m/wsclient.py:475-486`), the thread writes the scan file (`dataplicity/directory_scanner.py:43-83`) and
tells the server (wsclient.py:480-481), and the server opens the file under the special path (`dataplicity/remote_directory.py:149-153`).

Simplification: a thread that has the scan file open writes at the end of whatever lies at its place; the difference to a file descriptor
shows only if another program replaces the file while it is being written.
-/
namespace Verif.ScanWire
open Verif WSClient RemoteDirectory

/-- The client and the files; and the scanner.  (wsclient.py:183-198, directory_scanner.py:20-29) -/
structure Sys where
  files : RemoteFiles.Sys
  scan : DirectoryScanner.State

/-- An event of the client (`start` is the error of `thread.start()` if a scan is asked for in it); a step of a thread of the scanner;
another program changes a file.  (Model infrastructure.) -/
inductive Move where
  | event (env : RemoteFiles.Env) (start : Option Text) (e : Ev)
  | thread (op : DirectoryScanner.Op)
  | change (k : List Text) (n : Option Node)

/-- The name of the scan file.  (directory_scanner.py:79-81) -/
def scanPath (c : Cfg) : Text := Path.join c.sysTemp "__dataplicity_remote_directory_scan___.json".toList

/-- The place of the scan file.  (directory_scanner.py:79-82) -/
def scanKey (c : Cfg) : List Text := Path.lexKey (Path.join c.cwd (scanPath c))

/-- The contents of the scan file.  (Model infrastructure.) -/
def fileAt (c : Cfg) (fs : FS) : Option Bytes := match fs (scanKey c) with
  | some (.file d) => some d
  | _ => none

/-- The request for a scan that follows from an output of the client: a packet (wsclient.py:475-486) or an instruction
(m2mmanager.py:192-193). -/
def scanRequest : Out → Option Bool
  | .remote 29 [] => some true
  | .instruction _ (.dict d) => match Instructions.instruct ⟨[], false⟩ d with
    | .ok done => if .scanned ∈ done then some false else none
    | .error _ => none
  | _ => none

/-- `self.send("scan_remote_directory_result", "")` (wsclient.py:480-481). -/
def success : List Out := match Packets.create (fun _ => "") 30 [.text []] [] with
  | .ok p => match Packets.encodeBinary p with
    | .ok m => [.sent m]
    | .error _ => []
  | .error _ => []

/-- What a thread can do: `open` fails if the place can not be reached or is a folder.  (directory_scanner.py:82) -/
def allowed (c : Cfg) (fs : FS) : DirectoryScanner.Op → DirectoryScanner.Op
  | .openFile t ok => .openFile t (ok && (fs.writable c.cwd (scanPath c)).isSome)
  | op => op

/-- One move.  An error of `thread.start()` comes only if a thread is started (directory_scanner.py:34-41).  The steps of threads do not
contain requests: these come with events. -/
def step (c : Cfg) (s : Sys) : Move → Sys × List Out
  | .event env start e =>
    let start := if s.scan.lock = none then start else none
    let r := RemoteFiles.step c s.files (.event { env with client := { env.client with scanError := start } } e)
    (⟨r.1, (r.2.filterMap scanRequest).foldl (fun q packet => DirectoryScanner.request q packet start) s.scan⟩, r.2)
  | .thread (.request _ _) => (s, [])
  | .thread op =>
    let before := { s.scan with file := fileAt c s.files.fs }
    let after := DirectoryScanner.step before (allowed c s.files.fs op)
    (⟨if after.file = before.file then s.files else { s.files with fs := s.files.fs.set (scanKey c) (after.file.map .file) }, after⟩,
      if after.replies = before.replies then [] else success)
  | .change k n => (⟨{ s.files with fs := s.files.fs.set k n }, s.scan⟩, [])

/-- Any number of moves.  (Model infrastructure.) -/
def run (c : Cfg) (s : Sys) : List Move → Sys × List Out
  | [] => (s, [])
  | m :: ms =>
    let r := step c s m
    let r' := run c r.1 ms
    (r'.1, r.2 ++ r'.2)

/-- The agent has just started.  (client.py:85-95) -/
def init (client : St) (fs : FS) : Sys := ⟨⟨client, fs⟩, DirectoryScanner.init none⟩

end Verif.ScanWire
