import Verif.Py.Text
/-!
Models of `app.py`, the subcommands, and the way `Client` gets its serial and token.
-/
namespace Verif.App
open Verif

/-! ### client.py -/

/-- `given or self._read(path)` (client.py 56-62, 72-73): `file` is the text of the file, `none` if reading it raises; the result is `none`
if the exception leaves `Client.__init__`. -/
def setting (given file : Option Text) : Option Text := match given with
  | some t => if t.isEmpty then file.map (stripWith isSpaceC) else some t
  | none => file.map (stripWith isSpaceC)

/-- The serial and the token of a client (72-73), if it gets as far. -/
def credentials (serial token serialFile tokenFile : Option Text) : Option (Text × Text) := do
  let s ← setting serial serialFile
  let t ← setting token tokenFile
  pure (s, t)

/-! ### app.py -/

/-- The subcommands (subcommands/run.py, subcommands/version.py). -/
inductive Cmd where
  | run
  | version
  deriving DecidableEq

/-- The arguments (app.py 36-118) that matter.
An empty name of a log file counts as none (129).  Arguments that `argparse` refuses are left out. -/
structure Args where
  quiet : Bool
  debug : Bool
  logLevel : Text
  /-- `none`: no log file was named; otherwise whether it can be used. -/
  logFile : Option Bool
  cmd : Option Cmd

/-- `_logging_level_names` (17-25). -/
def levels : List (Text × Nat) :=
  [("NOTSET".toList, 0), ("DEBUG".toList, 10), ("INFO".toList, 20), ("WARN".toList, 30), ("WARNING".toList, 30), ("ERROR".toList, 40),
   ("CRITICAL".toList, 50)]

/-- (app.py 123) -/
def sCritical : Text := "CRITICAL".toList

/-- What can go wrong before the command is run.  (123-156) -/
inductive Bad where
  | keyError
  | valueError
  | reported      -- `self.error("invalid log level")` (127), which exits with status -1
  deriving DecidableEq

/-- `_init_logging` (120-156): the level, or what is raised.  `upper` is `str.upper`.  The handler (126) is for `IndexError`, which a dict never
raises. -/
def initLogging (upper : Text → Text) (a : Args) : Except Bad Nat :=
  let level := if a.quiet then sCritical else upper a.logLevel
  match levels.find? (fun x => decide (x.1 = level)) with
  | none => .error .keyError
  | some (_, n) => match a.logFile with
    | some false => .error .valueError
    | _ => .ok n

/-- How the process ends: `sys.exit(code)`, or an exception that nobody catches.  (173, 183-205) -/
inductive End where
  | exit (code : Int)
  | traceback
  deriving DecidableEq

/-- `run` and `main` (175-205).  `cmd` says whether a command returns (both return `None`) or raises.
Only an `Exception` from a command is modelled, not `SystemExit` or `KeyboardInterrupt`. -/
def main (upper : Text → Text) (a : Args) (cmd : Cmd → Bool) : End := match initLogging upper a with
  | .error .reported => .exit (-1)
  | .error _ => .traceback
  | .ok _ => match a.cmd with
    | none => .exit 1
    | some c => if cmd c then .exit 0 else if a.debug then .traceback else .exit (-1)

/-- The exit status of the process, as its parent sees it.  (205) -/
def status : End → Int
  | .exit code => code % 256
  | .traceback => 1

end Verif.App
