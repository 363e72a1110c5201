import Verif.Model.Services
/-!
Model of `FileService._run_service` (dataplicity/m2m/fileservice.py:76-102) for a file that other programs change while it is sent, and for
files without an end.

`content k` is the file when `read` is called for the k-th time.  A call of `read` may consist of several calls to the operating system; the
file of the last of them is meant where the file is only appended to, and otherwise `content k` is what these calls found together.
-/
namespace Verif.FileChanging
open Verif Services

/-- What the service observes, as in Model/Services, with a file that depends on the time.  (fileservice.py:83-89) -/
structure Env where
  content : Nat → Bytes
  read : Nat → Option Fail
  write : Nat → Option Fail
  closed : Nat → Bool

/-- How far the loop has come: at its end, with the exception if there was one. -/
inductive Status where
  | running
  | ended (f : Option Fail)
  deriving DecidableEq, Repr

/-- The k-th call of `read_file.read(CHUNK_SIZE)`, with `pos` bytes read before.  (fileservice.py:84) -/
def piece (env : Env) (k pos : Nat) : Bytes := ((env.content k).drop pos).take chunkSize

/-- The loop of fileservice.py:85-90, with fuel. -/
def sendLoop (env : Env) : Nat → Nat → Nat → List Act × Status
  | 0, _, _ => ([], .running)
  | fuel + 1, k, pos =>
    match env.read k with
    | some f => ([], .ended (some f))
    | none =>
      if (piece env k pos).isEmpty then ([], .ended none)
      else if env.closed (2 * k) then ([], .ended none)
      else
        match env.write k with
        | some f => ([.write (piece env k pos) false], .ended (some f))
        | none =>
          let r := sendLoop env fuel (k + 1) (pos + (piece env k pos).length)
          (.write (piece env k pos) (!env.closed (2 * k + 1)) :: r.1, r.2)

/-- What follows the loop: fileservice.py:91-102 and 74. -/
def finish : Status → List Act
  | .running => []
  | .ended f => onFail f ++ [.close, .release]

/-- `run_service` (fileservice.py:65-102) once the file is open, for so many rounds. -/
def send (env : Env) (fuel : Nat) : List Act :=
  let r := sendLoop env fuel 0 0
  r.1 ++ finish r.2

end Verif.FileChanging
