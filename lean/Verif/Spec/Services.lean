import Verif.Model.Services
/-!
Specification vocabulary for C31-C37: functions of the calls a service makes.
-/
namespace Verif.Services
open Verif

/-- The bytes that reach the server over the channel. -/
def sentBytes (acts : List Act) : Bytes := acts.flatMap fun | .write d true => d | _ => []

/-- The arguments of all `channel.write` calls. -/
def written (acts : List Act) : Bytes := acts.flatMap fun | .write d _ => d | _ => []

/-- The bytes read from the standard output of the command. -/
def outputRead (acts : List Act) : Bytes := acts.flatMap fun | .readOut d => d | _ => []

/-- Calls on the channel. -/
def Act.onChannel : Act → Bool
  | .write _ _ | .error _ | .complete _ | .close => true
  | _ => false

/-- Calls that tell the remote side something. -/
def Act.tells : Act → Bool
  | .write d _ => !d.isEmpty
  | .error _ => true
  | _ => false

/-- An HTTP/1.1 response with the status 503 (service unavailable), without header fields: status line, empty line, body (RFC 9112, section 2.1). -/
def Unavailable (b : Bytes) : Prop :=
  ∃ reason body : Bytes, b = asc "HTTP/1.1 503 " ++ reason ++ asc "\r\n\r\n" ++ body ∧ ∀ x ∈ reason, 32 ≤ x ∧ x ≤ 126

/-- Once closed, a channel stays closed. -/
def Mono (closed : Nat → Bool) : Prop := ∀ n m, n ≤ m → closed n = true → closed m = true

/-- An environment of the file service in which nothing goes wrong. -/
structure FileEnv.Good (env : FileEnv) : Prop where
  read : ∀ k, env.read k = none
  write : ∀ k, env.write k = none
  open_ : ∀ n, env.closed n = false

/-- The messages that arrive before the channel closes. -/
def echoed : List Channel.Op → List Bytes
  | [] => []
  | .onClose :: _ => []
  | .data d :: ops => d :: echoed ops
  | _ :: ops => echoed ops

/-- Operations of the server on a channel. -/
def fromServer : Channel.Op → Bool
  | .data _ | .control _ | .onClose => true
  | _ => false

/-- The data messages sent over a channel, in order. -/
def sentMessages (outs : List Channel.Out) : List Bytes := outs.filterMap fun | .sendData d => some d | _ => none

/-- An entry of a poll result on which the loop of the command service ends: something readable which cannot be read, or the end of the
standard output, or output that cannot be written. -/
def Ending (e : PollEvent) : Prop :=
  e.readable = true ∧ ((∃ f, e.read = .raises f) ∨ e.stdout = true ∧ (e.read = .data [] ∨ ∃ f, e.write = some f))

/-- A poll result in which such an entry comes before any entry with an error event; the rest of a result is not looked at after an error. -/
def Finishing (es : List PollEvent) : Prop := ∃ pre e post, es = pre ++ e :: post ∧ (∀ x ∈ pre, x.error = false) ∧ Ending e

/-- A poll result of pipes whose writers are gone and which were read to their end, as Linux reports it: hang-up, not readable. -/
def hangUpOnly (es : List PollEvent) : Prop := ∀ e ∈ es, e.readable = false

end Verif.Services
