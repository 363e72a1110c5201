import Verif.Model.Registration
/-! Specification vocabulary for the names of packets and the registration of handlers. -/
namespace Verif.Dispatcher
open Verif

/-- A public method that is marked for packet `n`. -/
def Exposes (a : Attr) (n : Nat) : Prop := a.name.head? ≠ some '_' ∧ ∃ params, a.exposed = some ⟨n, params⟩

/-- A public method that is marked for some packet. -/
def Public (a : Attr) : Prop := ∃ n, Exposes a n

/-- Whether and how a handler is called, without its name. -/
def Outcome.forget : Outcome → Disp
  | .call _ n args => .call n args
  | .raised => .raised
  | _ => .dropped

end Verif.Dispatcher

namespace Verif.Packets

/-- The names and members of packet types that the agent itself gives to `send`, each with the number it has in the table of the protocol.
(wsclient.py:252, 316-318, 357, 367, 389, 481-486; remote_directory.py:241-378) -/
def usedNames : List (String × Nat) :=
  [("request_close", 11), ("request_join", 1), ("request_identify", 2), ("request_send", 5), ("request_send_control", 22), ("pong", 8),
   ("scan_remote_directory_result", 30), ("open_remote_file_result", 25), ("read_remote_file_result", 28), ("write_remote_file_result", 32)]

end Verif.Packets
