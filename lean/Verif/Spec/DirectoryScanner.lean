import Verif.Model.DirectoryScanner
/-!
Specification vocabulary for C65-C67.
-/
namespace Verif.DirectoryScanner
open Verif

/-- The result messages for request `t`. -/
def repliesTo (s : State) (t : Nat) : List Text := (s.replies.filter (fun r => r.1 = t)).map (·.2)

/-- The thread reads the directory or writes the file. -/
def Phase.busy : Phase → Prop
  | .scanning | .scanned _ | .writing _ _ | .written _ => True
  | _ => False

/-- The thread has the file open. -/
def Phase.open : Phase → Prop
  | .writing _ _ => True
  | _ => False

/-- The thread has written all of `json`. -/
def Phase.stored (json : Bytes) : Phase → Prop
  | .written j | .finished j _ => j = json
  | _ => False

end Verif.DirectoryScanner
