import Verif.Props.TermControl
import Verif.Props.JsonText
/-!
C113 for control messages as bytes.
-/
namespace Verif.TermControl
open Verif JsonText

/-- C113 for what comes over the wire: control messages that are JSON in UTF-8, in whatever spelling, set the window of a running terminal to the size
of the last well-formed resize request among them. -/
theorem c113_bytes (fval : Text → Json) (other : Enc → Bytes → Option Text) (t : Term) (hf : t.fd = true) (ms : List (Text × Json))
    (hm : ∀ m ∈ ms, Document fval m.1 m.2) :
    window (run t (ms.map fun m => .control (loadsBytes fval other (utf8Encode m.1)))) = lastAsked (window t) (ms.map fun m => some m.2) := by
  have h : (ms.map fun m => Op.control (loadsBytes fval other (utf8Encode m.1))) = (ms.map fun m => some m.2).map .control := by
    rw [List.map_map]
    exact List.map_congr_left fun m h => congrArg Op.control (c151_bytes fval other m.1 m.2 (hm m h))
  rw [h]
  exact (c113_running t hf _).1

/-- A request with spaces, with an escape in a key and with its keys in another order, and a message of another type after it. -/
example :
    ((run { size := .null, fd := true } (["{ \"size\" : [ 100,\n40 ],\r\n\"t\\u0079pe\":\"window_resize\" }", "{\"type\": \"ping\", \"size\": [1, 2]}", "[1", "{\"type\": \"window_resize\"}"].map
      fun m => .control (loadsBytes readHalves (fun _ _ => none) (asc m)))) |> window) = some (100, 40) := by
  decide +kernel

end Verif.TermControl
