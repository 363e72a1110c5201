import Verif.Proofs.ScanJson
import Verif.Props.RpcBytes
import Verif.Props.Scan
/-!
C153: the file of a scan, as the server reads it.
-/
namespace Verif.ScanJson
open Verif JsonText

/-- C153: the result of a scan is a finite dict; the file that is written for it, in whatever order its items are, is JSON, and whoever reads
it as such finds for each path exactly what the scan found. -/
theorem c153_read (w : Scan.World) (fileSizes : Bool) (maxDepth : Option Int) (fuel : Nat) (dirs : Text → Option Scan.Info)
    (h : Scan.scanDirectory w fileSizes maxDepth fuel = .done dirs) :
    (∃ l, Items l dirs) ∧
    ∀ l, Items l dirs → ∀ (ftext : Option Int → Nat → Text) (fval : Text → Json) (other : Enc → Bytes → Option Text) (root : Text)
      (time : Option Int × Nat), FloatsRead ftext fval [time] → ∀ filesFirst : Text → Bool,
      ∃ j, loadsBytes fval other (fileBytes ftext root time filesFirst l) = some j ∧ rootOf j = some root ∧ ∀ p, listing j p = dirs p := by
  refine ⟨?_, fun l hl ftext fval other root time hf filesFirst =>
    ⟨_, (c151_roundtrip ftext fval other _ (by rw [floats_scan]; exact hf)).2, rfl, listing_json root time filesFirst hl⟩⟩
  refine items_loop fuel ?_ h
  refine items_push ⟨[], List.nodup_nil, fun p i => ⟨fun h => (nomatch h), fun h => ?_⟩⟩ _ _
  cases h

/-- The file for the scan of the example of C62: a directory that is empty has neither key. -/
example : fileBytes halves "/r".toList (none, 7) (fun _ => false)
      [("".toList, ⟨["a".toList], [("f".toList, 3), ("g\"".toList, -1)]⟩), ("a".toList, ⟨[], []⟩)] =
    asc "{\"root\": \"/r\", \"time\": 7.5, \"directories\": {\"\": {\"dirs\": [\"a\"], \"files\": [[\"f\", 3], [\"g\\\"\", -1]]}, \"a\": {}}}" := by
  decide +kernel

/-- It is read back. -/
example : (loadsBytes readHalves (fun _ _ => none) (fileBytes halves "/r".toList (none, 7) (fun p => p.isEmpty)
      [("".toList, ⟨["a".toList], [("f".toList, 3), ("g\"".toList, -1)]⟩), ("a".toList, ⟨[], []⟩)])).map
        (fun j => ["".toList, "a".toList, "b".toList].map (listing j)) =
    some [some ⟨["a".toList], [("f".toList, 3), ("g\"".toList, -1)]⟩, some ⟨[], []⟩, none] := by
  decide +kernel

/-- For the device of C62 there is such a file, whatever the time. -/
example (dirs : Text → Option Scan.Info) (h : Scan.scanDirectory Scan.tree true none 30 = .done dirs) (time : Option Int × Nat) :
    ∃ l, ∃ j, loadsBytes RpcBytes.codeVal (fun _ _ => none) (fileBytes RpcBytes.codeText "/r".toList time (fun _ => true) l) = some j ∧
      ∀ p, listing j p = dirs p := by
  obtain ⟨⟨l, hl⟩, hr⟩ := c153_read _ _ _ _ _ h
  obtain ⟨j, h1, _, h3⟩ := hr l hl RpcBytes.codeText RpcBytes.codeVal (fun _ _ => none) "/r".toList time (RpcBytes.codes_read _) (fun _ => true)
  exact ⟨l, j, h1, h3⟩

end Verif.ScanJson
