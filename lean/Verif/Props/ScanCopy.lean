import Verif.Proofs.ScanCopy
import Verif.Props.Interference
import Verif.Props.ScanPart
/-!
C185: the copy of the file of a scan while scans go on.
-/
namespace Verif.ScanCopy
open Verif DirectoryScanner JsonText

/-- C185, the part that holds: if no thread opens the file for writing while it is copied, the copy is what the file was at one moment.  Missing: a
scan that comes to its end meanwhile, see `c185_counterexample`. -/
theorem c185_moment_partial (used total : Nat) (s : State) (segs : Nat → List Op) (hopen : ∀ i, ¬ Opens (segs i)) (b : Bytes) (hb : s.file = some b)
    (size : Nat → Nat) (fuel : Nat) (d : Bytes) (h : copyScan used total s segs size fuel = some (some d)) :
    ∃ i, (run s (upTo segs i)).file = some d := by
  obtain ⟨t, _, ht⟩ := Interference.c177_appended_partial used total _ (appended s segs hopen b hb) size fuel d h
  obtain ⟨b', hb'⟩ := states_file s segs hopen b hb t
  refine ⟨t, ?_⟩
  rw [← states_run, hb', ht]
  simp only [bytes, hb', Option.getD_some]

/-- C185, the part that holds: and then whoever reads the copy as JSON gets an error, or what was in the file when the agent started, or for each path
exactly what the scan of one thread found there. -/
theorem c185_read_partial (ftext : Option Int → Nat → Text) (fval : Text → Json) (other : Enc → Bytes → Option Text) (used total : Nat)
    (file : Option Bytes) (before : List Op) (segs : Nat → List Op) (hopen : ∀ i, ¬ Opens (segs i))
    (found : Nat → Text → Option Scan.Info)
    (hfound : ∀ i u json, .scan u (some json) ∈ before ++ upTo segs i → ScanWire.Written ftext fval (found u) json)
    (b : Bytes) (hb : (run (init file) before).file = some b) (size : Nat → Nat) (fuel : Nat) (d : Bytes)
    (h : copyScan used total (run (init file) before) segs size fuel = some (some d)) (hnew : file ≠ some d)
    (j : Json) (hj : loadsBytes fval other d = some j) :
    ∃ i t, .scan t (some d) ∈ before ++ upTo segs i ∧ ∀ p, ScanJson.listing j p = found t p := by
  obtain ⟨i, hi⟩ := c185_moment_partial used total _ segs hopen b hb size fuel d h
  have hr : (run (init file) (before ++ upTo segs i)).file = some d := by
    rw [← hi]; simp only [run, List.foldl_append]
  exact ⟨i, ScanWire.c155_file ftext fval other file (before ++ upTo segs i) found (hfound i) d hr hnew j hj⟩

/-- What a scan of a directory with two files of this size writes. -/
def twoFiles (n : Int) : Bytes := ScanJson.fileBytes halves "/r".toList (none, 7) (fun _ => false) [("".toList, ⟨[], [("a".toList, n), ("b".toList, n)]⟩)]

/-- A whole scan by thread `t`. -/
def whole (t : Nat) (json : Bytes) : List Op :=
  [.request true none, .acquire t, .scan t (some json), .openFile t true, .write t 1000, .close t, .report t true]

/-- The second scan comes to its end after the first piece was read. -/
def second (i : Nat) : List Op := if i = 1 then whole 1 (twoFiles 2) else []

/-- The pieces: 70 bytes, then whatever is left. -/
def pieces (i : Nat) : Nat := if i = 1 then 69 else 999

/-- C185 fails: the first scan found both files with one byte and the second both with two; the copy that is made while the second is stored is JSON
and says that one has one byte and the other two. -/
theorem c185_counterexample :
    ∃ d, copyScan 0 100000000 (run (init none) (whole 0 (twoFiles 1))) second pieces 5 = some (some d) ∧
      (loadsBytes readHalves (fun _ _ => none) d).map (ScanJson.listing · []) = some (some ⟨[], [("a".toList, 1), ("b".toList, 2)]⟩) ∧
      (loadsBytes readHalves (fun _ _ => none) (twoFiles 1)).map (ScanJson.listing · []) = some (some ⟨[], [("a".toList, 1), ("b".toList, 1)]⟩) ∧
      (loadsBytes readHalves (fun _ _ => none) (twoFiles 2)).map (ScanJson.listing · []) = some (some ⟨[], [("a".toList, 2), ("b".toList, 2)]⟩) := by
  refine ⟨(twoFiles 1).take 70 ++ (twoFiles 2).drop 70, ?_, ?_, ?_, ?_⟩ <;> decide +kernel

/-- Without the second scan the copy is the file of the first. -/
example : copyScan 0 100000000 (run (init none) (whole 0 (twoFiles 1))) (fun _ => []) pieces 5 = some (some (twoFiles 1)) := by decide +kernel

end Verif.ScanCopy
