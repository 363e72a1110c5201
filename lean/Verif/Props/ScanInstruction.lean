import Verif.Proofs.ScanUnasked
import Verif.Props.ScanWire
/-!
C188: scans that are asked for by an instruction.
-/
namespace Verif.ScanWire
open Verif WSClient RemoteDirectory Instructions

/-- C188: in any state of the agent, an instruction to scan, if no scan is under way, brings a new thread that waits to scan; nothing is told to the
server then. -/
theorem c188_starts (c : Cfg) (s : Sys) (hh : s.files.client.hung = false) (env : RemoteFiles.Env) (e : Ev)
    (hf : (Move.event env none e).fair) (hz : Sized (step c s (.event env none e)).2) {sender : Bytes} {d : List (PyVal × PyVal)}
    (hi : requestIn e = some (.instruction sender d)) (hk : BytesKeys d) (ha : Action d "scan-directory") (hl : s.scan.lock = none) :
    (step c s (.event env none e)).1.scan.next = s.scan.next + 1 ∧ (step c s (.event env none e)).1.scan.phase s.scan.next = .waiting ∧
    (∀ t, t ≠ s.scan.next → (step c s (.event env none e)).1.scan.phase t = s.scan.phase t) ∧
    results (step c s (.event env none e)).2 = [] := by
  simp only [step, ite_self] at hz ⊢
  generalize ({ env with client := { env.client with scanError := none } } : RemoteFiles.Env) = env' at hz ⊢
  have hreq : (RemoteFiles.step c s.files (.event env' e)).2.filterMap scanRequest = [false] := by
    simp only [RemoteFiles.step]
    rw [pass_requests]
    exact client_instruction _ _ hh e hf hi hk ha
  rw [hreq]
  simp only [List.foldl_cons, List.foldl_nil]
  refine ⟨DirectoryScanner.request_next _ _ _, ?_, ?_, ?_⟩
  · simp [DirectoryScanner.request, hl, DirectoryScanner.State.set]
  · intro t ht
    simp [DirectoryScanner.request, hl, DirectoryScanner.State.set, ht]
  · simp only [RemoteFiles.step] at hz ⊢
    rw [pass_results _ _ _ _ hz]
    rcases client_results env'.client s.files.client hh e hf (sized_pass _ _ _ _ hz) with h | ⟨h, _⟩
    · exact h
    · rw [hi] at h
      exact (nomatch h)

/-- C188: the server is told of at most as many results as it has sent requests for scans, whatever instructions it gave and whatever the threads
did; if it sent none, of none. -/
theorem c188_told (c : Cfg) (client : St) (hh : client.hung = false) (fs : FS) (ms : List Move) (hf : ∀ m ∈ ms, m.fair)
    (hz : Sized (run c (init client fs) ms).2) : (results (run c (init client fs) ms).2).length ≤ ms.countP Move.asks := by
  have := run_due c ms (init client fs) hh (fun _ _ => rfl) hf hz
  have h0 : due (init client fs).scan = 0 := rfl
  omega

/-- An instruction to scan, from server to agent. -/
def instructScan : Ev := .binary (asc "li16e4:0000d6:action14:scan-directoryee")

example : requestIn instructScan = some (.instruction (asc "0000") [(.bytes (asc "action"), .bytes (asc "scan-directory"))]) := by decide +kernel
/-- The scan is stored, and nothing is told. -/
example : let r := run exampleCfg (init {} scanFS) (.event {} none instructScan :: scanMoves 0 jsonA ++ [told])
    results r.2 = [] ∧ fileAt exampleCfg r.1.files.fs = some jsonA := by decide +kernel
/-- An instruction that comes while a scan is under way starts none. -/
example : ((run exampleCfg (init {} scanFS) (.event {} none instructScan :: (scanMoves 0 jsonA).take 2 ++ [.event {} none instructScan])).1.scan.phase 1
    == .refused) = true := by decide +kernel

end Verif.ScanWire
