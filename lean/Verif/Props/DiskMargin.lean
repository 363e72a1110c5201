import Verif.Spec.DiskMargin
import Verif.Props.RemoteDirectory
/-!
C186: the disk margin and what is free for the agent.
-/
namespace Verif.DiskMargin
open Verif RemoteDirectory

theorem figures_eq {st : Device.Stat} (h : Sane st) : (figures st).1 + st.bfree * st.frsize = st.blocks * st.frsize ∧
    (figures st).2 = st.blocks * st.frsize := by
  have h1 : st.bfree * st.frsize ≤ st.blocks * st.frsize := Nat.mul_le_mul_right _ h.free
  simp only [figures, Device.diskUsage]
  rw [← Int.natCast_mul, ← Int.natCast_mul]
  generalize st.bfree * st.frsize = x at h1 ⊢
  generalize st.blocks * st.frsize = y at h1 ⊢
  omega

/-- C186, exactly when a snapshot is refused for lack of space: if the blocks that are free for root do not hold the file and 50,000,000 bytes. -/
theorem c186_iff (c : Cfg) (st : Device.Stat) (h : Sane st) (fs : FS) (path id f : Text) (d : Bytes) (hf : uploadFile c path = .ok f)
    (hd : fs.content c.cwd f = some d) :
    (∃ m, (addUpload c (env st) fs path id).2 = .error (.low m)) ↔ st.bfree * st.frsize < d.length + 50000000 := by
  obtain ⟨h1, h2⟩ := figures_eq h
  rw [c56_iff c (env st) fs path id f d hf hd]
  constructor
  · rintro ⟨_, used, total, hu, hl⟩
    injection hu with hu
    rw [hu] at h1 h2
    simp only at h1 h2
    omega
  · intro hl
    exact ⟨rfl, (figures st).1, (figures st).2, rfl, by omega⟩

theorem blocks_bound {st : Device.Stat} (h : Sane st) (n : Nat) : blocksFor st n * st.frsize < n + st.frsize := by
  have h1 := Nat.div_mul_le_self (n + (st.frsize - 1)) st.frsize
  have := h.size
  simp only [blocksFor]
  omega

/-- C186, the part that holds: where nothing is reserved for root, a snapshot leaves the margin, but for less than one block.  Missing: file systems
with blocks reserved for root, see `c186_counterexample`. -/
theorem c186_partial (c : Cfg) (st : Device.Stat) (h : Sane st) (hr : NoReserve st) (fs fs1 : FS) (path id f : Text) (n : Nat) (d : Bytes)
    (hf : uploadFile c path = .ok f) (hd : fs.content c.cwd f = some d) (ho : addUpload c (env st) fs path id = (fs1, .ok n)) :
    50000000 < left st n + st.frsize := by
  obtain ⟨h1, h2⟩ := figures_eq h
  have hm := c56_margin_partial c (env st) fs fs1 path id f n (figures st).1 (figures st).2 d rfl rfl hf hd ho
  have hb := blocks_bound h n
  have hl : left st n = ((st.bfree * st.frsize : Nat) : Int) - ((blocksFor st n * st.frsize : Nat) : Int) := by
    rw [Int.natCast_mul, Int.natCast_mul, left, hr, Int.sub_mul]
  rw [hl]
  omega

/-- A file system with 4,096,000,000 bytes, a twentieth of them reserved, of which all others but one block are in use. -/
def nearlyFull : Device.Stat := ⟨1000000, 50001, 1, 4096⟩

/-- C186 fails: where a twentieth is reserved for root, as usual, the snapshot is made though it takes the last block that is left for the agent. -/
theorem c186_counterexample : Sane nearlyFull ∧
    (match (addUpload exampleCfg (env nearlyFull) exampleFS "a".toList "u".toList).2 with | .ok n => some n | .error _ => none) = some 5 ∧
    left nearlyFull 5 = 0 :=
  ⟨⟨by decide, by decide, by decide⟩, by decide +kernel, by decide +kernel⟩

/-- C186, how far it fails: whatever is available, if enough is reserved the snapshot is not refused. -/
theorem c186_unbounded (c : Cfg) (st : Device.Stat) (h : Sane st) (fs : FS) (path id f : Text) (d : Bytes) (hf : uploadFile c path = .ok f)
    (hd : fs.content c.cwd f = some d) (hres : d.length + 50000000 ≤ (st.bfree - st.bavail) * st.frsize) (m : Text) :
    (addUpload c (env st) fs path id).2 ≠ .error (.low m) := by
  intro hc
  have := (c186_iff c st h fs path id f d hf hd).1 ⟨m, hc⟩
  have : (st.bfree - st.bavail) * st.frsize ≤ st.bfree * st.frsize := Nat.mul_le_mul_right _ (Nat.sub_le _ _)
  omega

/-- Such a file system without a reserve: it has 200,000,000 bytes left, and the margin is kept. -/
example : left ⟨1000000, 50001, 50001, 4096⟩ 5 = 204800000 := by decide +kernel
example : (match (addUpload exampleCfg (env ⟨1000000, 12000, 12000, 4096⟩) exampleFS "a".toList "u".toList).2 with
    | .error (.low _) => true | _ => false) = true := by decide +kernel

end Verif.DiskMargin
