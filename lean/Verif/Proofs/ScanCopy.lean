import Verif.Spec.ScanCopy
/-!
Lemmas for C185.
-/
namespace Verif.ScanCopy
open Verif DirectoryScanner

theorem states_run (s : State) (segs : Nat → List Op) (i : Nat) : states s segs i = run s (upTo segs i) := by
  induction i with
  | zero => rfl
  | succ i ih => simp only [states, upTo, ih, run, List.foldl_append]

/-- A step that does not open the file only appends to it. -/
theorem step_file (s : State) (op : Op) (h : ∀ t ok, op ≠ .openFile t ok) (b : Bytes) (hb : s.file = some b) :
    ∃ b', (step s op).file = some b' ∧ b <+: b' := by
  have same : ∀ s' : State, s'.file = s.file → ∃ b', s'.file = some b' ∧ b <+: b' := fun s' e => ⟨b, by rw [e]; exact hb, List.prefix_refl _⟩
  cases op with
  | openFile t ok => exact absurd rfl (h t ok)
  | request p st =>
    simp only [step, request]
    split
    · exact same _ rfl
    · split
      · split <;> exact same _ rfl
      · exact same _ rfl
  | acquire t => simp only [step]; split <;> (try split) <;> exact same _ rfl
  | scan t out => simp only [step]; split <;> (try split) <;> exact same _ rfl
  | writeFails t => simp only [step]; split <;> exact same _ rfl
  | close t => simp only [step]; split <;> exact same _ rfl
  | report t ok => simp only [step]; split <;> (try split) <;> exact same _ rfl
  | write t n =>
    simp only [step]
    split
    · rename_i json rest _
      exact ⟨b ++ rest.take n, by simp only [hb, Option.map_some], List.prefix_append _ _⟩
    · exact same _ rfl

theorem run_file (ops : List Op) (h : ¬ Opens ops) (s : State) (b : Bytes) (hb : s.file = some b) :
    ∃ b', (run s ops).file = some b' ∧ b <+: b' := by
  induction ops generalizing s b with
  | nil => exact ⟨b, hb, List.prefix_refl _⟩
  | cons op ops ih =>
    obtain ⟨b1, h1, p1⟩ := step_file s op (fun t ok e => h ⟨t, ok, by rw [e]; exact List.mem_cons_self⟩) b hb
    obtain ⟨b2, h2, p2⟩ := ih (fun ⟨t, ok, e⟩ => h ⟨t, ok, List.mem_cons_of_mem _ e⟩) (step s op) b1 h1
    exact ⟨b2, h2, p1.trans p2⟩

theorem states_file (s : State) (segs : Nat → List Op) (h : ∀ i, ¬ Opens (segs i)) (b : Bytes) (hb : s.file = some b) (i : Nat) :
    ∃ b', (states s segs i).file = some b' := by
  induction i with
  | zero => exact ⟨b, hb⟩
  | succ i ih =>
    obtain ⟨b', hb'⟩ := ih
    obtain ⟨b2, h2, _⟩ := run_file (segs i) (h i) _ b' hb'
    exact ⟨b2, h2⟩

theorem appended (s : State) (segs : Nat → List Op) (h : ∀ i, ¬ Opens (segs i)) (b : Bytes) (hb : s.file = some b) :
    ∀ i, bytes (states s segs i) <+: bytes (states s segs (i + 1)) := by
  intro i
  obtain ⟨b', hb'⟩ := states_file s segs h b hb i
  obtain ⟨b2, h2, p⟩ := run_file (segs i) (h i) _ b' hb'
  simp only [bytes, states, hb', h2, Option.getD_some]
  exact p

end Verif.ScanCopy
