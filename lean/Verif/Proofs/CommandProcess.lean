import Verif.Spec.CommandProcess
/-!
Lemmas for C183 and C184.
-/
namespace Verif.CommandProcess
open Verif

theorem run_snoc (s : St) (ms : List Move) (m : Move) : run s (ms ++ [m]) = step (run s ms) m := by simp [run]

theorem run_append (s : St) (a b : List Move) : run s (a ++ b) = run (run s a) b := by simp [run]

/-- The shell and its status go together. -/
structure Inv (ms : List Move) (s : St) : Prop where
  shell : ∃ p, s.procs[0]? = some p ∧ (p.alive = true ↔ s.status = none)
  before : s.phase ≠ .ended → s.status = (shellExits ms).head?
  killed : s.phase ≠ .ended → s.kills = 0
  told : ∀ st c, s.told = some st → st = some c → (shellExits ms).head? = some c
  ended : s.phase = .ended → s.status ≠ none
  kill : s.kills ≤ 1

theorem head_append {l : List Int} {x : Int} (h : l.head? = some x) (l' : List Int) : (l ++ l').head? = some x := by
  cases l with
  | nil => simp at h
  | cons a l => simpa using h

theorem exits_snoc (ms : List Move) (m : Move) : shellExits (ms ++ [m]) = shellExits ms ++ shellExits [m] := by simp [shellExits]

theorem set_zero {l : List Proc} {i : Nat} {p q : Proc} (h : l[0]? = some p) (hi : i ≠ 0) : (l.set i q)[0]? = some p := by
  rw [List.getElem?_set_ne hi]; exact h

theorem set_zero_self {l : List Proc} {p q : Proc} (h : l[0]? = some p) : (l.set 0 q)[0]? = some q := by
  cases l with
  | nil => simp at h
  | cons a l => simp

theorem inv_step {ms : List Move} {s : St} (h : Inv ms s) (m : Move) : Inv (ms ++ [m]) (step s m) := by
  obtain ⟨p, hp, hpa⟩ := h.shell
  have same : shellExits [m] = [] → step s m = s → Inv (ms ++ [m]) (step s m) := by
    intro h1 h2
    rw [h2]
    refine ⟨h.shell, ?_, h.killed, ?_, h.ended, h.kill⟩
    · rw [exits_snoc, h1, List.append_nil]; exact h.before
    · rw [exits_snoc, h1, List.append_nil]; exact h.told
  cases m with
  | fork i =>
    have hx : shellExits [.fork i] = [] := rfl
    simp only [step]
    split
    · split
      · refine ⟨⟨p, ?_, hpa⟩, by rw [exits_snoc, hx, List.append_nil]; exact h.before, h.killed,
          by rw [exits_snoc, hx, List.append_nil]; exact h.told, h.ended, h.kill⟩
        have hlt : 0 < s.procs.length := by
          apply Classical.byContradiction
          intro hn
          rw [List.getElem?_eq_none (by omega)] at hp
          exact (nomatch hp)
        rw [List.getElem?_append_left hlt]; exact hp
      · refine ⟨h.shell, by rw [exits_snoc, hx, List.append_nil]; exact h.before, h.killed,
          by rw [exits_snoc, hx, List.append_nil]; exact h.told, h.ended, h.kill⟩
    · refine ⟨h.shell, by rw [exits_snoc, hx, List.append_nil]; exact h.before, h.killed,
          by rw [exits_snoc, hx, List.append_nil]; exact h.told, h.ended, h.kill⟩
  | shut i =>
    have hx : shellExits [.shut i] = [] := rfl
    simp only [step]
    split
    · rename_i q hq
      refine ⟨?_, by rw [exits_snoc, hx, List.append_nil]; exact h.before, h.killed,
          by rw [exits_snoc, hx, List.append_nil]; exact h.told, h.ended, h.kill⟩
      by_cases hi : i = 0
      · subst hi
        rw [hp] at hq
        injection hq with hq
        subst hq
        exact ⟨_, set_zero_self hp, hpa⟩
      · exact ⟨p, set_zero hp hi, hpa⟩
    · refine ⟨h.shell, by rw [exits_snoc, hx, List.append_nil]; exact h.before, h.killed,
          by rw [exits_snoc, hx, List.append_nil]; exact h.told, h.ended, h.kill⟩
  | exit i code =>
    by_cases hi : i = 0
    · subst hi
      have hx : shellExits [.exit 0 code] = [code] := rfl
      simp only [step]
      by_cases hr : s.runs 0 = true
      · rw [if_pos hr]
        have ha : p.alive = true := by
          simp only [St.runs, hp] at hr
          exact hr
        have hs := hpa.1 ha
        have hph : s.phase ≠ .ended := fun hc => h.ended hc hs
        refine ⟨⟨⟨false, false⟩, set_zero_self hp, by simp⟩, ?_, h.killed, ?_, fun _ => by simp, h.kill⟩
        · intro _
          have := h.before hph
          rw [hs] at this
          rw [exits_snoc, hx]
          have hn : shellExits ms = [] := List.head?_eq_none_iff.1 this.symm
          rw [hn]
          rfl
        · intro st c h1 h2
          rw [exits_snoc]
          exact head_append (h.told st c h1 h2) _
      · rw [if_neg hr]
        refine ⟨h.shell, ?_, h.killed, ?_, h.ended, h.kill⟩
        · intro hph
          have hs : s.status ≠ none := by
            intro hc
            apply hr
            simp only [St.runs, hp]
            exact hpa.2 hc
          rw [exits_snoc]
          have := h.before hph
          cases hst : s.status with
          | none => exact absurd hst hs
          | some c => rw [hst] at this; rw [head_append this.symm]
        · intro st c h1 h2
          rw [exits_snoc]
          exact head_append (h.told st c h1 h2) _
    · have hx : shellExits [.exit i code] = [] := by
        cases i with
        | zero => exact absurd rfl hi
        | succ i => rfl
      simp only [step]
      by_cases hr : s.runs i = true
      · rw [if_pos hr, if_neg hi]
        exact ⟨⟨p, set_zero hp hi, hpa⟩, by rw [exits_snoc, hx, List.append_nil]; exact h.before, h.killed,
          by rw [exits_snoc, hx, List.append_nil]; exact h.told, h.ended, h.kill⟩
      · rw [if_neg hr]
        exact ⟨h.shell, by rw [exits_snoc, hx, List.append_nil]; exact h.before, h.killed,
          by rw [exits_snoc, hx, List.append_nil]; exact h.told, h.ended, h.kill⟩
  | poll q =>
    have hx : shellExits [.poll q] = [] := rfl
    by_cases hc : (s.phase = .reading && leaves s q) = true
    · simp only [step]
      rw [if_pos hc]
      have hph : s.phase = .reading := by
        simp only [Bool.and_eq_true, decide_eq_true_eq] at hc
        exact hc.1
      have hne : s.phase ≠ .ended := by rw [hph]; decide
      exact ⟨h.shell, fun _ => by rw [exits_snoc, hx, List.append_nil]; exact h.before hne, fun _ => h.killed hne,
        by rw [exits_snoc, hx, List.append_nil]; exact h.told, fun hc => (nomatch hc), h.kill⟩
    · exact same hx (by simp only [step]; rw [if_neg hc])
  | complete =>
    have hx : shellExits [.complete] = [] := rfl
    by_cases hc : s.phase = .leaving
    · simp only [step]
      rw [if_pos hc]
      have hne : s.phase ≠ .ended := by rw [hc]; decide
      refine ⟨h.shell, fun _ => by rw [exits_snoc, hx, List.append_nil]; exact h.before hne, fun _ => h.killed hne, ?_,
        fun hc => (nomatch hc), h.kill⟩
      intro st c h1 h2
      injection h1 with h1
      rw [exits_snoc, hx, List.append_nil, ← h.before hne, h1, h2]
    · exact same hx (by simp only [step]; rw [if_neg hc])
  | finish =>
    have hx : shellExits [.finish] = [] := rfl
    by_cases hc : s.phase = .told
    · simp only [step]
      rw [if_pos hc]
      have hne : s.phase ≠ .ended := by rw [hc]; decide
      simp only [killIfRunning]
      split
      · rename_i c hst
        exact ⟨h.shell, fun hn => absurd rfl hn, fun hn => absurd rfl hn, by rw [exits_snoc, hx, List.append_nil]; exact h.told,
          fun _ => by simp only [hst]; simp, h.kill⟩
      · exact ⟨⟨⟨false, false⟩, set_zero_self hp, by simp⟩, fun hn => absurd rfl hn, fun hn => absurd rfl hn,
          by rw [exits_snoc, hx, List.append_nil]; exact h.told, fun _ => by simp, by simp only; rw [h.killed hne]; omega⟩
    · exact same hx (by simp only [step]; rw [if_neg hc])

theorem inv_run (ms : List Move) : Inv ms (run {} ms) := by
  have key : ∀ rest done s, Inv done s → Inv (done ++ rest) (run s rest) := by
    intro rest
    induction rest with
    | nil => intro done s h; simpa [run] using h
    | cons m rest ih =>
      intro done s h
      have := ih (done ++ [m]) (step s m) (inv_step h m)
      simpa [run] using this
  have h0 : Inv [] ({} : St) := ⟨⟨_, rfl, by simp⟩, fun _ => rfl, fun _ => rfl, fun _ _ h => (nomatch h), fun h => (nomatch h), by simp⟩
  simpa using key ms [] {} h0

end Verif.CommandProcess
