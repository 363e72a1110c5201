import Verif.Proofs.CommandProcess
/-!
C183, C184: the processes of a command.
-/
namespace Verif.CommandProcess
open Verif

/-! ### C183 -/

/-- C183, the part that holds: what the complete message says is the exit status of the shell if it has exited before the message is made, and
nothing otherwise.  Missing: a shell that has not exited then, see `c183_counterexample`. -/
theorem c183_partial (ms : List Move) (h : (run {} ms).phase = .leaving) :
    (run {} (ms ++ [.complete])).told = some (shellExits ms).head? := by
  rw [run_snoc]
  simp only [step]
  rw [if_pos h]
  simp only
  rw [(inv_run ms).before (by rw [h]; decide)]

/-- C183: a status in the complete message is never wrong. -/
theorem c183_right (ms : List Move) (c : Int) (h : (run {} ms).told = some (some c)) : (shellExits ms).head? = some c :=
  (inv_run ms).told _ c h rfl

/-- C183 fails: a command that exits with status 0 is reported without a status if the end of its output is seen before its status can be got.
If it takes longer to exit, because it has closed its output before, it is even killed. -/
theorem c183_counterexample :
    (let s := run {} [.shut 0, .poll .eof, .complete, .exit 0 0, .finish]
     s.told = some none ∧ s.kills = 0 ∧ s.status = some 0 ∧ s.phase = .ended) ∧
    (let s := run {} [.shut 0, .poll .eof, .complete, .finish, .exit 0 0]
     s.told = some none ∧ s.kills = 1 ∧ s.status = some (-9) ∧ s.phase = .ended) := by decide

/-- C183: the shell is killed at the end exactly if it has not exited by then, and only once. -/
theorem c183_killed (ms : List Move) (h : (run {} ms).phase = .told) :
    (run {} (ms ++ [.finish])).kills = if shellExits ms = [] then 1 else 0 := by
  have hne : (run {} ms).phase ≠ .ended := by rw [h]; decide
  have hb := (inv_run ms).before hne
  have hk := (inv_run ms).killed hne
  rw [run_snoc]
  simp only [step]
  rw [if_pos h]
  simp only [killIfRunning]
  cases hs : (run {} ms).status with
  | some c =>
    simp only
    rw [hs] at hb
    have hn : shellExits ms ≠ [] := fun hc => by rw [hc] at hb; exact (nomatch hb)
    rw [if_neg hn, hk]
  | none =>
    simp only
    rw [hs] at hb
    rw [if_pos (List.head?_eq_none_iff.1 hb.symm), hk]

/-- C183: the service leaves its loop only if the channel was found closed, if something raised, or if it saw the end of the output at a moment at
which no running process held it. -/
theorem c183_reads (ms : List Move) (h : (run {} ms).phase ≠ .reading) :
    .poll .closed ∈ ms ∨ .poll .raised ∈ ms ∨
    ∃ a b, ms = a ++ .poll .eof :: b ∧ ∀ p ∈ (run {} a).procs, ¬ (p.alive = true ∧ p.out = true) := by
  have key : ∀ rest done, ((run {} done).phase = .reading) → (run {} (done ++ rest)).phase ≠ .reading →
      .poll .closed ∈ rest ∨ .poll .raised ∈ rest ∨
      ∃ a b, rest = a ++ .poll .eof :: b ∧ ∀ p ∈ (run {} (done ++ a)).procs, ¬ (p.alive = true ∧ p.out = true) := by
    intro rest
    induction rest with
    | nil => intro done h1 h2; rw [List.append_nil] at h2; exact absurd h1 h2
    | cons m rest ih =>
      intro done h1 h2
      by_cases hm : (run {} (done ++ [m])).phase = .reading
      · rw [show done ++ m :: rest = (done ++ [m]) ++ rest by simp] at h2
        rcases ih (done ++ [m]) hm h2 with h | h | ⟨a, b, e, h⟩
        · exact .inl (List.mem_cons_of_mem _ h)
        · exact .inr (.inl (List.mem_cons_of_mem _ h))
        · exact .inr (.inr ⟨m :: a, b, by rw [e]; rfl, by simpa using h⟩)
      · rw [run_snoc] at hm
        cases m with
        | fork i => simp only [step] at hm; split at hm <;> (try split at hm) <;> exact absurd h1 hm
        | shut i => simp only [step] at hm; split at hm <;> exact absurd h1 hm
        | exit i c => simp only [step] at hm; split at hm <;> exact absurd h1 hm
        | complete =>
          have hn : ¬ (run {} done).phase = .leaving := by rw [h1]; decide
          simp only [step] at hm
          rw [if_neg hn] at hm
          exact absurd h1 hm
        | finish =>
          have hn : ¬ (run {} done).phase = .told := by rw [h1]; decide
          simp only [step] at hm
          rw [if_neg hn] at hm
          exact absurd h1 hm
        | poll q =>
          cases q with
          | closed => exact .inl List.mem_cons_self
          | raised => exact .inr (.inl List.mem_cons_self)
          | quiet => simp [step, leaves] at hm; exact absurd h1 hm
          | eof =>
            refine .inr (.inr ⟨[], rest, rfl, ?_⟩)
            rw [List.append_nil]
            intro p hp hc
            have he : (run {} done).eof = false := by
              cases hq : (run {} done).eof with
              | false => rfl
              | true =>
                have := List.all_eq_true.1 hq p hp
                rw [hc.1, hc.2] at this
                exact (nomatch this)
            simp [step, leaves, he] at hm
            exact hm h1
  exact key ms [] rfl h

/-- C183: a poll makes the service leave its loop exactly if it finds the channel closed, if something raises, or if it sees the end of the output
while no running process holds it. -/
theorem c183_leaves (ms : List Move) (q : Polled) (h : (run {} ms).phase = .reading) :
    (run {} (ms ++ [.poll q])).phase = .leaving ↔
    q = .closed ∨ q = .raised ∨ (q = .eof ∧ ∀ p ∈ (run {} ms).procs, ¬ (p.alive = true ∧ p.out = true)) := by
  rw [run_snoc]
  generalize run {} ms = s at h
  cases q with
  | quiet => simp [step, leaves, h]
  | closed => simp [step, leaves, h]
  | raised => simp [step, leaves, h]
  | eof =>
    constructor
    · intro h1
      cases he : s.eof with
      | false => simp [step, leaves, h, he] at h1
      | true =>
        refine .inr (.inr ⟨rfl, fun p hp hc => ?_⟩)
        have := List.all_eq_true.1 he p hp
        rw [hc.1, hc.2] at this
        exact (nomatch this)
    · intro h1
      rcases h1 with h1 | h1 | ⟨-, h1⟩
      · exact (nomatch h1)
      · exact (nomatch h1)
      · have he : s.eof = true := List.all_eq_true.2 fun p hp => by
          have := h1 p hp
          cases ha : p.alive <;> cases ho : p.out <;> simp_all
        simp [step, leaves, h, he]

/-- A process in the background that holds the output keeps the service: its shell has exited, and the end of the output is not seen. -/
example : (run {} [.fork 0, .shut 0, .exit 0 0, .poll .eof, .poll .quiet, .poll .eof]).phase = .reading := by decide

/-- An ordinary run: the command exits with status 3 before the end of its output is seen. -/
example : let s := run {} [.poll .quiet, .shut 0, .exit 0 3, .poll .eof, .complete, .finish]
    s.told = some (some 3) ∧ s.kills = 0 ∧ s.phase = .ended := by decide

/-! ### C184 -/

/-- C184: when the service has ended, the shell does not run. -/
theorem c184_shell (ms : List Move) (h : (run {} ms).phase = .ended) : (run {} ms).runs 0 = false := by
  obtain ⟨p, hp, hpa⟩ := (inv_run ms).shell
  have := (inv_run ms).ended h
  simp only [St.runs, hp]
  cases ha : p.alive with
  | false => rfl
  | true => exact absurd (hpa.1 ha) this

/-- C184, the part that holds: if the shell has started no process, none runs when the service has ended.  Missing: commands that start processes,
see `c184_counterexample`. -/
theorem c184_partial (ms : List Move) (hf : NoFork ms) (h : (run {} ms).phase = .ended) (i : Nat) : (run {} ms).runs i = false := by
  have hlen : ∀ ms, NoFork ms → ∀ s : St, (run s ms).procs.length = s.procs.length := by
    intro ms
    induction ms with
    | nil => intro _ s; rfl
    | cons m ms ih =>
      intro hf s
      have hstep : (step s m).procs.length = s.procs.length := by
        cases m with
        | fork i => exact absurd (List.mem_cons_self) (hf i)
        | shut i => simp only [step]; split <;> simp
        | exit i c => simp only [step]; split <;> simp
        | poll p => simp only [step]; split <;> rfl
        | complete => simp only [step]; split <;> rfl
        | finish =>
          simp only [step, killIfRunning]
          split
          · split <;> simp
          · rfl
      have := ih (fun i hi => hf i (List.mem_cons_of_mem _ hi)) (step s m)
      rw [hstep] at this
      exact this
  cases i with
  | zero => exact c184_shell ms h
  | succ i =>
    have hl : (run {} ms).procs.length = 1 := hlen ms hf {}
    simp only [St.runs]
    rw [List.getElem?_eq_none (by omega)]

/-- C184: nothing that the agent does ends or changes a process other than the shell. -/
theorem c184_others (s : St) (m : Move) (h : m.ofAgent = true) (i : Nat) (hi : i ≠ 0) : (step s m).procs[i]? = s.procs[i]? := by
  cases m with
  | fork i => exact (nomatch h)
  | shut i => exact (nomatch h)
  | exit i c => exact (nomatch h)
  | poll p => simp only [step]; split <;> rfl
  | complete => simp only [step]; split <;> rfl
  | finish =>
    simp only [step, killIfRunning]
    split
    · split
      · rfl
      · simp only
        rw [List.getElem?_set_ne (fun h => hi h.symm)]
    · rfl

/-- C184 fails: the server closes the channel of a command whose shell has started a process; the shell is killed, the process runs on. -/
theorem c184_counterexample :
    let s := run {} [.fork 0, .poll .quiet, .poll .closed, .complete, .finish]
    s.phase = .ended ∧ s.runs 0 = false ∧ s.runs 1 = true := by decide

/-- C184: and it goes on until it exits itself: as long as it does not, it runs, whatever the agent and the other processes do. -/
theorem c184_runs_on (s : St) (i : Nat) (hi : i ≠ 0) (h : s.runs i = true) (ms : List Move) (hm : ∀ c, Move.exit i c ∉ ms) :
    (run s ms).runs i = true := by
  induction ms generalizing s with
  | nil => exact h
  | cons m ms ih =>
    refine ih (step s m) ?_ (fun c hc => hm c (List.mem_cons_of_mem _ hc))
    by_cases ha : m.ofAgent = true
    · simp only [St.runs, c184_others s m ha i hi]
      exact h
    · cases m with
      | poll p => exact absurd rfl ha
      | complete => exact absurd rfl ha
      | finish => exact absurd rfl ha
      | fork j =>
        simp only [step]
        split
        · split
          · simp only [St.runs] at h ⊢
            cases hq : s.procs[i]? with
            | none => rw [hq] at h; exact (nomatch h)
            | some p =>
              have hlt : i < s.procs.length := by
                apply Classical.byContradiction
                intro hn
                rw [List.getElem?_eq_none (by omega)] at hq
                exact (nomatch hq)
              rw [List.getElem?_append_left hlt, hq]
              rw [hq] at h
              exact h
          · exact h
        · exact h
      | shut j =>
        simp only [step]
        split
        · rename_i p hp
          simp only [St.runs] at h ⊢
          by_cases hj : j = i
          · subst hj
            rw [hp] at h
            rw [List.getElem?_set_self (by
              apply Classical.byContradiction
              intro hn
              rw [List.getElem?_eq_none (by omega)] at hp
              exact (nomatch hp))]
            exact h
          · rw [List.getElem?_set_ne hj]; exact h
        · exact h
      | exit j c =>
        have hj : j ≠ i := by
          rintro rfl
          exact hm c List.mem_cons_self
        simp only [step]
        split
        · simp only [St.runs] at h ⊢
          rw [List.getElem?_set_ne hj]; exact h
        · exact h

end Verif.CommandProcess
