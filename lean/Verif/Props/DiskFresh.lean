import Verif.Spec.DiskFresh
import Verif.Props.Client
/-!
C190: how old the disk figures are that the server has.
-/
namespace Verif.Client
open Verif Verif.JsonRpc

theorem record_mem {cfg : Config} (evs : List Event) : ∀ (s : State) {x}, x ∈ record cfg s evs → x.1 ∈ evs := by
  induction evs with
  | nil => intro s x h; exact (nomatch h)
  | cons ev evs ih =>
    intro s x h
    rcases List.mem_cons.1 h with h | h
    · rw [h]; exact List.mem_cons_self
    · exact List.mem_cons_of_mem _ (ih _ h)

theorem record_append {cfg : Config} (evs more : List Event) : ∀ s : State,
    record cfg s (evs ++ more) = record cfg s evs ++ record cfg (run cfg s evs) more := by
  induction evs with
  | nil => intro s; rfl
  | cons ev evs ih => intro s; simp only [List.cons_append, record, run]; rw [ih]

/-- When the next report is due: at the time set before, or an hour after one that the server got. -/
theorem due_of_got {cfg : Config} (evs : List Event) : ∀ s : State, (∀ d, .disk d ∈ evs → Reached d) →
    (run cfg s evs).nextDisk = s.nextDisk ∨ ∃ x ∈ record cfg s evs, ∃ t, Got x t ∧ (run cfg s evs).nextDisk = t + hour := by
  induction evs with
  | nil => intro s _; exact .inl rfl
  | cons ev evs ih =>
    intro s hr
    have hr' : ∀ d, .disk d ∈ evs → Reached d := fun d hd => hr d (List.mem_cons_of_mem _ hd)
    simp only [run, record]
    rcases ih (step cfg s ev).1 hr' with h | ⟨x, hx, t, h1, h2⟩
    · rw [h]
      cases ev with
      | tags e => exact .inl (tags_step cfg s e).1
      | sync e => exact .inl (sync_step cfg s e).1
      | disk e =>
        have he := hr e List.mem_cons_self
        obtain ⟨⟨total, used, hu⟩, -⟩ := he
        by_cases hd : s.nextDisk ≤ e.now
        · refine .inr ⟨_, List.mem_cons_self, e.now, ⟨e, rfl, ?_, hr e List.mem_cons_self, rfl⟩, ?_⟩
          · show (step cfg s (.disk e)).2.1 ≠ []
            rw [c76_content cfg s e hu, if_pos hd]
            exact List.cons_ne_nil _ _
          · rw [(disk_step cfg s e).2.2.1, if_pos hd]; rfl
        · left; rw [(disk_step cfg s e).2.2.1, if_neg hd]
    · exact .inr ⟨x, List.mem_cons_of_mem _ hx, t, h1, h2⟩

/-- C190, the part that holds: if the disk can always be read, the server is always reached, and the clock has never shown a later time than now,
then the server has disk figures that are less than an hour old after every poll.  Missing: reports that fail, and clocks that are set back, see
`c190_counterexample` and `c190_unbounded`. -/
theorem c190_partial (cfg : Config) (start : Int) (evs : List Event) (e : DiskEnv)
    (hr : ∀ d, .disk d ∈ evs ++ [.disk e] → Reached d) (hs : start ≤ e.now) (hc : ∀ d, .disk d ∈ evs → d.now ≤ e.now) :
    ∃ x ∈ record cfg (.init start) (evs ++ [.disk e]), ∃ t, Got x t ∧ t ≤ e.now ∧ e.now < t + hour := by
  rw [record_append]
  have he : Reached e := hr e (by simp)
  obtain ⟨total, used, hu⟩ := he.1
  by_cases hd : (run cfg (.init start) evs).nextDisk ≤ e.now
  · refine ⟨(.disk e, (step cfg (run cfg (.init start) evs) (.disk e)).2.1), by simp [record], e.now, ⟨e, rfl, ?_, he, rfl⟩, Int.le_refl _, ?_⟩
    · show (step cfg _ (.disk e)).2.1 ≠ []
      rw [c76_content cfg _ e hu, if_pos hd]
      exact List.cons_ne_nil _ _
    · simp only [hour]; omega
  · rcases due_of_got (cfg := cfg) evs (.init start) (fun d hd => hr d (by simp [hd])) with h | ⟨x, hx, t, ⟨d, h1, h2, h3, h4⟩, h5⟩
    · rw [h] at hd
      exact absurd hs hd
    · have hm := record_mem evs _ hx
      rw [h1] at hm
      have := hc d hm
      exact ⟨x, List.mem_append_left _ hx, t, ⟨d, h1, h2, h3, h4⟩, by omega, by omega⟩

/-- C190: whatever came of a report that was due, none is sent before the clock shows an hour more than at that time. -/
theorem c190_silent (cfg : Config) (s : State) (e : DiskEnv) (hd : s.nextDisk ≤ e.now) (evs : List Event)
    (hc : ∀ d, .disk d ∈ evs → d.now < e.now + hour) : reports (record cfg (step cfg s (.disk e)).1 evs) = [] := by
  have key : ∀ evs : List Event, (∀ d, .disk d ∈ evs → d.now < e.now + hour) → ∀ s : State, s.nextDisk = e.now + hour →
      reports (record cfg s evs) = [] := by
    intro evs
    induction evs with
    | nil => intro _ s _; rfl
    | cons ev evs ih =>
      intro hc s hs
      have hc' : ∀ d, .disk d ∈ evs → d.now < e.now + hour := fun d hd => hc d (List.mem_cons_of_mem _ hd)
      cases ev with
      | tags x => simp only [record, reports]; exact ih hc' _ (by rw [(tags_step cfg s x).1, hs])
      | sync x => simp only [record, reports]; exact ih hc' _ (by rw [(sync_step cfg s x).1, hs])
      | disk x =>
        have hx := hc x List.mem_cons_self
        have hn : ¬ s.nextDisk ≤ x.now := by rw [hs]; omega
        have hw : (step cfg s (.disk x)).2.1 = [] := by
          simp only [step, diskPoll]
          rw [if_neg hn]
        simp only [record, reports]
        rw [if_pos hw]
        exact ih hc' _ (by rw [(disk_step cfg s x).2.2.1, if_neg hn, hs])
  refine key evs hc _ ?_
  rw [(disk_step cfg s e).2.2.1, if_pos hd]
  rfl

/-- A poll that does not reach the server, and one that would. -/
def offline (t : Int) : Event := .disk ⟨t, .ok (100, 50), .reply .unreachable⟩
/-- One that would. -/
def online (t : Int) : Event := .disk ⟨t, .ok (100, 50), .reply (.json (.arr []))⟩

/-- C190 fails: the first report does not reach the server; 59 minutes later it can be reached again, and still nothing is sent. -/
theorem c190_counterexample :
    ¬ ∃ x ∈ record exConfig (.init 0) [offline 0, online minute, online (59 * minute)], ∃ t, Got x t := by
  rintro ⟨x, hx, t, e, h1, h2, ⟨-, r, h3, h4⟩, -⟩
  have hrec : record exConfig (.init 0) [offline 0, online minute, online (59 * minute)] =
      [(offline 0, (step exConfig (.init 0) (offline 0)).2.1), (online minute, []), (online (59 * minute), [])] := rfl
  rw [hrec] at hx
  simp only [List.mem_cons, List.not_mem_nil, or_false] at hx
  rcases hx with rfl | rfl | rfl
  · injection h1 with h1
    rw [← h1] at h3
    injection h3 with h3
    exact h4 h3.symm
  · exact h2 rfl
  · exact h2 rfl

/-- C190: there is no bound.  The clock is set back by `n` minutes after the first report; then the device polls once a minute, `n` times, and sends
no report. -/
theorem c190_unbounded (n : Nat) :
    reports (record exConfig (.init 0) (online (n * minute) :: (List.range n).map (fun i : Nat => online (i * minute)))) = [n * minute] := by
  have hz : (State.init 0).nextDisk ≤ (n : Int) * minute := by
    simp only [State.init, minute]; omega
  have h := c190_silent exConfig (.init 0) ⟨n * minute, .ok (100, 50), .reply (.json (.arr []))⟩ hz
    ((List.range n).map (fun i : Nat => online (i * minute))) (fun d hd => by
      obtain ⟨i, hi, he⟩ := List.mem_map.1 hd
      have hi := List.mem_range.1 hi
      have hnow : d.now = (i : Int) * minute := by
        simp only [online] at he
        injection he with he
        rw [← he]
      show d.now < (n : Int) * minute + hour
      rw [hnow]
      simp only [minute, hour]
      omega)
  have hw : (step exConfig (.init 0) (online (n * minute))).2.1 ≠ [] := by
    rw [online, c76_content exConfig (.init 0) _ rfl, if_pos hz]
    exact List.cons_ne_nil _ _
  simp only [record]
  rw [online] at hw ⊢
  simp only [reports]
  rw [if_neg hw]
  exact congrArg _ h

/-- An ordinary day: a poll a minute, a report an hour. -/
example : reports (record exConfig (.init 0) ((List.range 200).map (fun i : Nat => online (i * minute)))) = [0, 60 * minute, 120 * minute, 180 * minute] := by
  decide +kernel

end Verif.Client
