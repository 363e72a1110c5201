import Verif.Spec.PortForward
/-!
Helper lemmas for port forwarding.
-/
namespace Verif.PortForward
open Verif

theorem sendChunks_ok (accept : Nat → Option Nat) (h : ∀ n, accept n = none) (n : Nat) (cs : List Bytes) :
    (sendChunks accept n cs).1 = cs.flatten ∧ (sendChunks accept n cs).2.2 = true := by
  induction cs generalizing n with
  | nil => exact ⟨rfl, rfl⟩
  | cons c cs ih => simp [sendChunks, h, ih]

/-- What is sent, what waits in the buffer and what was routed, when the socket accepts everything. -/
theorem wstep_ok (accept : Nat → Option Nat) (h : ∀ n, accept n = none) (s : WSide) (op : WOp) :
    (wstep accept s op).sent ++ (wstep accept s op).buffer.flatten = s.sent ++ s.buffer.flatten ++ routed s.closed [op] ∧
    ((wstep accept s op).closed = (s.closed || decide (op = .onClose))) ∧
    ((wstep accept s op).socket = (s.socket || decide (op = .setSocket))) := by
  cases op with
  | data d =>
    simp only [wstep, flushBuffer]
    by_cases hc : s.closed = true
    · simp [hc, routed]
    · simp only [Bool.not_eq_true] at hc
      by_cases hs : s.socket = true
      · simp [hc, hs, routed, (sendChunks_ok accept h _ _).1]
      · simp only [Bool.not_eq_true] at hs
        simp [hc, hs, routed]
  | onClose =>
    simp only [wstep, flushBuffer]
    by_cases hc : s.closed = true
    · simp [hc, routed]
    · simp only [Bool.not_eq_true] at hc
      by_cases hs : s.socket = true
      · simp [hc, hs, routed, (sendChunks_ok accept h _ _).1, (sendChunks_ok accept h _ _).2]
      · simp only [Bool.not_eq_true] at hs
        simp [hc, hs, routed]
  | setSocket => simp [wstep, routed]
  | flush =>
    simp only [wstep, flushBuffer]
    by_cases hs : s.socket = true
    · simp [hs, routed, (sendChunks_ok accept h _ _).1]
    · simp only [Bool.not_eq_true] at hs
      simp [hs, routed]

theorem routed_cons (closed : Bool) (op : WOp) (ops : List WOp) :
    routed closed (op :: ops) = routed closed [op] ++ routed (closed || decide (op = .onClose)) ops := by
  cases op <;> simp [routed]

theorem wrun_ok (accept : Nat → Option Nat) (h : ∀ n, accept n = none) (s : WSide) (ops : List WOp) :
    (wrun accept s ops).sent ++ (wrun accept s ops).buffer.flatten = s.sent ++ s.buffer.flatten ++ routed s.closed ops := by
  induction ops generalizing s with
  | nil => simp [wrun, routed]
  | cons op ops ih =>
    obtain ⟨h1, h2, -⟩ := wstep_ok accept h s op
    have := ih (wstep accept s op)
    rw [h1, h2] at this
    rw [routed_cons, ← List.append_assoc]
    exact this

/-- The buffer is empty from the first flush with a socket on. -/
theorem wrun_flushed (accept : Nat → Option Nat) (s : WSide) (ops : List WOp) (ok : Bool)
    (hok : ok = true → s.socket = true ∧ s.buffer = [])
    (h : flushed s.closed s.socket ok ops = true) : (wrun accept s ops).buffer = [] := by
  induction ops generalizing s ok with
  | nil => exact (hok h).2
  | cons op ops ih =>
    show (wrun accept (wstep accept s op) ops).buffer = []
    cases op with
    | setSocket =>
      refine ih _ ok (fun hk => ⟨rfl, (hok hk).2⟩) ?_
      exact h
    | flush =>
      simp only [flushed] at h
      by_cases hs : s.socket = true
      · refine ih _ true (fun _ => ?_) ?_
        · simp [wstep, flushBuffer, hs]
        · simpa [wstep, flushBuffer, hs] using h
      · simp only [Bool.not_eq_true] at hs
        refine ih _ ok ?_ ?_
        · intro hk; have := hok hk; rw [hs] at this; simp at this
        · simpa [wstep, flushBuffer, hs] using h
    | data d =>
      simp only [flushed] at h
      by_cases hc : s.closed = true
      · refine ih _ ok ?_ ?_
        · simpa [wstep, hc] using hok
        · simpa [wstep, hc] using h
      · simp only [Bool.not_eq_true] at hc
        by_cases hs : s.socket = true
        · refine ih _ true (fun _ => ?_) ?_
          · simp [wstep, flushBuffer, hs, hc]
          · simpa [wstep, flushBuffer, hs, hc] using h
        · simp only [Bool.not_eq_true] at hs
          refine ih _ ok ?_ ?_
          · intro hk; have := hok hk; rw [hs] at this; simp at this
          · simpa [wstep, flushBuffer, hs, hc] using h
    | onClose =>
      simp only [flushed] at h
      by_cases hc : s.closed = true
      · refine ih _ ok ?_ ?_
        · simpa [wstep, hc] using hok
        · simpa [wstep, hc] using h
      · simp only [Bool.not_eq_true] at hc
        by_cases hs : s.socket = true
        · refine ih _ true (fun _ => ?_) ?_
          · simp only [wstep, flushBuffer, hs, hc, Bool.false_eq_true, if_false, if_true]; split <;> exact ⟨rfl, rfl⟩
          · simp only [wstep, flushBuffer, hs, hc] at h ⊢
            simp only [Bool.false_eq_true, if_false, if_true]
            split <;> simpa [hs] using h
        · simp only [Bool.not_eq_true] at hs
          refine ih _ ok ?_ ?_
          · intro hk; have := hok hk; rw [hs] at this; simp at this
          · simpa [wstep, flushBuffer, hs, hc] using h

/-- Sending with a connection that, once broken, stays broken. -/
theorem sendChunks_sticky (accept : Nat → Option Nat) (h : Sticky accept) (n : Nat) (cs : List Bytes) :
    (sendChunks accept n cs).1 <+: cs.flatten ∧ n ≤ (sendChunks accept n cs).2.1 ∧
    ((sendChunks accept n cs).2.2 = true → (sendChunks accept n cs).1 = cs.flatten) ∧
    ((sendChunks accept n cs).2.2 = false → ∃ m, m < (sendChunks accept n cs).2.1 ∧ accept m ≠ none) ∧
    ((∃ m, m < n ∧ accept m ≠ none) → (sendChunks accept n cs).1 = []) := by
  induction cs generalizing n with
  | nil => exact ⟨List.prefix_refl _, Nat.le_refl _, fun _ => rfl, by simp [sendChunks], fun _ => rfl⟩
  | cons c cs ih =>
    simp only [sendChunks]
    cases ha : accept n with
    | none =>
      obtain ⟨i1, i2, i3, i4, i5⟩ := ih (n + 1)
      refine ⟨?_, by simp only; omega, ?_, i4, ?_⟩
      · rw [List.flatten_cons]; exact (List.prefix_append_right_inj c).mpr i1
      · intro hok; rw [List.flatten_cons, ← i3 hok]
      · rintro ⟨m, hm, hne⟩
        have := h m n hm hne
        rw [ha] at this
        simp at this
    | some k =>
      refine ⟨?_, by simp, by simp, fun _ => ⟨n, by simp, by simp [ha]⟩, ?_⟩
      · rw [List.flatten_cons]
        exact (List.take_prefix _ _).trans (List.prefix_append _ _)
      · rintro ⟨m, hm, hne⟩
        have := h m n hm hne
        rw [ha] at this
        simp at this
        simp [this]

/-- Either everything sent so far is intact, or the connection is broken and what was sent is a prefix. -/
def Intact (accept : Nat → Option Nat) (s : WSide) (r : Bytes) : Prop :=
  s.sent ++ s.buffer.flatten = r ∨ ((∃ m, m < s.calls ∧ accept m ≠ none) ∧ s.sent <+: r)

theorem flush_intact (accept : Nat → Option Nat) (h : Sticky accept) (s : WSide) (r : Bytes) (hi : Intact accept s r) :
    Intact accept (flushBuffer accept s).1 r := by
  simp only [flushBuffer]
  by_cases hs : s.socket = true
  · simp only [hs, if_true]
    obtain ⟨i1, i2, i3, i4, i5⟩ := sendChunks_sticky accept h s.calls s.buffer
    rcases hi with hi | ⟨⟨m, hm, hne⟩, hp⟩
    · cases hok : (sendChunks accept s.calls s.buffer).2.2 with
      | true => left; simp [i3 hok, hi]
      | false =>
        right
        refine ⟨i4 hok, ?_⟩
        rw [← hi]
        exact (List.prefix_append_right_inj s.sent).mpr i1
    · right
      refine ⟨⟨m, Nat.lt_of_lt_of_le hm i2, hne⟩, ?_⟩
      simp only [i5 ⟨m, hm, hne⟩, List.append_nil]
      exact hp
  · simp only [hs]
    exact hi

theorem wstep_intact (accept : Nat → Option Nat) (h : Sticky accept) (s : WSide) (r : Bytes) (op : WOp) (hi : Intact accept s r) :
    Intact accept (wstep accept s op) (r ++ routed s.closed [op]) ∧ (wstep accept s op).closed = (s.closed || decide (op = .onClose)) := by
  have hfc : ∀ s : WSide, (flushBuffer accept s).1.closed = s.closed := by
    intro s; simp only [flushBuffer]; split <;> rfl
  cases op with
  | data d =>
    by_cases hc : s.closed = true
    · simp only [wstep, hc, if_true, routed, List.append_nil]
      exact ⟨hi, by simp [hc]⟩
    · simp only [wstep, hc, routed]
      refine ⟨?_, by rw [if_neg (by simp), hfc]; simp [hc]⟩
      simp only [Bool.false_eq_true, if_false]
      apply flush_intact accept h
      rcases hi with hi | ⟨hm, hp⟩
      · left; simp [← hi]
      · right; exact ⟨hm, hp.trans (List.prefix_append _ _)⟩
  | onClose =>
    by_cases hc : s.closed = true
    · simp only [wstep, hc, if_true, routed, List.append_nil]
      exact ⟨hi, by simp [hc]⟩
    · simp only [wstep, hc, routed, List.append_nil]
      have hi' : Intact accept { s with closed := true } r := hi
      have := flush_intact accept h _ r hi'
      have hcl := hfc { s with closed := true }
      simp only [Bool.false_eq_true, if_false]
      split
      · exact ⟨this, by rw [hcl]; simp⟩
      · exact ⟨this, by rw [hcl]; simp⟩
  | setSocket => exact ⟨by simp only [routed, List.append_nil]; exact hi, by simp [wstep]⟩
  | flush => exact ⟨by simpa [wstep, routed] using flush_intact accept h s r hi, by simp [wstep, hfc]⟩

theorem wrun_intact (accept : Nat → Option Nat) (h : Sticky accept) (s : WSide) (r : Bytes) (ops : List WOp) (hi : Intact accept s r) :
    Intact accept (wrun accept s ops) (r ++ routed s.closed ops) := by
  induction ops generalizing s r with
  | nil => simpa [wrun, routed] using hi
  | cons op ops ih =>
    obtain ⟨h1, h2⟩ := wstep_intact accept h s r op hi
    have := ih _ _ h1
    rw [h2] at this
    rw [routed_cons, ← List.append_assoc]
    exact this

/-! ### Threads -/

theorem pollEvents_same (es : List PollEv) : written (pollEvents es).1 = received (pollEvents es).1 := by
  induction es with
  | nil => rfl
  | cons e es ih =>
    simp only [pollEvents]
    split
    · split
      · rfl
      · split
        · rename_i d hd; simp at hd; subst hd; rfl
        · split
          · simp [written, received]
          · simp only [written, received, List.flatMap_cons, List.nil_append] at ih ⊢
            rw [ih]
    · exact ih

theorem pollEvents_mem (es : List PollEv) : ∀ a ∈ (pollEvents es).1, (∃ d, a = .recv d) ∨ ∃ d, a = .write d := by
  induction es with
  | nil => simp [pollEvents]
  | cons e es ih =>
    intro a ha
    simp only [pollEvents] at ha
    split at ha
    · split at ha
      · simp at ha
      · split at ha
        · simp at ha; exact .inl ⟨_, ha⟩
        · split at ha
          · simp at ha; rcases ha with h | h; exact .inl ⟨_, h⟩; exact .inr ⟨_, h⟩
          · simp at ha
            rcases ha with h | h | h
            · exact .inl ⟨_, h⟩
            · exact .inr ⟨_, h⟩
            · exact ih a h
    · exact ih a ha

theorem pollEvents_noError (es : List PollEv) (h : es.any (·.error) = false) : (pollEvents es).2.1 = false := by
  induction es with
  | nil => rfl
  | cons e es ih =>
    simp at h
    simp only [pollEvents]
    have ih := ih (by simpa using h.2)
    repeat' split
    all_goals first | rfl | simp [h.1, ih]

theorem actsOf_append (i : Nat) (a b : List (Nat × Act)) : actsOf i (a ++ b) = actsOf i a ++ actsOf i b := by simp [actsOf]
theorem written_append (a b : List Act) : written (a ++ b) = written a ++ written b := by simp [written]
theorem received_append (a b : List Act) : received (a ++ b) = received a ++ received b := by simp [received]

theorem actsOf_map (i j : Nat) (l : List Act) : actsOf i (l.map (j, ·)) = if j = i then l else [] := by
  induction l with
  | nil => simp [actsOf]
  | cons a l ih =>
    simp only [actsOf, List.map_cons] at ih ⊢
    rw [List.filterMap_cons]
    by_cases h : j = i
    · simp only [h, if_true] at ih ⊢; rw [ih]
    · simp only [h, if_false] at ih ⊢; exact ih

/-- What a step of a thread is, seen from thread `i`. -/
theorem step_acts (s : Sys) (st : Step) : ∀ p ∈ (step s st).2, p.1 = st.thread := by
  intro p hp
  have hm : ∀ (i : Nat) (l : List Act), p ∈ l.map (i, ·) → p.1 = i := by
    intro i l h; simp at h; obtain ⟨a, -, rfl⟩ := h; rfl
  cases st <;> simp only [step] at hp
  all_goals repeat' split at hp
  all_goals first | exact hm _ _ hp | (simp at hp; done)

theorem actsOf_other (i : Nat) (out : List (Nat × Act)) (h : ∀ p ∈ out, p.1 ≠ i) : actsOf i out = [] := by
  simp only [actsOf, List.filterMap_eq_nil_iff]
  intro p hp
  simp [h p hp]

/-- The possible outcomes of a step of a thread. -/
theorem step_cases (s : Sys) (st : Step) :
    -- the thread goes on (or the step is not for it)
    (∃ acts, actsOf st.thread (step s st).2 = acts ∧ (∀ a ∈ acts, (∃ d, a = .recv d) ∨ ∃ d, a = .write d) ∧
      written acts = received acts ∧ ((step s st).1.phase st.thread = .ended ↔ s.phase st.thread = .ended)) ∨
    -- the thread ends
    (∃ acts, actsOf st.thread (step s st).2 = acts ++ finish st.isStill ∧ (∀ a ∈ acts, (∃ d, a = .recv d) ∨ ∃ d, a = .write d) ∧
      written acts = received acts ∧ s.phase st.thread ≠ .ended ∧ (step s st).1.phase st.thread = .ended) := by
  cases st with
  | connect i ok still =>
    simp only [step, Step.thread, Step.isStill]
    split
    · rename_i hp
      split
      · left; exact ⟨[], rfl, by simp, rfl, by simp [setPhase, hp]⟩
      · right; exact ⟨[], by simp [actsOf_map], by simp, rfl, by simp [hp], by simp [setPhase]⟩
    · left; exact ⟨[], rfl, by simp, rfl, Iff.rfl⟩
  | iter i poll chClosed still =>
    simp only [step, Step.thread, Step.isStill]
    split
    · rename_i hp
      split
      · right; exact ⟨[], by simp [actsOf_map], by simp, rfl, by simp [hp], by simp [setPhase]⟩
      · split
        · right; exact ⟨[], by simp [actsOf_map], by simp, rfl, by simp [hp], by simp [setPhase]⟩
        · rename_i es _
          split
          · right; exact ⟨(pollEvents es).1, by rw [actsOf_map, if_pos rfl], pollEvents_mem es, pollEvents_same es, by simp [hp],
              by simp [setPhase]⟩
          · left; exact ⟨(pollEvents es).1, by rw [actsOf_map, if_pos rfl], pollEvents_mem es, pollEvents_same es, by simp [setPhase, hp]⟩
    · left; exact ⟨[], rfl, by simp, rfl, Iff.rfl⟩
  | check i still =>
    simp only [step, Step.thread, Step.isStill]
    split
    · rename_i hp
      split
      · right; exact ⟨[], by simp [actsOf_map], by simp, rfl, by simp [hp], by simp [setPhase]⟩
      · left; exact ⟨[], rfl, by simp, rfl, by simp [setPhase, hp]⟩
    · left; exact ⟨[], rfl, by simp, rfl, Iff.rfl⟩

theorem step_phase_other (s : Sys) (st : Step) (i : Nat) (h : st.thread ≠ i) : (step s st).1.phase i = s.phase i := by
  have h' : i ≠ st.thread := fun e => h e.symm
  cases st <;> simp only [step, Step.thread] at h h' ⊢
  all_goals repeat' split
  all_goals first | rfl | simp [setPhase, h']

theorem finish_same (still : Bool) : written (finish still) = [] ∧ received (finish still) = [] := by cases still <;> exact ⟨rfl, rfl⟩

/-- A thread that ended does nothing more. -/
theorem step_ended (s : Sys) (st : Step) (i : Nat) (h : s.phase i = .ended) :
    (step s st).1.phase i = .ended ∧ actsOf i (step s st).2 = [] := by
  by_cases hi : st.thread = i
  · subst hi
    cases st <;> simp_all [step, Step.thread, actsOf]
  · refine ⟨by rw [step_phase_other _ _ _ hi, h], actsOf_other _ _ ?_⟩
    intro p hp
    rw [step_acts s st p hp]
    exact hi

theorem run_ended (s : Sys) (sts : List Step) (i : Nat) (h : s.phase i = .ended) :
    (run s sts).1.phase i = .ended ∧ actsOf i (run s sts).2 = [] := by
  induction sts generalizing s with
  | nil => exact ⟨h, rfl⟩
  | cons st sts ih =>
    obtain ⟨h1, h2⟩ := step_ended s st i h
    obtain ⟨h3, h4⟩ := ih _ h1
    refine ⟨h3, ?_⟩
    show actsOf i ((step s st).2 ++ _) = []
    rw [actsOf_append, h2, h4]
    rfl

/-- All that a thread does in any schedule: receiving and writing, and its `finally` clauses when it ends. -/
theorem run_shape (s : Sys) (sts : List Step) (i : Nat) (h : s.phase i ≠ .ended) :
    (∃ acts, actsOf i (run s sts).2 = acts ∧ (∀ a ∈ acts, (∃ d, a = .recv d) ∨ ∃ d, a = .write d) ∧ written acts = received acts ∧
      (run s sts).1.phase i ≠ .ended) ∨
    (∃ acts st, st ∈ sts ∧ st.thread = i ∧ actsOf i (run s sts).2 = acts ++ finish st.isStill ∧
      (∀ a ∈ acts, (∃ d, a = .recv d) ∨ ∃ d, a = .write d) ∧ written acts = received acts ∧ (run s sts).1.phase i = .ended) := by
  induction sts generalizing s with
  | nil => left; exact ⟨[], rfl, by simp, rfl, h⟩
  | cons st sts ih =>
    by_cases hi : st.thread = i
    · rcases step_cases s st with ⟨acts, h1, h2, h3, h4⟩ | ⟨acts, h1, h2, h3, h4, h5⟩
      · rw [hi] at h1 h4
        have hne : (step s st).1.phase i ≠ .ended := fun e => h (h4.mp e)
        rcases ih _ hne with ⟨b, i1, i2, i3, i4⟩ | ⟨b, st', i0, i0', i1, i2, i3, i4⟩
        · left
          refine ⟨acts ++ b, ?_, ?_, ?_, i4⟩
          · show actsOf i ((step s st).2 ++ _) = _
            rw [actsOf_append, h1, i1]
          · intro a ha; rcases List.mem_append.mp ha with ha | ha; exact h2 a ha; exact i2 a ha
          · rw [written_append, received_append, h3, i3]
        · right
          refine ⟨acts ++ b, st', by simp [i0], i0', ?_, ?_, ?_, i4⟩
          · show actsOf i ((step s st).2 ++ _) = _
            rw [actsOf_append, h1, i1, List.append_assoc]
          · intro a ha; rcases List.mem_append.mp ha with ha | ha; exact h2 a ha; exact i2 a ha
          · rw [written_append, received_append, h3, i3]
      · right
        rw [hi] at h1 h5
        obtain ⟨r1, r2⟩ := run_ended _ sts i h5
        refine ⟨acts, st, by simp, hi, ?_, h2, h3, r1⟩
        show actsOf i ((step s st).2 ++ _) = _
        rw [actsOf_append, h1, r2, List.append_nil]
    · have h0 : actsOf i (step s st).2 = [] := actsOf_other _ _ (fun p hp => by rw [step_acts s st p hp]; exact hi)
      have hp := step_phase_other s st i hi
      have hrun : actsOf i (run s (st :: sts)).2 = actsOf i (run (step s st).1 sts).2 := by
        show actsOf i ((step s st).2 ++ _) = _
        rw [actsOf_append, h0, List.nil_append]
      rcases ih (step s st).1 (by rw [hp]; exact h) with ⟨b, i1, i2⟩ | ⟨b, st', i0, i0', i1, i2⟩
      · left; exact ⟨b, hrun.trans i1, i2⟩
      · right; exact ⟨b, st', by simp [i0], i0', hrun.trans i1, i2⟩

/-- Without error events the close event stays as it was. -/
theorem step_event (s : Sys) (st : Step) (h : st.hasError = false) (hs : s.closeEvent = false) : (step s st).1.closeEvent = false := by
  cases st with
  | connect i ok still => simp only [step]; repeat' split
                          all_goals exact hs
  | check i still => simp only [step]; repeat' split
                     all_goals exact hs
  | iter i poll chClosed still =>
    cases poll with
    | none => simp only [step]
              repeat' split
              all_goals exact hs
    | some es =>
      have := pollEvents_noError es h
      simp only [step]
      repeat' split
      all_goals first | exact hs | simp [hs, this]

/-- With the close event clear, what a step does to its thread depends on the phase of that thread only. -/
theorem step_local (s t : Sys) (st : Step) (hs : s.closeEvent = false) (ht : t.closeEvent = false)
    (hp : s.phase st.thread = t.phase st.thread) :
    (step s st).2 = (step t st).2 ∧ (step s st).1.phase st.thread = (step t st).1.phase st.thread := by
  cases st with
  | connect i ok still =>
    simp only [Step.thread] at hp ⊢
    simp only [step, hp]
    repeat' split
    all_goals exact ⟨rfl, by simp [setPhase, hp]⟩
  | check i still =>
    simp only [Step.thread] at hp ⊢
    simp only [step, hp, hs, ht]
    repeat' split
    all_goals exact ⟨rfl, by simp [setPhase, hp]⟩
  | iter i poll chClosed still =>
    simp only [Step.thread] at hp ⊢
    simp only [step, hp, hs, ht]
    repeat' split
    all_goals exact ⟨rfl, by simp [setPhase, hp]⟩

/-- Independence of the threads as long as no error event occurs. -/
theorem run_local (s t : Sys) (sts : List Step) (i : Nat) (h : ∀ st ∈ sts, st.hasError = false) (hs : s.closeEvent = false)
    (ht : t.closeEvent = false) (hp : s.phase i = t.phase i) :
    actsOf i (run s sts).2 = actsOf i (run t (sts.filter (fun st => decide (st.thread = i)))).2 ∧
    (run s sts).1.phase i = (run t (sts.filter (fun st => decide (st.thread = i)))).1.phase i := by
  induction sts generalizing s t with
  | nil => exact ⟨rfl, hp⟩
  | cons st sts ih =>
    have hst := h st (by simp)
    have ih := fun s t => ih s t (fun x hx => h x (by simp [hx]))
    by_cases hi : st.thread = i
    · rw [List.filter_cons_of_pos (by simp [hi])]
      subst hi
      obtain ⟨l1, l2⟩ := step_local s t st hs ht hp
      obtain ⟨i1, i2⟩ := ih _ _ (step_event s st hst hs) (step_event t st hst ht) l2
      refine ⟨?_, i2⟩
      show actsOf _ ((step s st).2 ++ _) = actsOf _ ((step t st).2 ++ _)
      rw [actsOf_append, actsOf_append, l1, i1]
    · rw [List.filter_cons_of_neg (by simp [hi])]
      have h0 : actsOf i (step s st).2 = [] := actsOf_other _ _ (fun p hp => by rw [step_acts s st p hp]; exact hi)
      obtain ⟨i1, i2⟩ := ih _ t (step_event s st hst hs) ht ((step_phase_other s st i hi).trans hp)
      refine ⟨?_, i2⟩
      show actsOf _ ((step s st).2 ++ _) = _
      rw [actsOf_append, h0, List.nil_append, i1]

/-- Once set, the close event stays set. -/
theorem step_event_set (s : Sys) (st : Step) (h : s.closeEvent = true) : (step s st).1.closeEvent = true := by
  cases st <;> simp only [step]
  all_goals repeat' split
  all_goals first | exact h | simp_all

theorem run_event_set (s : Sys) (sts : List Step) (h : s.closeEvent = true) : (run s sts).1.closeEvent = true := by
  induction sts generalizing s with
  | nil => exact h
  | cons st sts ih => exact ih _ (step_event_set s st h)

/-- When the inner loop sets the close event and when an exception leaves it. -/
theorem pollEvents_iff (es : List PollEv) : ((pollEvents es).2.1 = true ↔ ErrorSeen es) ∧ ((pollEvents es).2.2 = true ↔ WriteFailed es) := by
  induction es with
  | nil =>
    refine ⟨⟨(fun h => nomatch h), ?_⟩, ⟨(fun h => nomatch h), ?_⟩⟩ <;> rintro ⟨a, e, b, h, _⟩ <;> cases a <;> nomatch h
  | cons e es ih =>
    have split1 (hp : e.Passes) : ErrorSeen (e :: es) ↔ e.error = true ∨ ErrorSeen es := by
      constructor
      · rintro ⟨a, x, b, h, h1, h2, h3⟩
        cases a with
        | nil => injection h with h _; subst h; exact .inl h3
        | cons y a => injection h with h h'; exact .inr ⟨a, x, b, h', fun z hz => h1 z (List.mem_cons_of_mem _ hz), h2, h3⟩
      · rintro (h | ⟨a, x, b, h, h1, h2, h3⟩)
        · exact ⟨[], e, es, rfl, (fun _ hx => nomatch hx), hp, h⟩
        · exact ⟨e :: a, x, b, by rw [h]; rfl, List.forall_mem_cons.2 ⟨hp, h1⟩, h2, h3⟩
    have split2 (hp : e.Passes) : WriteFailed (e :: es) ↔ WriteFailed es := by
      constructor
      · rintro ⟨a, x, b, h, h1, h2, h3, h4⟩
        cases a with
        | nil =>
          injection h with h _
          subst h
          obtain ⟨d, _, _, hd⟩ := hp h2
          rw [h4] at hd
          nomatch hd
        | cons y a => injection h with h h'; exact ⟨a, x, b, h', fun z hz => h1 z (List.mem_cons_of_mem _ hz), h2, h3, h4⟩
      · rintro ⟨a, x, b, h, h1, h2, h3⟩
        exact ⟨e :: a, x, b, by rw [h]; rfl, List.forall_mem_cons.2 ⟨hp, h1⟩, h2, h3⟩
    have stop (hp : ¬ e.Passes) : ¬ ErrorSeen (e :: es) := by
      rintro ⟨a, x, b, h, h1, h2, h3⟩
      cases a with
      | nil => injection h with h _; subst h; exact hp h2
      | cons y a => injection h with h _; subst h; exact hp (h1 _ (List.mem_cons_self ..))
    have only (hp : ¬ e.Passes) (h : WriteFailed (e :: es)) : (∃ d, e.recv = some d ∧ d ≠ []) ∧ e.writeRaises = true := by
      obtain ⟨a, x, b, h, h1, h2, h3, h4⟩ := h
      cases a with
      | nil => injection h with h _; subst h; exact ⟨h3, h4⟩
      | cons y a => injection h with h _; subst h; exact absurd (h1 _ (List.mem_cons_self ..)) hp
    simp only [pollEvents]
    split
    · rename_i hr
      split
      · rename_i hv
        have hp : ¬ e.Passes := fun h => by obtain ⟨d, hd, _⟩ := h hr; rw [hv] at hd; nomatch hd
        refine ⟨⟨(fun h => nomatch h), fun h => absurd h (stop hp)⟩, ⟨(fun h => nomatch h), fun h => ?_⟩⟩
        obtain ⟨⟨d, hd, _⟩, _⟩ := only hp h
        rw [hv] at hd
        nomatch hd
      · rename_i d hv
        split
        · rename_i hd
          have hd : d = [] := by simpa using hd
          have hp : ¬ e.Passes := fun h => by
            obtain ⟨d', hd', hne, _⟩ := h hr
            rw [hv] at hd'
            injection hd' with hd'
            exact hne (hd' ▸ hd)
          refine ⟨⟨(fun h => nomatch h), fun h => absurd h (stop hp)⟩, ⟨(fun h => nomatch h), fun h => ?_⟩⟩
          obtain ⟨⟨d', hd', hne⟩, _⟩ := only hp h
          rw [hv] at hd'
          injection hd' with hd'
          exact absurd (hd' ▸ hd) hne
        · rename_i hd
          have hd : d ≠ [] := by simpa using hd
          split
          · rename_i hw
            have hp : ¬ e.Passes := fun h => by
              obtain ⟨_, _, _, h⟩ := h hr
              rw [hw] at h
              nomatch h
            exact ⟨⟨(fun h => nomatch h), fun h => absurd h (stop hp)⟩,
              ⟨fun _ => ⟨[], e, es, rfl, (fun _ hx => nomatch hx), hr, ⟨d, hv, hd⟩, hw⟩, fun _ => rfl⟩⟩
          · rename_i hw
            have hp : e.Passes := fun _ => ⟨d, hv, hd, by simpa using hw⟩
            rw [split1 hp, split2 hp, ← ih.1, ← ih.2, Bool.or_eq_true]
            exact ⟨Iff.rfl, Iff.rfl⟩
    · rename_i hr
      have hp : e.Passes := fun h => absurd h hr
      rw [split1 hp, split2 hp, ← ih.1, ← ih.2, Bool.or_eq_true]
      exact ⟨Iff.rfl, Iff.rfl⟩

theorem run_append (s : Sys) (a b : List Step) : run s (a ++ b) = ((run (run s a).1 b).1, (run s a).2 ++ (run (run s a).1 b).2) := by
  induction a generalizing s with
  | nil => rfl
  | cons x a ih => simp only [List.cons_append, run, ih, List.append_assoc]

/-- The steps that set the close event. -/
theorem step_event_iff (s : Sys) (st : Step) : (step s st).1.closeEvent = true ↔ s.closeEvent = true ∨
    ∃ i es still, st = .iter i (some es) false still ∧ s.phase i = .polling ∧ ErrorSeen es := by
  cases st with
  | connect i ok still =>
    simp only [step, reduceCtorEq, false_and, exists_false, or_false]
    repeat' split
    all_goals exact Iff.rfl
  | check i still =>
    simp only [step, reduceCtorEq, false_and, exists_false, or_false]
    repeat' split
    all_goals exact Iff.rfl
  | iter i poll chClosed still =>
    simp only [step]
    split
    · rename_i hp
      split
      · exact ⟨.inl, fun h => by rcases h with h | ⟨_, _, _, h, _⟩; exact h; nomatch h⟩
      · rename_i es
        split
        · rename_i hc
          refine ⟨.inl, fun h => ?_⟩
          rcases h with h | ⟨_, _, _, h, _⟩
          · exact h
          · injection h with _ _ h _
            rw [hc] at h
            nomatch h
        · rename_i hc
          have hc : chClosed = false := by simpa using hc
          have key : (s.closeEvent || (pollEvents es).2.1) = true ↔ s.closeEvent = true ∨ ∃ i' es' still',
              Step.iter i (some es) chClosed still = .iter i' (some es') false still' ∧ s.phase i' = .polling ∧ ErrorSeen es' := by
            rw [Bool.or_eq_true, (pollEvents_iff es).1]
            constructor
            · rintro (h | h)
              · exact .inl h
              · exact .inr ⟨i, es, still, by rw [hc], hp, h⟩
            · rintro (h | ⟨i', es', still', h, h1, h2⟩)
              · exact .inl h
              · injection h with _ h _ _
                injection h with h
                subst h
                exact .inr h2
          split <;> exact key
    · rename_i hp
      refine ⟨.inl, fun h => ?_⟩
      rcases h with h | ⟨i', es', still', h, h1, h2⟩
      · exact h
      · injection h with h _ _ _
        subst h
        exact absurd h1 hp

theorem run_event_iff (sts : List Step) (s : Sys) : (run s sts).1.closeEvent = true ↔ s.closeEvent = true ∨
    ∃ a i es still b, sts = a ++ .iter i (some es) false still :: b ∧ (run s a).1.phase i = .polling ∧ ErrorSeen es := by
  induction sts generalizing s with
  | nil =>
    refine ⟨.inl, fun h => ?_⟩
    rcases h with h | ⟨a, _, _, _, _, h, _⟩
    · exact h
    · cases a <;> nomatch h
  | cons st sts ih =>
    show (run (step s st).1 sts).1.closeEvent = true ↔ _
    rw [ih, step_event_iff]
    constructor
    · rintro ((h | ⟨i, es, still, h, h1, h2⟩) | ⟨a, i, es, still, b, h, h1, h2⟩)
      · exact .inl h
      · exact .inr ⟨[], i, es, still, sts, by rw [h]; rfl, h1, h2⟩
      · exact .inr ⟨st :: a, i, es, still, b, by rw [h]; rfl, h1, h2⟩
    · rintro (h | ⟨a, i, es, still, b, h, h1, h2⟩)
      · exact .inl (.inl h)
      · cases a with
        | nil => injection h with h _; exact .inl (.inr ⟨i, es, still, h, h1, h2⟩)
        | cons x a => injection h with h h'; subst h; exact .inr ⟨a, i, es, still, b, h', h1, h2⟩

/-- Independence of the threads as long as the close event is not set. -/
theorem run_apart (s t : Sys) (sts : List Step) (i : Nat) (hs : (run s sts).1.closeEvent = false)
    (ht : t.closeEvent = false) (hp : s.phase i = t.phase i) :
    actsOf i (run s sts).2 = actsOf i (run t (sts.filter (fun st => decide (st.thread = i)))).2 ∧
    (run s sts).1.phase i = (run t (sts.filter (fun st => decide (st.thread = i)))).1.phase i := by
  induction sts generalizing s t with
  | nil => exact ⟨rfl, hp⟩
  | cons st sts ih =>
    have hs1 : (step s st).1.closeEvent = false := Bool.eq_false_iff.2 fun h => by
      have h2 : (run s (st :: sts)).1.closeEvent = true := run_event_set _ sts h
      rw [hs] at h2
      nomatch h2
    have hs0 : s.closeEvent = false := Bool.eq_false_iff.2 fun h => by
      rw [step_event_set s st h] at hs1
      nomatch hs1
    by_cases hi : st.thread = i
    · rw [List.filter_cons_of_pos (by simp [hi])]
      subst hi
      obtain ⟨l1, l2⟩ := step_local s t st hs0 ht hp
      have ht1 : (step t st).1.closeEvent = false := Bool.eq_false_iff.2 fun h => by
        rcases (step_event_iff t st).1 h with h | ⟨i, es, still, h, h1, h2⟩
        · rw [ht] at h; nomatch h
        · have := (step_event_iff s st).2 (.inr ⟨i, es, still, h, by subst h; exact hp.trans h1, h2⟩)
          rw [hs1] at this
          nomatch this
      obtain ⟨i1, i2⟩ := ih _ _ hs ht1 l2
      refine ⟨?_, i2⟩
      show actsOf _ ((step s st).2 ++ _) = actsOf _ ((step t st).2 ++ _)
      rw [actsOf_append, actsOf_append, l1, i1]
    · rw [List.filter_cons_of_neg (by simp [hi])]
      have h0 : actsOf i (step s st).2 = [] := actsOf_other _ _ (fun p hp => by rw [step_acts s st p hp]; exact hi)
      obtain ⟨i1, i2⟩ := ih _ t hs ht ((step_phase_other s st i hi).trans hp)
      refine ⟨?_, i2⟩
      show actsOf _ ((step s st).2 ++ _) = _
      rw [actsOf_append, h0, List.nil_append, i1]

theorem finish_moves (still : Bool) : ∀ a ∈ finish still, a.moves = false := by cases still <;> decide

/-- With the close event set, a thread that is not behind the test moves no data in a step, and does not get behind it. -/
theorem step_event_acts (s : Sys) (st : Step) (i : Nat) (h : s.closeEvent = true) (hp : s.phase i ≠ .polling) :
    (∀ a ∈ actsOf i (step s st).2, a.moves = false) ∧ (step s st).1.phase i ≠ .polling := by
  by_cases hi : st.thread = i
  · subst hi
    cases st with
    | connect i ok still =>
      simp only [step, Step.thread] at hp ⊢
      repeat' split
      · exact ⟨by simp [actsOf], by simp [setPhase]⟩
      · exact ⟨by rw [actsOf_map, if_pos rfl]; exact finish_moves still, by simp [setPhase]⟩
      · exact ⟨by simp [actsOf], hp⟩
    | check i still =>
      simp only [step, Step.thread, h, if_true] at hp ⊢
      split
      · exact ⟨by rw [actsOf_map, if_pos rfl]; exact finish_moves still, by simp [setPhase]⟩
      · exact ⟨by simp [actsOf], hp⟩
    | iter i poll chClosed still =>
      simp only [step, Step.thread] at hp ⊢
      rw [if_neg hp]
      exact ⟨by simp [actsOf], hp⟩
  · refine ⟨?_, by rw [step_phase_other _ _ _ hi]; exact hp⟩
    rw [actsOf_other _ _ (fun p hp => by rw [step_acts s st p hp]; exact hi)]
    simp

/-- The same for any number of steps. -/
theorem run_event_acts (s : Sys) (sts : List Step) (i : Nat) (h : s.closeEvent = true) (hp : s.phase i ≠ .polling) :
    ∀ a ∈ actsOf i (run s sts).2, a.moves = false := by
  induction sts generalizing s with
  | nil => simp [run, actsOf]
  | cons st sts ih =>
    obtain ⟨h1, h2⟩ := step_event_acts s st i h hp
    intro a ha
    have ha : a ∈ actsOf i ((step s st).2 ++ (run (step s st).1 sts).2) := ha
    rw [actsOf_append] at ha
    rcases List.mem_append.mp ha with ha | ha
    · exact h1 a ha
    · exact ih _ (step_event_set s st h) h2 a ha

/-- With the close event set, a thread behind the test goes through one more poll result at most. -/
theorem run_event_once (s : Sys) (sts : List Step) (i : Nat) (h : s.closeEvent = true) :
    ∃ es rest, actsOf i (run s sts).2 = (pollEvents es).1 ++ rest ∧ ∀ a ∈ rest, a.moves = false := by
  induction sts generalizing s with
  | nil => exact ⟨[], [], rfl, by simp⟩
  | cons st sts ih =>
    by_cases hp : s.phase i = .polling
    · have happ : actsOf i (run s (st :: sts)).2 = actsOf i (step s st).2 ++ actsOf i (run (step s st).1 sts).2 := by
        show actsOf i ((step s st).2 ++ _) = _
        rw [actsOf_append]
      rw [happ]
      have hset := step_event_set s st h
      have stay : actsOf i (step s st).2 = [] → ∃ es rest, actsOf i (step s st).2 ++ actsOf i (run (step s st).1 sts).2 =
          (pollEvents es).1 ++ rest ∧ ∀ a ∈ rest, a.moves = false := by
        intro h0
        rw [h0]
        exact ih _ hset
      have last : ∀ es still, (step s st).1.phase i ≠ .polling →
          (actsOf i (step s st).2 = (pollEvents es).1 ∨ actsOf i (step s st).2 = (pollEvents es).1 ++ finish still) →
          ∃ es rest, actsOf i (step s st).2 ++ actsOf i (run (step s st).1 sts).2 = (pollEvents es).1 ++ rest ∧
            ∀ a ∈ rest, a.moves = false := by
        intro es still hn ha
        have hr := run_event_acts _ sts i hset hn
        rcases ha with ha | ha
        · exact ⟨es, _, by rw [ha], hr⟩
        · refine ⟨es, finish still ++ actsOf i (run (step s st).1 sts).2, by rw [ha, List.append_assoc], ?_⟩
          intro a hm
          rcases List.mem_append.mp hm with hm | hm
          · exact finish_moves still a hm
          · exact hr a hm
      by_cases hi : st.thread = i
      · subst hi
        cases st with
        | connect i ok still =>
          simp only [Step.thread] at hp stay ⊢
          exact stay (by simp [step, hp, actsOf])
        | check i still =>
          simp only [Step.thread] at hp stay ⊢
          exact stay (by simp [step, hp, actsOf])
        | iter i poll chClosed still =>
          simp only [Step.thread] at hp last ⊢
          cases poll with
          | none => exact last [] still (by simp [step, hp, setPhase]) (.inr (by simp [step, hp, actsOf_map, pollEvents]))
          | some es =>
            cases chClosed with
            | true => exact last [] still (by simp [step, hp, setPhase]) (.inr (by simp [step, hp, actsOf_map, pollEvents]))
            | false =>
              cases hx : (pollEvents es).2.2 with
              | true =>
                exact last es still (by simp [step, hp, setPhase, hx])
                  (.inr (by simp only [step, hp, hx, if_true, Bool.false_eq_true, if_false]; rw [actsOf_map, if_pos rfl]))
              | false =>
                exact last es still (by simp [step, hp, setPhase, hx])
                  (.inl (by simp only [step, hp, hx, if_true, Bool.false_eq_true, if_false]; rw [actsOf_map, if_pos rfl]))
      · exact stay (actsOf_other _ _ (fun p hp => by rw [step_acts s st p hp]; exact hi))
    · exact ⟨[], _, rfl, run_event_acts s _ i h hp⟩

/-! ### Tables -/

theorem revInd {α} {P : List α → Prop} (h0 : P []) (h1 : ∀ l a, P l → P (l ++ [a])) (l : List α) : P l := by
  rw [← List.reverse_reverse l]
  induction l.reverse with
  | nil => exact h0
  | cons a l ih => rw [List.reverse_cons]; exact h1 _ _ ih

theorem addAll_append (m : Mgr) (l : List Svc) (s : Svc) : addAll m (l ++ [s]) = addService (addAll m l) s := by simp [addAll]

theorem addAll_services (l : List Svc) (name : Text) : (addAll {} l).services name = lastNamed name l := by
  refine revInd (P := fun l => (addAll {} l).services name = lastNamed name l) ?_ ?_ l
  · rfl
  · intro l s ih
    rw [addAll_append]
    simp only [addService, lastNamed, List.filter_append, List.filter_cons, List.filter_nil] at ih ⊢
    by_cases h : name = s.name
    · simp [h]
    · have h' : ¬ s.name = name := fun e => h e.symm
      simp only [h, h', if_false, decide_false, Bool.false_eq_true, List.append_nil]
      exact ih

theorem addAll_ports (l : List Svc) (port : Int) : (addAll {} l).ports port = (lastOnPort port l).map (·.name) := by
  refine revInd (P := fun l => (addAll {} l).ports port = (lastOnPort port l).map (·.name)) ?_ ?_ l
  · rfl
  · intro l s ih
    rw [addAll_append]
    simp only [addService, lastOnPort, List.filter_append, List.filter_cons, List.filter_nil] at ih ⊢
    by_cases h : port = s.port
    · simp [h]
    · have h' : ¬ s.port = port := fun e => h e.symm
      simp only [h, h', if_false, decide_false, Bool.false_eq_true, List.append_nil]
      exact ih

theorem lastNamed_mem (name : Text) (l : List Svc) (s : Svc) (h : lastNamed name l = some s) : s ∈ l ∧ s.name = name := by
  have := List.mem_of_getLast? h
  simpa using this

theorem lastOnPort_mem (port : Int) (l : List Svc) (s : Svc) (h : lastOnPort port l = some s) : s ∈ l ∧ s.port = port := by
  have := List.mem_of_getLast? h
  simpa using this

theorem lastNamed_some (l : List Svc) (s : Svc) (h : s ∈ l) : ∃ t, lastNamed s.name l = some t := by
  have : s ∈ l.filter (fun x => decide (x.name = s.name)) := by simp [h]
  cases hl : lastNamed s.name l with
  | some t => exact ⟨t, rfl⟩
  | none =>
    simp only [lastNamed, List.getLast?_eq_none_iff] at hl
    rw [hl] at this
    simp at this

/-! ### The end of the stream -/

theorem wrun_split (accept : Nat → Option Nat) (s : WSide) (a b : List WOp) (op : WOp) :
    wrun accept s (a ++ op :: b) = wrun accept (wstep accept (wrun accept s a) op) b := by simp [wrun]

theorem flushBuffer_fields (accept : Nat → Option Nat) (s : WSide) :
    (flushBuffer accept s).1.closed = s.closed ∧ (flushBuffer accept s).1.socket = s.socket ∧ (flushBuffer accept s).1.shut = s.shut := by
  simp only [flushBuffer]
  split <;> exact ⟨rfl, rfl, rfl⟩

theorem wrun_open (accept : Nat → Option Nat) {a : List WOp} (ha : .onClose ∉ a) :
    (wrun accept {} a).closed = false ∧ ((wrun accept {} a).socket = true ↔ .setSocket ∈ a) := by
  suffices h : ∀ (a : List WOp) (s : WSide), .onClose ∉ a → s.closed = false →
      (wrun accept s a).closed = false ∧ ((wrun accept s a).socket = true ↔ s.socket = true ∨ .setSocket ∈ a) by
    have := h a {} ha rfl
    simpa using this
  intro a
  induction a with
  | nil => intro s _ hc; simp [wrun, hc]
  | cons op a ih =>
    intro s hn hc
    simp only [List.mem_cons, not_or] at hn
    show (wrun accept (wstep accept s op) a).closed = false ∧ ((wrun accept (wstep accept s op) a).socket = true ↔ _)
    have hf := flushBuffer_fields accept
    cases op with
    | data d =>
      have := ih (wstep accept s (.data d)) hn.2 (by simp [wstep, hc, hf])
      simpa [wstep, hc, hf] using this
    | onClose => exact absurd rfl hn.1
    | setSocket =>
      have := ih (wstep accept s .setSocket) hn.2 (by simp [wstep, hc])
      simpa [wstep] using this
    | flush =>
      have := ih (wstep accept s .flush) hn.2 (by simp [wstep, hc, hf])
      simpa [wstep, hf] using this

theorem wrun_unshut (accept : Nat → Option Nat) {a : List WOp} (ha : .onClose ∉ a) : (wrun accept {} a).shut = false := by
  suffices h : ∀ (a : List WOp) (s : WSide), .onClose ∉ a → s.shut = false → (wrun accept s a).shut = false from h a {} ha rfl
  intro a
  induction a with
  | nil => intro s _ hc; exact hc
  | cons op a ih =>
    intro s hn hc
    simp only [List.mem_cons, not_or] at hn
    refine ih (wstep accept s op) hn.2 ?_
    have hf := flushBuffer_fields accept
    cases op with
    | data d => simp only [wstep]; split <;> simp [hf, hc]
    | onClose => exact absurd rfl hn.1
    | setSocket => exact hc
    | flush => simp [wstep, hf, hc]

theorem wrun_shut_closed (accept : Nat → Option Nat) (b : List WOp) {s : WSide} (hc : s.closed = true) :
    (wrun accept s b).shut = s.shut := by
  induction b generalizing s with
  | nil => rfl
  | cons op b ih =>
    have hf := flushBuffer_fields accept s
    have h1 : (wstep accept s op).closed = true ∧ (wstep accept s op).shut = s.shut := by
      cases op <;> simp [wstep, hc, hf]
    show (wrun accept (wstep accept s op) b).shut = _
    rw [ih h1.1, h1.2]

theorem wrun_closed (accept : Nat → Option Nat) (b : List WOp) {s : WSide} (hc : s.closed = true) (hb : s.buffer = []) :
    (wrun accept s b).shut = s.shut ∧ (wrun accept s b).sent = s.sent ∧ (wrun accept s b).buffer = [] := by
  induction b generalizing s with
  | nil => exact ⟨rfl, rfl, hb⟩
  | cons op b ih =>
    have h1 : (wstep accept s op).closed = true ∧ (wstep accept s op).shut = s.shut ∧ (wstep accept s op).sent = s.sent ∧
        (wstep accept s op).buffer = [] := by
      cases op with
      | data d => simp [wstep, hc, hb]
      | onClose => simp [wstep, hc, hb]
      | setSocket => simp [wstep, hc, hb]
      | flush =>
        simp only [wstep, flushBuffer, hb, sendChunks]
        split <;> simp [hc, hb]
    obtain ⟨i1, i2, i3⟩ := ih h1.1 h1.2.2.2
    show (wrun accept (wstep accept s op) b).shut = _ ∧ (wrun accept (wstep accept s op) b).sent = _ ∧ (wrun accept (wstep accept s op) b).buffer = _
    exact ⟨i1.trans h1.2.1, i2.trans h1.2.2.1, i3⟩

theorem sendChunks_true (accept : Nat → Option Nat) (n : Nat) (cs : List Bytes) (h : (sendChunks accept n cs).2.2 = true) :
    (sendChunks accept n cs).1 = cs.flatten ∧ ∀ m, n ≤ m → m < n + cs.length → accept m = none := by
  induction cs generalizing n with
  | nil => exact ⟨rfl, fun m h1 h2 => by simp at h2; omega⟩
  | cons c cs ih =>
    simp only [sendChunks] at h ⊢
    cases hx : accept n with
    | some k => rw [hx] at h; exact nomatch h
    | none =>
      rw [hx] at h
      obtain ⟨h1, h2⟩ := ih (n + 1) h
      refine ⟨by simp [h1], fun m hm hlt => ?_⟩
      by_cases he : m = n
      · rw [he]; exact hx
      · exact h2 m (by omega) (by simp at hlt; omega)

theorem sendChunks_all (accept : Nat → Option Nat) (n : Nat) (cs : List Bytes) (h : ∀ m, n ≤ m → m < n + cs.length → accept m = none) :
    (sendChunks accept n cs).2.2 = true := by
  induction cs generalizing n with
  | nil => rfl
  | cons c cs ih =>
    simp only [sendChunks, h n (Nat.le_refl n) (by simp)]
    exact ih (n + 1) fun m h1 h2 => h m (by omega) (by simp only [List.length_cons]; omega)

end Verif.PortForward
