import Verif.Proofs.Terminal
/-!
Properties C46-C51 and C92: remote terminals.
-/
namespace Verif.Terminal
open Verif

/-- C46: the bytes of one message that reach the terminal are a prefix of it, all of it if the handler ends normally; if it does not,
because a write raised, the close of the channel is requested. -/
theorem c46_message (env : Nat → WriteRes) (fuel : Nat) (s : In) (data : Bytes) (hs : s.stuck = false) :
    ∃ w, (onData env fuel s true data).written = s.written ++ w ∧ w <+: data ∧
      ((onData env fuel s true data).stuck = false → w = data ∨ (onData env fuel s true data).closes = s.closes + 1) := by
  obtain ⟨h1, h2⟩ := writeMaster_prefix env fuel s.calls data
  refine ⟨(writeMaster env fuel s.calls data).1, by simp [onData, hs], h1, ?_⟩
  intro h
  simp only [onData, hs, Bool.false_eq_true, if_false, if_true, decide_eq_false_iff_not] at h ⊢
  cases hw : (writeMaster env fuel s.calls data).2.2 with
  | done => exact .inl (h2 hw)
  | raised => exact .inr (by simp)
  | more => exact absurd hw h

/-- C46, for messages that arrive while the terminal is running and writes that do not raise: however the writes are split, all bytes
of all messages are written in order.  Missing for the full claim: see `c46_counterexample`. -/
theorem c46_complete_partial (env : Nat → WriteRes) (h : Progress env) (fuel : Nat) (msgs : List (Bool × Bytes))
    (hr : ∀ m ∈ msgs, m.1 = true ∧ m.2.length ≤ fuel) :
    (onDataAll env fuel {} msgs).written = allBytes msgs ∧ (onDataAll env fuel {} msgs).closes = 0 := by
  obtain ⟨h1, h2, -⟩ := onDataAll_progress env h fuel {} msgs rfl hr
  exact ⟨by simpa using h1, h2⟩

/-- C46, exactly when it holds: the agent closes the channel because of input unless every message comes while the terminal is running and no `os.write`
that is made raises; if it does not, all bytes are written in order.  In any case what is written is, message by message, a beginning of it, and
nothing of a message that comes when the terminal is not running. -/
theorem c46_iff (env : Nat → WriteRes) (h : Steady env) (fuel : Nat) (msgs : List (Bool × Bytes)) (hr : ∀ m ∈ msgs, m.2.length ≤ fuel) :
    let s := onDataAll env fuel {} msgs
    (s.closes = 0 ↔ (∀ m ∈ msgs, m.1 = true) ∧ ∀ k < s.calls, env k ≠ .raises) ∧ (s.closes = 0 → s.written = allBytes msgs) ∧
    ∃ ws : List Bytes, s.written = ws.flatten ∧ ws.length = msgs.length ∧
      ∀ (i : Nat) (w : Bytes) (m : Bool × Bytes), ws[i]? = some w → msgs[i]? = some m → w <+: m.2 ∧ (m.1 = false → w = []) := by
  obtain ⟨_, _, _, h1, h2, ws, h3, h4⟩ := onDataAll_steady env h fuel {} msgs rfl hr
  refine ⟨?_, by simpa using h2, ws, by simpa using h3, h4⟩
  refine h1.trans ⟨fun g => ⟨g.1, fun k hk => g.2 k (Nat.zero_le k) hk⟩, fun g => ⟨g.1, fun k _ hk => g.2 k hk⟩⟩

/-- The second write raises: the rest of the first message is lost, and the second, which comes after the process has ended, too. -/
example : onDataAll (fun k => if k = 1 then .raises else .wrote 2) 100 {} [(true, [1, 2, 3, 4]), (false, [5]), (true, [6])] =
    { written := [1, 2, 6], calls := 3, closes := 2, stuck := false } := by decide +kernel

/-- Three messages, writes of one, two, three, one, ... bytes. -/
example : onDataAll (fun k => .wrote (k % 3 + 1)) 100 {} [(true, [1, 2, 3, 4]), (true, []), (true, [5, 6, 7, 8, 9])] =
    { written := [1, 2, 3, 4, 5, 6, 7, 8, 9], calls := 6, closes := 0, stuck := false } := by decide +kernel

/-- C46 fails for a message that arrives before the process is started: whatever the message, nothing is written, and the close of the
channel is requested. -/
theorem c46_counterexample (env : Nat → WriteRes) (fuel : Nat) (data : Bytes) :
    onData env fuel {} false data = { closes := 1 } := rfl

/-- C47: whatever the history of closes and of the launching thread, the hang-up signal is sent at most once, and at most one wait thread
is started, only after the signal. -/
theorem c47_hangup_once (ops : List POp) : (prun {} ops).hups ≤ 1 ∧ (prun {} ops).waits ≤ (prun {} ops).hups :=
  have h := prun_inv {} ops (by simp)
  ⟨h.1, h.2.1⟩

/-- C47: the wait thread sends the kill signal at most once. -/
theorem c47_kill_once (ticks : List Tick) : kills (waitLoop warnTimes false ticks) ≤ 1 := waitLoop_once _ _

/-- C47: and only in an iteration that found the process running, 15 seconds after the start of the wait thread or later. -/
theorem c47_kill_late (ticks : List Tick) (j : Nat) (a : List WAct) (h : (waitLoop warnTimes false ticks)[j]? = some a)
    (hk : WAct.kill ∈ a) : ∃ t, ticks[j]? = some t ∧ t.exited = false ∧ t.time ≥ 15 := waitLoop_when _ _ _ j a h hk

/-- C47: a process that is still running at 15 seconds does get the kill signal, whatever the clock shows before. -/
theorem c47_kill_sent (ticks : List Tick) (hx : ∀ t ∈ ticks, t.exited = false) (ht : ∃ t ∈ ticks, t.time ≥ 15) :
    kills (waitLoop warnTimes false ticks) = 1 :=
  waitLoop_escalates [5, 10] warnTimes (by decide) rfl ticks hx ht

/-- C47: nothing is sent after the process was reaped: an iteration that finds the process gone is the last. -/
theorem c47_reaped_last (ticks : List Tick) (j : Nat) (t : Tick) (ht : ticks[j]? = some t) (he : t.exited = true) :
    (waitLoop warnTimes false ticks).length ≤ j + 1 := by
  suffices ∀ (ws : List Int) (b : Bool), (waitLoop ws b ticks).length ≤ j + 1 from this _ _
  induction ticks generalizing j with
  | nil => simp at ht
  | cons u ticks ih =>
    intro ws b
    cases ws with
    | nil => simp [waitLoop]
    | cons w ws =>
      simp only [waitLoop]
      split
      · simp
      · rename_i hu
        cases j with
        | zero => simp at ht; subst ht; exact absurd he hu
        | succ j =>
          simp only [List.length_cons]
          have := ih j (by simpa using ht) (if decide (u.time ≥ w) = true then ws else w :: ws)
            (b || (!b && decide (u.time ≥ killTime)))
          omega

/-- A process that ignores the hang-up and dies of the kill signal. -/
example : waitLoop warnTimes false
    [⟨false, 2⟩, ⟨false, 6⟩, ⟨false, 8⟩, ⟨false, 14⟩, ⟨false, 16⟩, ⟨true, 18⟩, ⟨true, 20⟩] =
    [[], [.warn], [], [.warn], [.kill], [.reaped]] := by decide +kernel

/-! ### C131 -/

/-- C131: the exit status of the process is collected in the first iteration after its end, which is the last one, if less than a day has
passed by then. -/
theorem c131_reaped (ticks : List Tick) (j : Nat) (t : Tick) (ht : ticks[j]? = some t) (he : t.exited = true)
    (hb : ∀ u ∈ ticks.take j, u.exited = false ∧ u.time < 24 * 60 * 60) :
    (waitLoop warnTimes false ticks)[j]? = some [.reaped] ∧ (waitLoop warnTimes false ticks).length = j + 1 :=
  waitLoop_reaped warnTimes false ticks j t ht he ⟨24 * 60 * 60, by decide, hb⟩

/-- C131: it is not said to be collected in an iteration that did not. -/
theorem c131_only (ticks : List Tick) (j : Nat) (a : List WAct) (h : (waitLoop warnTimes false ticks)[j]? = some a) (hr : WAct.reaped ∈ a) :
    ∃ t, ticks[j]? = some t ∧ t.exited = true := waitLoop_collects _ _ _ j a h hr

/-- C131: the thread gives up only after seven iterations at least, all of which found the process running, and one of them a day after the
start. -/
theorem c131_gives_up (ticks : List Tick) (j : Nat) (a : List WAct) (h : (waitLoop warnTimes false ticks)[j]? = some a) (hg : WAct.givesUp ∈ a) :
    7 ≤ j ∧ (∀ t ∈ ticks.take j, t.exited = false) ∧ ∃ t ∈ ticks.take j, t.time ≥ 24 * 60 * 60 := by
  obtain ⟨h1, h2, h3⟩ := waitLoop_gives_up _ _ _ j a h hg
  exact ⟨h1, h2, h3 _ (by decide)⟩

/-- C131: and it does give up after the seventh warning: a process that runs for seven iterations after the first day is left alone. -/
theorem c131_left (ticks : List Tick) (hx : ∀ t ∈ ticks, t.exited = false ∧ t.time ≥ 24 * 60 * 60) (hl : 7 ≤ ticks.length) :
    (waitLoop warnTimes false ticks)[7]? = some [.givesUp] := by
  have h := waitLoop_left warnTimes false ticks hl fun t ht => ⟨(hx t ht).1, fun w hw => ?_⟩
  · exact h
  · have : w ≤ 24 * 60 * 60 := by
      have hall : ∀ w ∈ warnTimes, w ≤ 24 * 60 * 60 := by decide
      exact hall w hw
    have := (hx t ht).2
    omega

/-- A process that is still there after a day, and a clock that jumps by a day. -/
example : waitLoop warnTimes false ((List.replicate 7 ⟨false, 90000⟩) ++ [⟨true, 90002⟩]) =
    [[.warn, .kill], [.warn], [.warn], [.warn], [.warn], [.warn], [.warn], [.givesUp]] := by decide +kernel

example : prun {} [.fork, .setPid, .close false true, .close true true, .close true true] =
    { forked := true, pid := true, closed := true, hups := 1, waits := 1 } := by decide +kernel

/-- C48, for a close that arrives when the launching thread has stored the process id, if the signal can be sent: the process has been
signalled, whatever happened before and happens after.  Missing for the full claim: see `c48_counterexample`. -/
theorem c48_signalled_partial (before after : List POp) (startOk : Bool) (hp : (prun {} before).pid = true)
    (hc : (prun {} before).closed = false) : (prun {} (before ++ .close true startOk :: after)).hups = 1 := by
  have hb := prun_inv {} before (by simp)
  have h0 : (prun {} before).hups = 0 := by
    rcases Nat.lt_or_ge (prun {} before).hups 1 with h | h
    · omega
    · have := hb.2.2 (by omega); rw [hc] at this; simp at this
  have hrun : prun {} (before ++ .close true startOk :: after) = prun (pstep (prun {} before) (.close true startOk)) after := by
    simp [prun]
  have hs : (pstep (prun {} before) (.close true startOk)).hups = 1 ∧ (pstep (prun {} before) (.close true startOk)).closed = true := by
    simp [pstep, hp, hc, h0]
  rw [hrun, (prun_closed _ after hs.2).1, hs.1]

example : (prun {} ([.fork, .setPid] ++ .close true false :: [.close true true])).hups = 1 := by decide

/-- C48: exactly when a process is signalled: if a close arrives when the process id is stored and no earlier close was handled, and the signal
can be sent. -/
theorem c48_iff (ops : List POp) : 1 ≤ (prun {} ops).hups ↔
    ∃ before startOk after, ops = before ++ .close true startOk :: after ∧ (prun {} before).pid = true ∧ (prun {} before).closed = false := by
  constructor
  · have key : ∀ (ops : List POp) (s : Proc), s.hups < (prun s ops).hups →
        ∃ before startOk after, ops = before ++ .close true startOk :: after ∧ (prun s before).pid = true ∧ (prun s before).closed = false := by
      intro ops
      induction ops with
      | nil => intro s h; exact absurd h (Nat.lt_irrefl _)
      | cons op ops ih =>
        intro s h
        by_cases hs : s.hups < (pstep s op).hups
        · cases op with
          | fork => exact absurd hs (Nat.lt_irrefl _)
          | setPid => simp only [pstep] at hs; split at hs <;> exact absurd hs (Nat.lt_irrefl _)
          | close killOk startOk =>
            simp only [pstep] at hs
            split at hs
            · rename_i hc
              split at hs
              · rename_i hk
                subst hk
                simp at hc
                exact ⟨[], startOk, ops, rfl, hc.2, hc.1⟩
              · exact absurd hs (Nat.lt_irrefl _)
            · exact absurd hs (Nat.lt_irrefl _)
        · have h' : (pstep s op).hups < (prun (pstep s op) ops).hups := by
            have : (prun s (op :: ops)).hups = (prun (pstep s op) ops).hups := rfl
            omega
          obtain ⟨before, startOk, after, h1, h2, h3⟩ := ih _ h'
          exact ⟨op :: before, startOk, after, by rw [h1]; rfl, h2, h3⟩
    intro h
    exact key ops {} h
  · rintro ⟨before, startOk, after, rfl, h1, h2⟩
    rw [c48_signalled_partial before after startOk h1 h2]
    exact Nat.le_refl _

/-- C48: the process id is stored after the fork; and a close was handled if one arrived when it was not stored, or the signal could be sent. -/
theorem c48_state (ops : List POp) :
    ((prun {} ops).pid = true ↔ ∃ a b c, ops = a ++ .fork :: b ++ .setPid :: c) ∧
    ((prun {} ops).closed = true ↔ ∃ a killOk startOk b, ops = a ++ .close killOk startOk :: b ∧ ((prun {} a).pid = false ∨ killOk = true)) := by
  have key1 : ∀ (ops : List POp) (s : Proc), (prun s ops).pid = true ↔ s.pid = true ∨ (s.forked = true ∧ .setPid ∈ ops) ∨
      ∃ a b c, ops = a ++ .fork :: b ++ .setPid :: c := by
    intro ops
    induction ops with
    | nil =>
      intro s
      refine ⟨.inl, fun h => ?_⟩
      rcases h with h | ⟨_, h⟩ | ⟨a, b, c, h⟩
      · exact h
      · nomatch h
      · cases a <;> nomatch h
    | cons op ops ih =>
      intro s
      have hrun : prun s (op :: ops) = prun (pstep s op) ops := rfl
      rw [hrun, ih]
      have up : (∃ a b c, ops = a ++ .fork :: b ++ .setPid :: c) → ∃ a b c, op :: ops = a ++ POp.fork :: b ++ POp.setPid :: c :=
        fun ⟨a, b, c, h⟩ => ⟨op :: a, b, c, by rw [h]; rfl⟩
      have down : (∃ a b c, op :: ops = a ++ POp.fork :: b ++ POp.setPid :: c) →
          (op = .fork ∧ .setPid ∈ ops) ∨ ∃ a b c, ops = a ++ .fork :: b ++ .setPid :: c := by
        rintro ⟨a, b, c, h⟩
        cases a with
        | nil => injection h with h h'; exact .inl ⟨h, by rw [h']; simp⟩
        | cons x a => injection h with h h'; exact .inr ⟨a, b, c, h'⟩
      cases op with
      | fork =>
        simp only [pstep, true_and, List.mem_cons, reduceCtorEq, false_or]
        constructor
        · rintro (h | h | h)
          · exact .inl h
          · obtain ⟨b, c, h⟩ := List.append_of_mem h
            exact .inr (.inr ⟨[], b, c, by rw [h]; rfl⟩)
          · exact .inr (.inr (up h))
        · rintro (h | ⟨_, h⟩ | h)
          · exact .inl h
          · exact .inr (.inl h)
          · rcases down h with ⟨_, h⟩ | h
            · exact .inr (.inl h)
            · exact .inr (.inr h)
      | setPid =>
        have hd : (∃ a b c, POp.setPid :: ops = a ++ .fork :: b ++ .setPid :: c) → ∃ a b c, ops = a ++ .fork :: b ++ .setPid :: c :=
          fun h => (down h).elim (fun h => nomatch h.1) id
        simp only [pstep]
        split
        · rename_i hf
          exact ⟨fun _ => .inr (.inl ⟨hf, List.mem_cons_self ..⟩), fun _ => .inl rfl⟩
        · rename_i hf
          simp only [hf, false_and, false_or, Bool.false_eq_true]
          exact ⟨fun h => h.imp id up, fun h => h.imp id hd⟩
      | close killOk startOk =>
        have hd : (∃ a b c, POp.close killOk startOk :: ops = a ++ .fork :: b ++ .setPid :: c) → ∃ a b c, ops = a ++ .fork :: b ++ .setPid :: c :=
          fun h => (down h).elim (fun h => nomatch h.1) id
        have e1 : (pstep s (.close killOk startOk)).pid = s.pid := by simp only [pstep]; repeat' split
                                                                      all_goals rfl
        have e2 : (pstep s (.close killOk startOk)).forked = s.forked := by simp only [pstep]; repeat' split
                                                                            all_goals rfl
        rw [e1, e2]
        simp only [List.mem_cons, reduceCtorEq, false_or]
        exact ⟨fun h => h.imp id (fun h => h.imp id up), fun h => h.imp id (fun h => h.imp id hd)⟩
  have key2 : ∀ (ops : List POp) (s : Proc), (prun s ops).closed = true ↔ s.closed = true ∨
      ∃ a killOk startOk b, ops = a ++ .close killOk startOk :: b ∧ ((prun s a).pid = false ∨ killOk = true) := by
    intro ops
    induction ops with
    | nil =>
      intro s
      refine ⟨.inl, fun h => ?_⟩
      rcases h with h | ⟨a, _, _, b, h, _⟩
      · exact h
      · cases a <;> nomatch h
    | cons op ops ih =>
      intro s
      have hrun : prun s (op :: ops) = prun (pstep s op) ops := rfl
      rw [hrun, ih]
      have hstep : (pstep s op).closed = true ↔ s.closed = true ∨ ∃ killOk startOk, op = .close killOk startOk ∧ (s.pid = false ∨ killOk = true) := by
        cases op with
        | fork => simp [pstep]
        | setPid => simp only [pstep, reduceCtorEq, false_and, exists_false, or_false]; split <;> exact Iff.rfl
        | close killOk startOk =>
          cases hc : s.closed <;> cases hp : s.pid <;> cases killOk <;> simp [pstep, hc, hp]
      rw [hstep]
      constructor
      · rintro ((h | ⟨x, y, h, h'⟩) | ⟨a, x, y, b, h, h'⟩)
        · exact .inl h
        · exact .inr ⟨[], x, y, ops, by rw [h]; rfl, h'⟩
        · exact .inr ⟨op :: a, x, y, b, by rw [h]; rfl, h'⟩
      · rintro (h | ⟨a, x, y, b, h, h'⟩)
        · exact .inl (.inl h)
        · cases a with
          | nil => injection h with h _; exact .inl (.inr ⟨x, y, h, h'⟩)
          | cons z a => injection h with h1 h2; subst h1; exact .inr ⟨a, x, y, b, h2, h'⟩
  refine ⟨(key1 ops {}).trans ⟨fun h => ?_, fun h => .inr (.inr h)⟩, (key2 ops {}).trans ⟨fun h => h.elim (fun h => nomatch h) id, .inr⟩⟩
  rcases h with h | h | h
  · nomatch h
  · nomatch h.1
  · exact h

/-- C48 fails when the close arrives before the process id is stored, in particular between the fork and the assignment: the process
runs and is never signalled, whatever happens later. -/
theorem c48_counterexample (startOk : Bool) (after : List POp) :
    let s := prun {} ([.fork, .close true startOk, .setPid] ++ after)
    s.hups = 0 ∧ s.closed = true := by
  have h := prun_closed (prun {} [.fork, .close true startOk, .setPid]) after rfl
  simpa [prun, pstep] using h

/-- C48: nor if the close arrives before the process is started at all: it is started all the same. -/
theorem c48_counterexample_early (startOk : Bool) :
    prun {} [.close true startOk, .fork, .setPid] = { forked := true, pid := true, closed := true, hups := 0, waits := 0 } := rfl

/-- C49, for sizes from 0 to 32767 and calls that do not overlap: while the terminal is running its device has the columns and rows
requested last, or the initial ones if there was no request, whether the request came before or after the start.  Missing for the full
claim: see the two counterexamples. -/
theorem c49_size_partial (init : Int × Int) (ops : List SOp) (h0 : fits init) (hf : ∀ s, .resize s ∈ ops → fits s) :
    let p := srun { size := init } ops
    p.fd = true → p.device = some { cols := (lastSize init ops).1, rows := (lastSize init ops).2 } :=
  srun_device { size := init } ops hf h0 (by simp)

/-- A request before the start, two after it. -/
example : (srun { size := (80, 24) } [.resize (100, 30), .start, .resize (120, 40), .resize (90, 25)]).device = some ⟨90, 25⟩ := by
  decide +kernel

/-- C49 fails for a size that does not fit: the device keeps the old size. -/
theorem c49_counterexample_large :
    (srun { size := (80, 24) } [.start, .resize (40000, 24)]).device = some ⟨80, 24⟩ := by decide +kernel

/-- C49 fails when a request overlaps with the start: the launching thread has read the initial size, the request is carried out
completely, then the launching thread applies the initial size. -/
theorem c49_counterexample_race :
    (frun { size := (80, 24) } [.setFd, .readSize 0, .setSize (120, 40), .readSize 1, .ioctl 1, .ioctl 0]).device = some ⟨80, 24⟩ := by
  decide +kernel

/-- C49 for calls that overlap in any way: if the thread that carries out the last request reads the size after it was stored, and its
`ioctl` is the last one, then the device has the columns and rows requested last, whatever other threads did before and in between.  Missing
for the full claim: another thread may call `ioctl` later, see `c49_counterexample_race`. -/
theorem c49_overlap_partial (p : Pty) (before mid1 mid2 after : List FineOp) (size : Int × Int) (t : Nat) (hf : fits size)
    (hfd : p.fd = true ∨ .setFd ∈ before ++ mid1) (h1 : ∀ z, FineOp.setSize z ∉ mid1) (h2 : ∀ z, FineOp.setSize z ∉ mid2)
    (h3 : .ioctl t ∉ mid2) (h4 : ∀ u, FineOp.ioctl u ∉ after) :
    (frun p (before ++ .setSize size :: mid1 ++ .readSize t :: mid2 ++ .ioctl t :: after)).device =
      some { cols := size.1, rows := size.2 } := by
  have hrun : ∀ (q : Pty) (a b : List FineOp), frun q (a ++ b) = frun (frun q a) b := by intro q a b; simp [frun]
  have hcons : ∀ (q : Pty) (o : FineOp) (b : List FineOp), frun q (o :: b) = frun (fstep q o) b := by intro q o b; simp [frun]
  have hfdmono : ∀ (ops : List FineOp) (q : Pty), q.fd = true ∨ .setFd ∈ ops → (frun q ops).fd = true := by
    intro ops
    induction ops with
    | nil => intro q h; simpa [frun] using h
    | cons o ops ih =>
      intro q h
      rw [hcons]
      apply ih
      cases o with
      | setFd => exact .inl rfl
      | setSize z => simpa [fstep] using h
      | readSize u => rcases h with h | h <;> simp_all [fstep]
      | ioctl u =>
        rcases h with h | h
        · left; simp only [fstep]; split <;> simpa using h
        · right; simpa using h
  have hsize : ∀ (ops : List FineOp) (q : Pty), (∀ z, FineOp.setSize z ∉ ops) → (frun q ops).size = q.size := by
    intro ops
    induction ops with
    | nil => intro q _; rfl
    | cons o ops ih =>
      intro q h
      rw [hcons, ih _ (fun z hz => h z (List.mem_cons_of_mem _ hz))]
      cases o with
      | setFd => rfl
      | setSize z => exact absurd (List.mem_cons_self ..) (h z)
      | readSize u => simp only [fstep]; split <;> rfl
      | ioctl u => simp only [fstep]; split <;> rfl
  have hkeep : ∀ (ops : List FineOp) (q : Pty), (∀ z, FineOp.setSize z ∉ ops) → .ioctl t ∉ ops → q.size = size →
      q.reads.find? (fun r => r.1 = t) = some (t, size) → (frun q ops).reads.find? (fun r => r.1 = t) = some (t, size) := by
    intro ops
    induction ops with
    | nil => intro q _ _ _ h; exact h
    | cons o ops ih =>
      intro q ha hb hs h
      rw [hcons]
      have hfil : ∀ u, u ≠ t → (q.reads.filter (fun r => r.1 ≠ u)).find? (fun r => r.1 = t) = some (t, size) := by
        intro u hu
        rw [List.find?_filter, ← h]
        congr 1
        funext r
        by_cases hr : r.1 = t
        · simp [hr, Ne.symm hu]
        · simp [hr]
      have ha' : ∀ z, FineOp.setSize z ∉ ops := fun z hz => ha z (List.mem_cons_of_mem _ hz)
      have hb' : .ioctl t ∉ ops := fun hz => hb (List.mem_cons_of_mem _ hz)
      cases o with
      | setFd => exact ih _ ha' hb' hs h
      | setSize z => exact absurd (List.mem_cons_self ..) (ha z)
      | readSize u =>
        simp only [fstep]
        split
        · refine ih _ ha' hb' hs ?_
          by_cases hu : u = t
          · subst hu; simp [hs]
          · simp only [List.find?_cons, hu, decide_false]
            exact hfil u hu
        · exact ih _ ha' hb' hs h
      | ioctl u =>
        have hu : u ≠ t := fun e => hb (by subst e; exact List.mem_cons_self ..)
        simp only [fstep]
        split
        · exact ih _ ha' hb' hs (hfil u hu)
        · exact ih _ ha' hb' hs h
  have hdev : ∀ (ops : List FineOp) (q : Pty), (∀ u, FineOp.ioctl u ∉ ops) → (frun q ops).device = q.device := by
    intro ops
    induction ops with
    | nil => intro q _; rfl
    | cons o ops ih =>
      intro q h
      rw [hcons, ih _ (fun z hz => h z (List.mem_cons_of_mem _ hz))]
      cases o with
      | setFd => rfl
      | setSize z => rfl
      | readSize u => simp only [fstep]; split <;> rfl
      | ioctl u => exact absurd (List.mem_cons_self ..) (h u)
  simp only [hrun, hcons]
  generalize hq1 : frun (fstep (frun p before) (.setSize size)) mid1 = q1
  have hq1s : q1.size = size := by rw [← hq1, hsize mid1 _ h1]; rfl
  have hq1f : q1.fd = true := by
    rw [← hq1]
    apply hfdmono
    rcases hfd with h | h
    · exact .inl (hfdmono before p (.inl h))
    · rcases List.mem_append.1 h with h | h
      · exact .inl (hfdmono before p (.inr h))
      · exact .inr h
  have hq2 : fstep q1 (.readSize t) = { q1 with reads := (t, q1.size) :: q1.reads.filter (fun r => r.1 ≠ t) } := by
    simp [fstep, hq1f]
  have hq3 := hkeep mid2 (fstep q1 (.readSize t)) h2 h3 (by rw [hq2]; exact hq1s) (by rw [hq2]; simp [hq1s])
  rw [hdev after _ h4]
  simp only [fstep] at hq3 ⊢
  rw [hq3]
  exact setPtySize_fits _ _ hf

/-- C49, which size the device has when calls overlap: the one stored when the thread whose `ioctl` is the last one read it.  So C49 fails exactly if a
different size has been stored since. -/
theorem c49_exact (p : Pty) (before mid after : List FineOp) (t : Nat) (hf : fits (stored p.size before))
    (hfd : p.fd = true ∨ .setFd ∈ before) (h1 : .readSize t ∉ mid) (h2 : .ioctl t ∉ mid) (h3 : ∀ u, FineOp.ioctl u ∉ after) :
    (frun p (before ++ .readSize t :: mid ++ .ioctl t :: after)).device =
      some { cols := (stored p.size before).1, rows := (stored p.size before).2 } := by
  have hrun : ∀ (q : Pty) (a b : List FineOp), frun q (a ++ b) = frun (frun q a) b := by intro q a b; simp [frun]
  have hcons : ∀ (q : Pty) (o : FineOp) (b : List FineOp), frun q (o :: b) = frun (fstep q o) b := by intro q o b; simp [frun]
  have hbefore : ∀ (ops : List FineOp) (q : Pty), (frun q ops).size = stored q.size ops ∧ (q.fd = true ∨ .setFd ∈ ops → (frun q ops).fd = true) := by
    intro ops
    induction ops with
    | nil => intro q; exact ⟨rfl, fun h => by simpa [frun] using h⟩
    | cons o ops ih =>
      intro q
      rw [hcons]
      obtain ⟨i1, i2⟩ := ih (fstep q o)
      rw [i1]
      cases o with
      | setFd => exact ⟨rfl, fun _ => i2 (.inl rfl)⟩
      | setSize z => exact ⟨rfl, fun h => i2 (by simpa [fstep] using h)⟩
      | readSize u =>
        have h1 : (fstep q (.readSize u)).size = q.size ∧ (fstep q (.readSize u)).fd = q.fd := by simp only [fstep]; split <;> exact ⟨rfl, rfl⟩
        refine ⟨by rw [h1.1]; rfl, fun h => i2 ?_⟩
        rw [h1.2]
        simpa using h
      | ioctl u =>
        have h1 : (fstep q (.ioctl u)).size = q.size ∧ (fstep q (.ioctl u)).fd = q.fd := by simp only [fstep]; split <;> exact ⟨rfl, rfl⟩
        refine ⟨by rw [h1.1]; rfl, fun h => i2 ?_⟩
        rw [h1.2]
        simpa using h
  have hkeep : ∀ (size : Int × Int) (ops : List FineOp) (q : Pty), .readSize t ∉ ops → .ioctl t ∉ ops →
      q.reads.find? (fun r => r.1 = t) = some (t, size) → (frun q ops).reads.find? (fun r => r.1 = t) = some (t, size) := by
    intro size ops
    induction ops with
    | nil => intro q _ _ h; exact h
    | cons o ops ih =>
      intro q ha hb h
      rw [hcons]
      have hfil : ∀ u, u ≠ t → (q.reads.filter (fun r => r.1 ≠ u)).find? (fun r => r.1 = t) = some (t, size) := by
        intro u hu
        rw [List.find?_filter, ← h]
        congr 1
        funext r
        by_cases hr : r.1 = t
        · simp [hr, Ne.symm hu]
        · simp [hr]
      have ha' : .readSize t ∉ ops := fun hz => ha (List.mem_cons_of_mem _ hz)
      have hb' : .ioctl t ∉ ops := fun hz => hb (List.mem_cons_of_mem _ hz)
      cases o with
      | setFd => exact ih _ ha' hb' h
      | setSize z => exact ih _ ha' hb' h
      | readSize u =>
        have hu : u ≠ t := fun e => ha (by subst e; exact List.mem_cons_self ..)
        simp only [fstep]
        split
        · refine ih _ ha' hb' ?_
          simp only [List.find?_cons, hu, decide_false]
          exact hfil u hu
        · exact ih _ ha' hb' h
      | ioctl u =>
        have hu : u ≠ t := fun e => hb (by subst e; exact List.mem_cons_self ..)
        simp only [fstep]
        split
        · exact ih _ ha' hb' (hfil u hu)
        · exact ih _ ha' hb' h
  have hdev : ∀ (ops : List FineOp) (q : Pty), (∀ u, FineOp.ioctl u ∉ ops) → (frun q ops).device = q.device := by
    intro ops
    induction ops with
    | nil => intro q _; rfl
    | cons o ops ih =>
      intro q h
      rw [hcons, ih _ (fun z hz => h z (List.mem_cons_of_mem _ hz))]
      cases o with
      | setFd => rfl
      | setSize z => rfl
      | readSize u => simp only [fstep]; split <;> rfl
      | ioctl u => exact absurd (List.mem_cons_self ..) (h u)
  simp only [hrun, hcons]
  obtain ⟨b1, b2⟩ := hbefore before p
  generalize frun p before = q1 at b1 b2
  have hq2 : fstep q1 (.readSize t) = { q1 with reads := (t, q1.size) :: q1.reads.filter (fun r => r.1 ≠ t) } := by
    simp [fstep, b2 hfd]
  have hq3 := hkeep q1.size mid (fstep q1 (.readSize t)) h1 h2 (by rw [hq2]; simp)
  rw [hdev after _ h3]
  simp only [fstep] at hq3 ⊢
  rw [hq3, b1]
  exact setPtySize_fits _ _ hf

/-- The request overlaps with the start, but the launching thread applies its size first. -/
example : (frun { size := (80, 24) } ([.setFd, .readSize 0] ++ .setSize (120, 40) :: [] ++ .readSize 1 :: [.ioctl 0] ++ .ioctl 1 :: [])).device =
    some ⟨120, 40⟩ := by decide +kernel

/-- C50: the bytes sent over the channel are the bytes read from the terminal, for every sequence of poll results, at every moment.
This is the first half of the claim; the second half fails, see `c50_counterexample`. -/
theorem c50_output_partial (spawnOk : Bool) (poll : Nat → Option (List PollEv)) (fuel : Nat) :
    wroteBytes (runThread spawnOk poll fuel).1 = readBytes (runThread spawnOk poll fuel).1 := by
  have h := (copyLoop_same poll fuel 0).1
  cases spawnOk with
  | false => rfl
  | true =>
    rcases hq : copyLoop poll fuel 0 with ⟨acts, fin⟩
    rw [hq] at h
    simp only at h
    cases fin with
    | more => simp [runThread, hq, h]
    | done => simp [runThread, hq, wroteBytes_append, readBytes_append, h]; simp [wroteBytes, readBytes]
    | raised f => cases f <;> simp [runThread, hq, wroteBytes_append, readBytes_append, h] <;> simp [wroteBytes, readBytes]

/-- C50, continued: the slot of the limiter is given back exactly once, at the end, however the thread ends. -/
theorem c50_released (spawnOk : Bool) (poll : Nat → Option (List PollEv)) (fuel : Nat) :
    (runThread spawnOk poll fuel).1.count .release = if (runThread spawnOk poll fuel).2 then 1 else 0 := by
  have h := (copyLoop_same poll fuel 0).2
  have h0 : (copyLoop poll fuel 0).1.count .release = 0 := by
    rw [List.count_eq_zero]
    intro hm
    rcases h _ hm with ⟨d, hd⟩ | ⟨d, hd⟩ <;> simp at hd
  cases spawnOk with
  | false => simp [runThread]
  | true =>
    rcases hq : copyLoop poll fuel 0 with ⟨acts, fin⟩
    rw [hq] at h0
    simp only at h0
    cases fin with
    | more => simp [runThread, hq, h0]
    | done => simp [runThread, hq, h0]
    | raised f => cases f <;> simp [runThread, hq, h0]

/-- C50 fails in its second half: the close of the channel is never requested, whatever the process does and however the thread ends. -/
theorem c50_counterexample (spawnOk : Bool) (poll : Nat → Option (List PollEv)) (fuel : Nat) :
    Act.closeChannel ∉ (runThread spawnOk poll fuel).1 := by
  have h := (copyLoop_same poll fuel 0).2
  have h0 : Act.closeChannel ∉ (copyLoop poll fuel 0).1 := by
    intro hm
    rcases h _ hm with ⟨d, hd⟩ | ⟨d, hd⟩ <;> simp at hd
  cases spawnOk with
  | false => simp [runThread]
  | true =>
    rcases hq : copyLoop poll fuel 0 with ⟨acts, fin⟩
    rw [hq] at h0
    simp only at h0
    cases fin with
    | more => simpa [runThread, hq] using h0
    | done => simpa [runThread, hq] using h0
    | raised f => cases f <;> simpa [runThread, hq] using h0

/-- Output in two pieces, then the process ends. -/
example : runThread true (fun k => [some [⟨true, false, .ok [1, 2], none⟩], some [], some [⟨true, true, .ok [3], none⟩]].getD k none) 10 =
    ([.read [1, 2], .write [1, 2], .read [3], .write [3], .closeFd, .release], true) := by decide +kernel

/-- C51, for a user and a group that exist: the command runs with exactly these or not at all.  Missing for the full claim: see
`c51_counterexample`. -/
theorem c51_exact_partial (users groups : Text → Option Nat) (agent : Cred) (user group : Text) (uid gid : Nat)
    (hu : users user = some uid) (hg : groups group = some gid) (c : Cred)
    (h : childCred users groups agent (some user) (some group) = some c) : c = ⟨uid, gid⟩ := by
  simp only [childCred, hu, hg, setuid] at h
  by_cases ha : (decide (agent.uid = 0) || decide (agent.uid = uid)) = true
  · simp only [ha, if_true, setgid] at h
    split at h
    · simpa using h.symm
    · simp at h
  · simp [ha] at h

/-- An agent of group 50 that runs as root, a terminal with user 1000 and group 50. -/
example : childCred (fun _ => some 1000) (fun _ => some 50) ⟨0, 50⟩ (some "u".toList) (some "g".toList) = some ⟨1000, 50⟩ := by
  decide +kernel

/-- The child in terms of the accounts that are known. -/
theorem childCred_eq (users groups : Text → Option Nat) (agent : Cred) (user group : Option Text) :
    childCred users groups agent user group = (match user.bind users with
      | none => some agent
      | some uid => setuid agent uid).bind fun c => match group.bind groups with
      | none => some c
      | some gid => setgid c gid := by
  have hg : ∀ r : Option Cred, (match r with
      | none => none
      | some c => match group with
        | none => some c
        | some name => match groups name with
          | none => some c
          | some gid => setgid c gid) = r.bind fun c => match group.bind groups with
          | none => some c
          | some gid => setgid c gid := by
    intro r
    cases r with
    | none => rfl
    | some c => cases group with
      | none => rfl
      | some name => show (match groups name with | none => some c | some gid => setgid c gid) = match groups name with | none => some c | some gid => setgid c gid
                     cases groups name <;> rfl
  have hu : (match user with
      | none => some agent
      | some name => match users name with
        | none => some agent
        | some uid => setuid agent uid) = match user.bind users with
        | none => some agent
        | some uid => setuid agent uid := by
    cases user with
    | none => rfl
    | some name => show (match users name with | none => some agent | some uid => setuid agent uid) = match users name with | none => some agent | some uid => setuid agent uid
                   cases users name <;> rfl
  rw [← hu, ← hg]
  rfl

/-- C51, exactly when the command runs and as whom: an account that is not asked for or not known is not changed; root may change to any account,
others only to their own, and the user is changed first. -/
theorem c51_iff (users groups : Text → Option Nat) (agent : Cred) (user group : Option Text) (c : Cred) :
    childCred users groups agent user group = some c ↔
      c = ⟨(user.bind users).getD agent.uid, (group.bind groups).getD agent.gid⟩ ∧
      (∀ uid, user.bind users = some uid → agent.uid = 0 ∨ agent.uid = uid) ∧
      (∀ gid, group.bind groups = some gid → c.uid = 0 ∨ agent.gid = gid) := by
  rw [childCred_eq]
  obtain ⟨au, ag⟩ := agent
  obtain ⟨cu, cg⟩ := c
  generalize user.bind users = u
  generalize group.bind groups = g
  have hset : ∀ (c : Cred) (x : Nat), setgid c x = if c.uid = 0 ∨ c.gid = x then some { c with gid := x } else none := by
    intro c x; simp [setgid]
  cases u with
  | none =>
    cases g with
    | none => simp [eq_comm]
    | some gid =>
      simp only [hset, Option.bind_some, Option.getD_none, Option.getD_some, Cred.mk.injEq]
      split <;> (rename_i h; simp [eq_comm]; omega)
  | some uid =>
    by_cases h : au = 0 ∨ au = uid
    · have : setuid ⟨au, ag⟩ uid = some ⟨uid, ag⟩ := by simp [setuid, h]
      cases g with
      | none => simp [this, eq_comm]; omega
      | some gid =>
        simp only [this, hset, Option.bind_some, Option.getD_some, Cred.mk.injEq]
        split <;> (rename_i h'; simp [eq_comm]; omega)
    · have : setuid ⟨au, ag⟩ uid = none := by simp [setuid, h]
      simp only [this, Option.bind_none, Option.getD_some, Cred.mk.injEq]
      refine ⟨fun h => (nomatch h), fun ⟨_, h2, _⟩ => absurd (h2 uid rfl) h⟩

/-- Without a user and a group the command runs as the agent. -/
example : childCred (fun _ => some 1) (fun _ => some 2) ⟨5, 6⟩ none none = some ⟨5, 6⟩ := by decide +kernel

/-- C51 fails if the user does not exist: the command runs with the credentials of the agent. -/
theorem c51_counterexample (groups : Text → Option Nat) (agent : Cred) (user : Text) :
    childCred (fun _ => none) groups agent (some user) none = some agent := rfl

/-- C51: the user is changed before the group, so that an agent running as root can never start a terminal with an ordinary user and a
group other than its own. -/
theorem c51_never_runs (users groups : Text → Option Nat) (agentGid : Nat) (user group : Text) (uid gid : Nat)
    (hu : users user = some (uid + 1)) (hg : groups group = some gid) (hne : agentGid ≠ gid) :
    childCred users groups ⟨0, agentGid⟩ (some user) (some group) = none := by
  simp [childCred, hu, hg, setuid, setgid, hne]

/-! ### C92 -/

/-- Numbers of processes are below `next` and distinct, whatever happens. -/
theorem c92_distinct (ops : List TOp) : (trun {} ops).processes.Nodup ∧ ∀ p ∈ (trun {} ops).processes, p < (trun {} ops).next := by
  suffices ∀ t : Term, (t.processes.Nodup ∧ ∀ p ∈ t.processes, p < t.next) →
      (trun t ops).processes.Nodup ∧ ∀ p ∈ (trun t ops).processes, p < (trun t ops).next from this {} (by simp)
  induction ops with
  | nil => exact fun _ h => h
  | cons op ops ih =>
    intro t h
    apply ih (tstep t op)
    obtain ⟨h1, h2⟩ := h
    cases op with
    | launch ok =>
      have hk : (t.processes.filter (fun p => !t.closed.contains p)).Nodup := h1.filter _
      have hl : ∀ p ∈ t.processes.filter (fun p => !t.closed.contains p), p < t.next := fun p hp => h2 p (List.mem_filter.mp hp).1
      simp only [tstep]
      cases ok with
      | false => exact ⟨hk, fun p hp => Nat.lt_succ_of_lt (hl p hp)⟩
      | true =>
        simp only [if_true]
        refine ⟨?_, ?_⟩
        · rw [List.nodup_append]
          refine ⟨hk, by simp, ?_⟩
          intro a ha b hb
          simp at hb
          have := hl a ha
          omega
        · intro p hp
          rcases List.mem_append.mp hp with h | h
          · exact Nat.lt_succ_of_lt (hl p h)
          · simp at h; omega
    | channelClosed p => exact ⟨h1, h2⟩
    | closeAll r => exact ⟨by simp [tstep], by simp [tstep]⟩

/-- C92: a successful launch makes the new process known, a failed one makes none known, and no launch or closing of a channel makes
another process known. -/
theorem c92_launched (ops : List TOp) (ok : Bool) (p : Nat) (h : p ∈ (trun {} (ops ++ [.launch ok])).processes) :
    p ∈ (trun {} ops).processes ∧ p ∉ (trun {} ops).closed ∨ ok = true ∧ p = (trun {} ops).next := by
  have hr : trun {} (ops ++ [.launch ok]) = tstep (trun {} ops) (.launch ok) := by simp [trun]
  rw [hr] at h
  cases ok with
  | false => exact .inl (by simpa [tstep, List.mem_filter] using h)
  | true => simpa [tstep, List.mem_filter] using h

theorem c92_known (ops : List TOp) : (trun {} ops).next ∈ (trun {} (ops ++ [.launch true])).processes := by
  simp [trun, tstep]

/-- C92: a known process stays known until it is closed or `Terminal.close` is called. -/
theorem c92_live_kept (ops : List TOp) (p : Nat) (h : p ∈ (trun {} ops).processes) (ops' : List TOp)
    (hn : ∀ r, TOp.closeAll r ∉ ops') (hc : p ∉ (trun {} (ops ++ ops')).closed) : p ∈ (trun {} (ops ++ ops')).processes := by
  have hrun : trun {} (ops ++ ops') = trun (trun {} ops) ops' := by simp [trun]
  rw [hrun] at hc ⊢
  clear hrun
  generalize trun {} ops = t at h hc ⊢
  induction ops' generalizing t with
  | nil => exact h
  | cons op ops' ih =>
    have mono : ∀ (l : List TOp) (t : Term), p ∈ t.closed → p ∈ (trun t l).closed := by
      intro l
      induction l with
      | nil => exact fun _ h => h
      | cons op l ih =>
        intro t h
        apply ih (tstep t op)
        cases op <;> simp [tstep, h]
    have hc0 : p ∉ t.closed := by
      intro hm
      apply hc
      exact mono (op :: ops') t hm
    apply ih (fun r hr => hn r (List.mem_cons_of_mem _ hr)) (tstep t op)
    · cases op with
      | launch ok =>
        have : p ∈ t.processes.filter (fun p => !t.closed.contains p) := List.mem_filter.mpr ⟨h, by simpa using hc0⟩
        simp only [tstep]
        split
        · exact List.mem_append_left _ this
        · exact this
      | channelClosed q => exact h
      | closeAll r => exact absurd (by simp) (hn r)
    · exact hc

/-- C92: `Terminal.close` closes every known process that is not closed, exactly once, no closed one, and then knows none. -/
theorem c92_close_all (ops : List TOp) (raising : List Nat) (p : Nat) :
    ((closeCalls (trun {} ops)).count p = if p ∈ (trun {} ops).processes ∧ p ∉ (trun {} ops).closed then 1 else 0) ∧
    (trun {} (ops ++ [.closeAll raising])).processes = [] := by
  refine ⟨?_, by simp [trun, tstep]⟩
  have hd : (closeCalls (trun {} ops)).Nodup := (c92_distinct ops).1.filter _
  have hm : p ∈ closeCalls (trun {} ops) ↔ p ∈ (trun {} ops).processes ∧ p ∉ (trun {} ops).closed := by
    simp [closeCalls, List.mem_filter]
  split
  · rename_i h
    have h1 := List.nodup_iff_count.mp hd p
    have h2 := List.count_pos_iff.mpr (hm.mpr h)
    omega
  · rename_i h
    exact List.count_eq_zero.mpr (fun hc => h (hm.mp hc))

/-- A failed launch leaves no process behind; closing then reaches the two live ones. -/
example : closeCalls (trun {} [.launch true, .launch false, .launch true, .channelClosed 0, .launch true, .channelClosed 5]) = [2, 3] := by
  decide +kernel

end Verif.Terminal
