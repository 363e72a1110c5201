import Verif.Proofs.TermControl
/-!
Properties C113 and C114: control messages of terminals, and the descriptor of a terminal.
-/
namespace Verif.TermControl
open Verif

/-! ### C113 -/

/-- C113: on a running terminal, after any sequence of control messages the window has the size of the last well-formed resize request among them;
all other messages, whatever they are, change nothing. -/
theorem c113_running (t : Term) (hf : t.fd = true) (ms : List (Option Json)) :
    window (run t (ms.map .control)) = lastAsked (window t) ms ∧ (run t (ms.map .control)).fd = true ∧ (run t (ms.map .control)).ok = t.ok := by
  induction ms generalizing t with
  | nil => exact ⟨rfl, hf, rfl⟩
  | cons m ms ih =>
    obtain ⟨h1, h2, h3⟩ := control_running t m hf
    obtain ⟨i1, i2, i3⟩ := ih (onControl t m).1 h1
    refine ⟨?_, i2, by rw [← h2]; exact i3⟩
    rw [h3] at i1
    exact i1

/-- C113: a message raises an exception (which is logged) exactly if it is JSON but no object, or a resize request without a proper size. -/
theorem c113_raises (t : Term) (hf : t.fd = true) (m : Option Json) :
    (onControl t m).2 = true ↔ (∃ j, m = some j ∧ ∀ l, j ≠ .obj l) ∨ (isRequest m = true ∧ asked m = none) := by
  cases m with
  | none => simp [onControl, isRequest]
  | some j =>
    cases j with
    | obj l =>
      have hno : ¬ ∃ j, some (Json.obj l) = some j ∧ ∀ l, j ≠ .obj l := fun ⟨j, h1, h2⟩ => h2 l (Option.some.inj h1).symm
      simp only [hno, false_or]
      by_cases hr : lookup l sType = some (.str sResize)
      · simp only [onControl, isRequest, asked, hr, if_true, decide_true, true_and]
        cases hs : lookup l sSize with
        | none => simp
        | some size =>
          simp only [Option.bind_some]
          have hset := set_pair size
          split
          · simp only [resize, hf, if_true, hset]
            cases pair size <;> simp
          · rename_i hel
            cases hp : pair size with
            | none => simp
            | some p =>
              obtain ⟨a, b, e⟩ := pair_elems hp
              exact absurd e (hel a b [])
      · simp [onControl, isRequest, hr]
    | _ => simp [onControl]

/-- C113: a well-formed request raises no exception, whether the terminal runs, has not been started or has ended; nor does a message that is no JSON, or
an object that is no request. -/
theorem c113_quiet (t : Term) (m : Option Json) (hj : m = none ∨ ∃ l, m = some (.obj l)) (hm : isRequest m = true → asked m ≠ none) :
    (onControl t m).2 = false := by
  cases hf : t.fd with
  | true =>
    cases hb : (onControl t m).2 with
    | false => rfl
    | true =>
      rcases (c113_raises t hf m).mp hb with ⟨j, h1, h2⟩ | ⟨h1, h2⟩
      · rcases hj with h | ⟨l, h⟩
        · rw [h] at h1
          exact (nomatch h1)
        · rw [h] at h1
          exact absurd (Option.some.inj h1).symm (h2 l)
      · exact absurd h2 (hm h1)
  | false =>
    rcases hj with h | ⟨l, h⟩
    · rw [h]
      rfl
    · subst h
      by_cases hr : lookup l sType = some (.str sResize)
      · have ha := hm (by simp only [isRequest, hr, decide_true])
        simp only [onControl, hr, if_true]
        simp only [asked, hr, if_true] at ha
        cases hs : lookup l sSize with
        | none => simp [hs] at ha
        | some size =>
          simp only [hs, Option.bind_some] at ha
          cases hp : pair size with
          | none => exact absurd hp ha
          | some p =>
            obtain ⟨a, b, e⟩ := pair_elems hp
            simp [e, resize, hf]
      · simp [onControl, hr]

/-- Requests and sizes of the examples. -/
def request (size : Json) : Option Json := some (.obj [(sType, .str sResize), (sSize, size)])

/-- Two requests, with messages that are none, or wrong, in between. -/
example : window (run { size := .arr [.int 80, .int 24], fd := true, device := some ⟨80, 24⟩ }
    ([request (.arr [.int 100, .int 30]), none, request (.arr [.int 1, .int 2, .int 3]), request (.arr [.int 40000, .int 2]),
      request (.str "ab".toList), some (.arr []), some (.obj [(sType, .str sResize)])].map .control)) = some (100, 30) := by decide +kernel

/-- Before the start a request for a proper size is quiet and one without a size is not. -/
example : (onControl { size := .arr [.int 80, .int 24] } (request (.arr [.int 100, .int 30]))).2 = false ∧
    (onControl { size := .arr [.int 80, .int 24] } (some (.obj [(sType, .str sResize)]))).2 = true := by decide +kernel

/-- C113: the descriptor of the terminal is known exactly while the terminal runs. -/
theorem c113_known (t : Term) (hf : t.fd = false) (ops : List Op) : (run t ops).fd = true ↔ Running ops := fd_running t hf ops

/-- C113 where it holds before the start too: if every message that names itself a resize request is well formed (and so is the size with which the
terminal was opened), then at every moment the terminal thread is sound, and while the terminal runs its window has the size asked for last.
Missing for the full property: a malformed request before the start, `c113_counterexample`. -/
theorem c113_all_partial (t : Term) (p : Int × Int) (hs : pair t.size = some p) (hf : t.fd = false) (hk : t.ok = true) (ops : List Op)
    (hm : ∀ m ∈ messages ops, isRequest m = true → asked m ≠ none) :
    (run t ops).ok = true ∧ (Running ops → window (run t ops) = lastAsked (some p) (messages ops)) := by
  rw [← fd_running t hf ops]
  suffices ∀ (t : Term) (p : Int × Int), pair t.size = some p → (t.fd = true → window t = some p) → t.ok = true →
      (run t ops).ok = true ∧ ((run t ops).fd = true → window (run t ops) = lastAsked (some p) (messages ops)) from
    this t p hs (fun h => by rw [hf] at h; exact (nomatch h)) hk
  clear hs hf hk
  induction ops with
  | nil => exact fun t p _ hd hk => ⟨hk, hd⟩
  | cons op ops ih =>
    intro t p hs hd hk
    obtain ⟨h1, h2, h3⟩ := step_sound hs hd hk op (fun m h => hm m (by subst h; simp [messages]))
    have hrest : ∀ m ∈ messages ops, isRequest m = true → asked m ≠ none := by
      intro m hmem
      apply hm m
      cases op <;> simp_all [messages]
    have := ih hrest (step t op) _ h1 h2 h3
    cases op with
    | control m =>
      have e : lastAsked (some p) (messages (.control m :: ops)) = lastAsked (some ((asked m).getD p)) (messages ops) := by
        simp only [messages, List.filterMap_cons, lastAsked, List.foldl_cons]
        cases asked m <;> rfl
      rw [e]
      exact this
    | start => exact this
    | stop => exact this

example : window (run { size := .arr [.int 80, .int 24] }
    [.control (request (.arr [.int 90, .int 30])), .control none, .start, .control (some (.obj []))]) = some (90, 30) := by decide +kernel

/-- C113 fails before the start: after a request with the size `["80", "24"]` the terminal thread ends before it has copied anything, whatever the
process writes; the process has been started all the same. -/
theorem c113_counterexample (poll : Nat → Option (List Terminal.PollEv)) (fuel : Nat) :
    let t := run { size := .arr [.int 80, .int 24] } [.control (request (.arr [.str "80".toList, .str "24".toList])), .start]
    t.fd = true ∧ Terminal.runThread t.ok poll fuel = ([.release], true) := by
  have h : (run { size := .arr [.int 80, .int 24] } [.control (request (.arr [.str "80".toList, .str "24".toList])), .start]).ok = false ∧
      (run { size := .arr [.int 80, .int 24] } [.control (request (.arr [.str "80".toList, .str "24".toList])), .start]).fd = true := by
    decide +kernel
  refine ⟨h.2, ?_⟩
  rw [h.1]
  rfl

/-- C113 exactly, before the start: the terminal thread is sound after the start just if the last size sent before it (or given at the opening, if no
request had a size with several parts) is well formed, and then the window has that size. -/
theorem c113_iff (t : Term) (hf : t.fd = false) (hk : t.ok = true) (ms : List (Option Json)) :
    ((run t (ms.map .control ++ [.start])).ok = true ↔ pair (lastSize t.size ms) ≠ none) ∧
    ((run t (ms.map .control ++ [.start])).ok = true → window (run t (ms.map .control ++ [.start])) = pair (lastSize t.size ms)) := by
  have e : run t (ms.map .control ++ [.start]) = step (run t (ms.map .control)) .start := by simp [run]
  rw [e, controls_size t ms hf]
  simp only [step, set_pair]
  cases pair (lastSize t.size ms) with
  | none => simp
  | some p => simp [hk, window]

/-- Sizes with less than two parts are not kept; the others are, and decide. -/
example : lastSize .null [request (.arr [.int 1, .int 2]), request (.arr [.int 3]), request (.str "9".toList), none, some (.int 3)] =
      .arr [.int 1, .int 2] ∧
    lastSize .null [request (.arr [.int 1, .int 2]), request (.str "80".toList)] = .str "80".toList := by decide +kernel

/-- Without that message the output is copied. -/
example : Terminal.runThread (run { size := .arr [.int 80, .int 24] } [.start]).ok
    (fun k => if k = 0 then some [⟨true, true, .ok [1], none⟩] else none) 2 = ([.read [1], .write [1], .closeFd, .release], true) := by
  decide +kernel

/-! ### C114 -/

/-- C114 where it holds: whatever other threads open and close, the input of a terminal is written to the terminal as long as its thread has not
closed the descriptor; and nothing is written at all afterwards, if no input was being written at that moment and none comes before the descriptor
is forgotten.  Missing for the full property: `c114_counterexample` and `c114_counterexample_window`. -/
theorem c114_only_partial (tfd f : Nat) (s : Fds) (before between after : List FdOp)
    (h0 : Fresh tfd f s)
    (hb : FdOp.close ∉ before) (hq : (fdrun tfd s before).local_ = none) (hd : ∀ d, FdOp.data d ∉ between) :
    OnlyTo f (fdrun tfd s before) ∧
    (fdrun tfd s (before ++ .close :: between ++ .clear :: after)).written = (fdrun tfd s before).written := by
  have ho : Open tfd f (fdrun tfd s before) := by
    have : Open tfd f s := ⟨h0.file, .inl h0.fd, by rw [h0.idle]; exact fun _ h => (nomatch h),
      by rw [OnlyTo, h0.written]; exact fun _ h => (nomatch h), h0.shut⟩
    clear h0 hq
    induction before generalizing s with
    | nil => exact this
    | cons op r ih =>
      exact ih (fdstep tfd s op) (fun h => hb (List.mem_cons_of_mem _ h)) (open_step this op (fun h => hb (by rw [h]; simp)))
  refine ⟨ho.2.2.2.1, ?_⟩
  have e : fdrun tfd s (before ++ .close :: between ++ .clear :: after) =
      fdrun tfd (fdstep tfd (fdrun tfd (fdstep tfd (fdrun tfd s before) .close) between) .clear) after := by
    simp [fdrun, List.foldl_append]
  rw [e]
  generalize fdrun tfd s before = a at *
  have hbt : ∀ (l : List FdOp) (x : Fds), (∀ d, FdOp.data d ∉ l) → x.local_ = none → (fdrun tfd x l).local_ = none ∧ (fdrun tfd x l).written = x.written := by
    intro l
    induction l with
    | nil => exact fun x _ h => ⟨h, rfl⟩
    | cons op l ih =>
      intro x hl hx
      have hs : (fdstep tfd x op).local_ = none ∧ (fdstep tfd x op).written = x.written := by
        cases op with
        | data d => exact absurd (by simp) (hl d)
        | closeOther fd => simp only [fdstep]; split <;> simp [hx]
        | write n => simp [fdstep, hx]
        | _ => simp [fdstep, hx]
      obtain ⟨i1, i2⟩ := ih (fdstep tfd x op) (fun d h => hl d (List.mem_cons_of_mem _ h)) hs.1
      exact ⟨i1, i2.trans hs.2⟩
  have hat : ∀ (l : List FdOp) (x : Fds), x.fd = none → x.local_ = none → (fdrun tfd x l).written = x.written := by
    intro l
    induction l with
    | nil => exact fun x _ _ => rfl
    | cons op l ih =>
      intro x h1 h2
      obtain ⟨g1, g2, g3⟩ := gone_step (tfd := tfd) h1 h2 op
      exact (ih _ g1 g2).trans g3
  obtain ⟨b1, b2⟩ := hbt between (fdstep tfd a .close) hd hq
  exact (hat after (fdstep tfd (fdrun tfd (fdstep tfd a .close) between) .clear) rfl b1).trans b2

/-- C114, exactly when it fails: something is written to another file if and only if an `os.write` is made after the descriptor of the terminal has
been closed, while another file has its number.  (No other thread opens the terminal itself.) -/
theorem c114_iff (tfd f : Nat) (s : Fds) (h0 : Fresh tfd f s) (ops : List FdOp) (hn : ∀ g, FdOp.open_ g ∈ ops → g ≠ f) :
    ¬ OnlyTo f (fdrun tfd s ops) ↔ ∃ before n after, ops = before ++ .write n :: after ∧ FdOp.close ∈ before ∧
      (fdrun tfd s before).local_ ≠ none ∧ fileAt (fdrun tfd s before).files tfd ≠ none := by
  have key : ∀ (ops : List FdOp) (s : Fds), Inv tfd f s → (∀ g, FdOp.open_ g ∈ ops → g ≠ f) → (¬ OnlyTo f (fdrun tfd s ops) ↔ ¬ OnlyTo f s ∨
      ∃ before n after, ops = before ++ .write n :: after ∧ (fdrun tfd s before).shut = true ∧
        (fdrun tfd s before).local_ ≠ none ∧ fileAt (fdrun tfd s before).files tfd ≠ none) := by
    intro ops
    induction ops with
    | nil =>
      intro s _ _
      constructor
      · exact .inl
      · rintro (h | ⟨before, n, after, h, _⟩)
        · exact h
        · cases before <;> exact nomatch h
    | cons op ops ih =>
      intro s hi hn
      have e : fdrun tfd s (op :: ops) = fdrun tfd (fdstep tfd s op) ops := rfl
      rw [e, ih _ (inv_step hi op fun g e => hn g (by rw [e]; exact List.mem_cons_self)) (fun g hg => hn g (List.mem_cons_of_mem _ hg)),
        elsewhere_step hi]
      constructor
      · rintro (h | ⟨before, n, after, h1, h2⟩)
        · by_cases ho : OnlyTo f s
          · obtain ⟨n, rfl, h1⟩ := Classical.byContradiction fun hno => h ⟨ho, hno⟩
            exact .inr ⟨[], n, ops, rfl, h1⟩
          · exact .inl ho
        · exact .inr ⟨op :: before, n, after, by rw [h1]; rfl, h2⟩
      · rintro (h | ⟨before, n, after, h1, h2⟩)
        · exact .inl fun hx => h hx.1
        · cases before with
          | nil =>
            injection h1 with h1 _
            exact .inl fun hx => hx.2 ⟨n, h1, h2⟩
          | cons b before =>
            injection h1 with h3 h4
            subst h3
            exact .inr ⟨before, n, after, h4, h2⟩
  rw [key ops s (fresh_inv h0) hn]
  have hs : ∀ before, (fdrun tfd s before).shut = true ↔ FdOp.close ∈ before := fun before => by
    rw [shut_run, h0.shut]
    simp
  have ho : OnlyTo f s := by rw [OnlyTo, h0.written]; exact fun _ h => nomatch h
  simp only [hs, ho, not_true, false_or]

/-- C114: the channel is closed because of input exactly if a message comes when the descriptor has been forgotten (and the one before has been
written), or an `os.write` is made when the descriptor is closed and nobody else has its number; the rest of that input is lost. -/
theorem c114_refused (tfd f : Nat) (s : Fds) (h0 : Fresh tfd f s) (before : List FdOp) (hn : ∀ g, FdOp.open_ g ∈ before → g ≠ f) (op : FdOp) :
    let a := fdrun tfd s before
    let b := fdrun tfd s (before ++ [op])
    (b.closes = a.closes + 1 ∧ b.local_ = none ∧ b.written = a.written ∧
      ((∃ d, op = .data d ∧ a.local_ = none ∧ FdOp.clear ∈ before) ∨ ∃ n, op = .write n ∧ a.local_ ≠ none ∧ fileAt a.files tfd = none)) ∨
    (b.closes = a.closes ∧
      ¬ ((∃ d, op = .data d ∧ a.local_ = none ∧ FdOp.clear ∈ before) ∨ ∃ n, op = .write n ∧ a.local_ ≠ none ∧ fileAt a.files tfd = none)) := by
  intro a b
  have hb : b = fdstep tfd a op := by simp [b, a, fdrun, List.foldl_append]
  have hi : Inv tfd f a := inv_run (fresh_inv h0) before hn
  have hfd : a.fd = none ↔ FdOp.clear ∈ before := by
    rw [fd_run, h0.fd]
    simp
  rw [hb, ← hfd]
  clear_value a
  cases op with
  | data d =>
    cases hl : a.local_ with
    | some x => right; simp [fdstep, hl]
    | none =>
      cases hf : a.fd with
      | none => left; simp [fdstep, hl, hf]
      | some fd =>
        right
        simp only [fdstep, hl, hf]
        split <;> simp
  | write n =>
    cases hl : a.local_ with
    | none => right; simp [fdstep, hl]
    | some x =>
      obtain ⟨fd, d⟩ := x
      have : fd = tfd := hi.loc _ hl
      subst this
      cases hf : fileAt a.files fd with
      | none => left; simp [fdstep, hl, hf]
      | some g => right; simp [fdstep, hl, hf]
  | closeOther fd => right; simp only [fdstep]; split <;> simp
  | _ => right; simp [fdstep]

/-- The state when the process has been started: descriptors 0 to 3 are open, 3 is the terminal. -/
def started : Fds := { files := [(0, 10), (1, 11), (2, 12), (3, 5)], fd := some 3 }

theorem started_fresh : Fresh 3 5 started where
  file := by decide +kernel
  only := by decide +kernel
  fd := rfl
  idle := rfl
  written := rfl
  shut := rfl

/-- The number goes to another file, which is closed again: the input that comes then is lost and the channel closed; likewise later input. -/
example : (fdrun 3 started [.data [1, 2], .write 1, .close, .open_ 7, .closeOther 3, .write 1, .clear, .data [3], .data [4]]).written = [(5, [1])] ∧
    (fdrun 3 started [.data [1, 2], .write 1, .close, .open_ 7, .closeOther 3, .write 1, .clear, .data [3], .data [4]]).closes = 3 := by decide +kernel

example : (fdrun 3 started ([.data [1, 2, 3], .write 2, .open_ 6, .write 2, .closeOther 4] ++ .close :: [.open_ 7, .write 1] ++
    .clear :: [.data [4], .write 1])).written = [(5, [1, 2]), (5, [3])] := by decide +kernel

/-- C114 fails: the terminal's process ends while input is being written; its thread closes the descriptor, another thread opens a file and gets
the same number, and the rest of the input is written to that file. -/
theorem c114_counterexample :
    (fdrun 3 started [.data [1, 2, 3], .write 1, .close, .open_ 7, .write 2]).written = [(5, [1]), (7, [2, 3])] := by decide +kernel

/-- C114 fails too if all the input comes between the closing of the descriptor and the assignment of `None`. -/
theorem c114_counterexample_window :
    (fdrun 3 started [.close, .open_ 7, .data [1], .write 1, .clear]).written = [(7, [1])] := by decide +kernel

end Verif.TermControl
