import Verif.Proofs.PortForward
/-!
C38-C45: port forwarding.
-/
namespace Verif.PortForward
open Verif

/-! ### C38 and C39 -/

/-- C38: if the socket accepts data, then at every moment of every interleaving the local service was given a prefix of the routed
bytes, and the rest is exactly what waits in the buffer. -/
theorem c38_in_order (accept : Nat → Option Nat) (h : ∀ n, accept n = none) (ops : List WOp) :
    (wrun accept {} ops).sent ++ (wrun accept {} ops).buffer.flatten = routed false ops := by
  simpa using wrun_ok accept h {} ops

/-- C38: nothing waits once the connecting thread has set the socket and flushed, or a later message has come: all bytes routed so
far, before, while and after connecting, were given to the local service. -/
theorem c38_all_sent (accept : Nat → Option Nat) (h : ∀ n, accept n = none) (ops : List WOp)
    (hf : flushed false false false ops = true) : (wrun accept {} ops).sent = routed false ops := by
  have := c38_in_order accept h ops
  rw [wrun_flushed accept {} ops false (by simp) hf] at this
  simpa using this

/-- Data before, between and after the two steps of connecting. -/
example : (wrun (fun _ => none) {} [.data [1], .data [2], .setSocket, .data [3], .flush, .data [4], .onClose, .data [5]]) =
    { socket := true, buffer := [], closed := true, calls := 4, sent := [1, 2, 3, 4], shut := true } := by decide
example : flushed false false false [.data [1], .data [2], .setSocket, .data [3], .flush, .data [4], .onClose, .data [5]] = true := by decide

/-- C39 fails: `sendall` sends one byte of the first message and raises (its five second timeout, say); the rest of the buffer is
dropped, and the next message is sent after the hole. -/
theorem c39_counterexample :
    ∃ (accept : Nat → Option Nat) (ops : List WOp), ¬ (wrun accept {} ops).sent <+: routed false ops := by
  refine ⟨fun n => if n = 0 then some 1 else none, [.setSocket, .flush, .data [1, 2, 3], .data [4]], ?_⟩
  decide

/-- C39 where it holds: if a connection on which `sendall` has failed accepts nothing more, what the local service sees is a prefix of
the routed bytes.  Missing for the full property: a send that fails and a later one that succeeds, see `c39_counterexample`. -/
theorem c39_prefix_partial (accept : Nat → Option Nat) (h : Sticky accept) (ops : List WOp) :
    (wrun accept {} ops).sent <+: routed false ops := by
  have h0 : Intact accept {} [] := .inl rfl
  have := wrun_intact accept h {} [] ops h0
  simp only [List.nil_append] at this
  rcases this with h | ⟨-, h⟩
  · rw [← h]
    exact List.prefix_append _ _
  · exact h

/-- Empty messages, each of which is one call of `sendall` (auxiliary). -/
theorem wrun_empties (accept : Nat → Option Nat) (k n : Nat) (sent : Bytes) (shut : Bool) :
    wrun accept ⟨true, [], false, n, sent, shut⟩ (List.replicate k (.data [])) = ⟨true, [], false, n + k, sent, shut⟩ := by
  induction k generalizing n with
  | zero => rfl
  | succ k ih =>
    have hstep : wstep accept ⟨true, [], false, n, sent, shut⟩ (.data []) = ⟨true, [], false, n + 1, sent, shut⟩ := by
      cases ha : accept n <;> simp [wstep, flushBuffer, sendChunks, ha]
    rw [List.replicate_succ, wrun, List.foldl_cons, hstep]
    have := ih (n + 1)
    rw [wrun] at this
    rw [this, show n + 1 + k = n + (k + 1) by omega]

/-- The routed bytes of a history without a close (auxiliary). -/
theorem routed_empties (k : Nat) (ops : List WOp) : routed false (List.replicate k (.data []) ++ ops) = routed false ops := by
  induction k with
  | zero => rfl
  | succ k ih => rw [List.replicate_succ, List.cons_append, routed, ih]; rfl

/-- C39, exactly: the local service sees a prefix of the routed bytes in all histories if and only if the connection is one on which nothing is
accepted any more after a call of `sendall` has failed. -/
theorem c39_iff (accept : Nat → Option Nat) : (∀ ops, (wrun accept {} ops).sent <+: routed false ops) ↔ Sticky accept := by
  refine ⟨fun h n m hnm hn => ?_, c39_prefix_partial accept⟩
  cases hk : accept n with
  | none => exact absurd hk hn
  | some k =>
    apply Classical.byContradiction
    intro hm
    have hlast : ∀ sent, (wstep accept ⟨true, [], false, m, sent, false⟩ (.data [1])).sent = sent ++ [1] := by
      intro sent
      cases ha : accept m with
      | none => simp [wstep, flushBuffer, sendChunks, ha]
      | some j =>
        cases j with
        | zero => exact absurd ha hm
        | succ j => simp [wstep, flushBuffer, sendChunks, ha]
    have hhole : wstep accept ⟨true, [], false, n, [], false⟩ (.data (List.replicate (k + 1) 0)) =
        ⟨true, [], false, n + 1, List.replicate k 0, false⟩ := by
      simp [wstep, flushBuffer, sendChunks, hk, List.take_replicate]
    have hp := h (.setSocket :: (List.replicate n (.data []) ++ (.data (List.replicate (k + 1) 0) ::
      (List.replicate (m - n - 1) (.data []) ++ [.data [1]]))))
    have hs : (wrun accept {} (.setSocket :: (List.replicate n (.data []) ++ (.data (List.replicate (k + 1) 0) ::
        (List.replicate (m - n - 1) (.data []) ++ [.data [1]]))))).sent = List.replicate k 0 ++ [1] := by
      have e1 := wrun_empties accept n 0 [] false
      have e2 := wrun_empties accept (m - n - 1) (n + 1) (List.replicate k 0) false
      unfold wrun at e1 e2 ⊢
      rw [List.foldl_cons, List.foldl_append]
      have e0 : wstep accept {} .setSocket = ⟨true, [], false, 0, [], false⟩ := rfl
      rw [e0, e1, List.foldl_cons, Nat.zero_add, hhole, List.foldl_append, e2, show n + 1 + (m - n - 1) = m by omega]
      exact hlast _
    have hr : routed false (.setSocket :: (List.replicate n (.data []) ++ (.data (List.replicate (k + 1) 0) ::
        (List.replicate (m - n - 1) (.data []) ++ [.data [1]])))) = List.replicate (k + 1) 0 ++ [1] := by
      rw [routed, routed_empties, routed, routed_empties]
      · rfl
      · intro d h; exact (nomatch h)
      · intro h; exact (nomatch h)
    rw [hs, hr, List.replicate_succ'] at hp
    obtain ⟨t, ht⟩ := hp
    rw [List.append_assoc, List.append_assoc] at ht
    have := List.append_cancel_left ht
    injection this with h1 _
    exact absurd h1 (by decide)

example : (wrun (fun n => if n = 0 then none else if n = 1 then some 2 else some 0) {}
    [.setSocket, .flush, .data [1], .data [2, 3, 4], .data [5]]).sent = [1, 2, 3] := by decide

/-! ### C144 -/

/-- C144 fails: the server closes the channel before the local connection is made; the data is sent, but the local service is never told that
nothing more comes. -/
theorem c144_counterexample :
    ∃ ops, WOp.onClose ∈ ops ∧ WOp.setSocket ∈ ops ∧ (wrun (fun _ => none) {} ops).sent = [1] ∧ (wrun (fun _ => none) {} ops).shut = false :=
  ⟨[.data [1], .onClose, .setSocket, .flush], by decide, by decide, by decide, by decide⟩

/-- C144, the part that holds: if the connection was made before the close and the socket accepts data, then the local service was given
everything and its write side is shut down.  Missing: a close before the connection is made, and one whose flush raises. -/
theorem c144_closed_partial (accept : Nat → Option Nat) (h : ∀ n, accept n = none) (a b : List WOp) (ha : .onClose ∉ a)
    (hs : .setSocket ∈ a) :
    (wrun accept {} (a ++ .onClose :: b)).shut = true ∧ (wrun accept {} (a ++ .onClose :: b)).sent = routed false a := by
  obtain ⟨h1, h2⟩ := wrun_open accept ha
  have hc : (wrun accept {} a).closed = false := h1
  have hk : (wrun accept {} a).socket = true := h2.2 hs
  have hok := c38_in_order accept h a
  have hstep : (wstep accept (wrun accept {} a) .onClose).shut = true ∧ (wstep accept (wrun accept {} a) .onClose).sent = routed false a ∧
      (wstep accept (wrun accept {} a) .onClose).closed = true ∧ (wstep accept (wrun accept {} a) .onClose).buffer = [] := by
    have hx := sendChunks_ok accept h (wrun accept {} a).calls (wrun accept {} a).buffer
    simp only [wstep, hc, Bool.false_eq_true, if_false, flushBuffer, hk, if_true, hx.2, Bool.and_self]
    exact ⟨trivial, by rw [hx.1]; exact hok, trivial, trivial⟩
  rw [wrun_split]
  obtain ⟨h3, h4, _⟩ := wrun_closed accept b hstep.2.2.1 hstep.2.2.2
  exact ⟨by rw [h3]; exact hstep.1, by rw [h4]; exact hstep.2.1⟩

/-- C144: the write side is shut down only after the server closed the channel, on a connection that was made, with nothing left to send; and
nothing is sent afterwards, whatever fails. -/
theorem c144_only_then (accept : Nat → Option Nat) (ops : List WOp) (h : (wrun accept {} ops).shut = true) :
    ∃ a b, ops = a ++ .onClose :: b ∧ .setSocket ∈ a ∧ .onClose ∉ a ∧ (wrun accept {} (a ++ [.onClose])).buffer = [] ∧
      (∀ n, (wrun accept {} a).calls ≤ n → n < (wrun accept {} a).calls + (wrun accept {} a).buffer.length → accept n = none) ∧
      (wrun accept {} ops).sent = (wrun accept {} a).sent ++ (wrun accept {} a).buffer.flatten := by
  obtain ⟨a, b, rfl, ha⟩ : ∃ a b, ops = a ++ .onClose :: b ∧ .onClose ∉ a := by
    apply Classical.byContradiction
    intro hn
    have hno : .onClose ∉ ops := by
      intro hm
      obtain ⟨a, b, e, hnot⟩ := List.eq_append_cons_of_mem hm
      exact hn ⟨a, b, e, hnot⟩
    have := (wrun_unshut accept hno).symm.trans h
    exact nomatch this
  obtain ⟨h1, h2⟩ := wrun_open accept ha
  have hsh := wrun_unshut accept ha
  rw [wrun_split] at h
  have hclosed : (wstep accept (wrun accept {} a) .onClose).closed = true := by
    simp only [wstep, h1, Bool.false_eq_true, if_false, flushBuffer]
    split <;> split <;> rfl
  have hsh' : (wstep accept (wrun accept {} a) .onClose).shut = true := by
    rw [wrun_shut_closed accept b hclosed] at h
    exact h
  have hsock : (wrun accept {} a).socket = true ∧
      (sendChunks accept (wrun accept {} a).calls (wrun accept {} a).buffer).2.2 = true := by
    simp only [wstep, h1, Bool.false_eq_true, if_false, flushBuffer] at hsh'
    cases hk : (wrun accept {} a).socket with
    | false => simp [hk, hsh] at hsh'
    | true =>
      refine ⟨rfl, ?_⟩
      cases hx : (sendChunks accept (wrun accept {} a).calls (wrun accept {} a).buffer).2.2 with
      | true => rfl
      | false => simp [hk, hsh, hx] at hsh'
  have hstep : (wstep accept (wrun accept {} a) .onClose).buffer = [] ∧
      (wstep accept (wrun accept {} a) .onClose).sent = (wrun accept {} a).sent ++ (wrun accept {} a).buffer.flatten := by
    obtain ⟨e1, _⟩ := sendChunks_true accept _ _ hsock.2
    simp only [wstep, h1, Bool.false_eq_true, if_false, flushBuffer, hsock.1, if_true, hsock.2, Bool.and_self, e1]
    exact ⟨trivial, trivial⟩
  refine ⟨a, b, rfl, h2.1 hsock.1, ha, ?_, (sendChunks_true accept _ _ hsock.2).2, ?_⟩
  · rw [wrun_split]; exact hstep.1
  · rw [wrun_split]
    rw [(wrun_closed accept b hclosed hstep.1).2.1]; exact hstep.2

/-- C144 exactly: the write side is shut down just if the server has closed the channel after the connection was made, and all that was buffered then
could be sent. -/
theorem c144_iff (accept : Nat → Option Nat) (ops : List WOp) :
    (wrun accept {} ops).shut = true ↔
    ∃ a b, ops = a ++ .onClose :: b ∧ .onClose ∉ a ∧ .setSocket ∈ a ∧
      ∀ n, (wrun accept {} a).calls ≤ n → n < (wrun accept {} a).calls + (wrun accept {} a).buffer.length → accept n = none := by
  constructor
  · intro h
    obtain ⟨a, b, h1, h2, h3, _, h4, _⟩ := c144_only_then accept ops h
    exact ⟨a, b, h1, h3, h2, h4⟩
  · rintro ⟨a, b, rfl, ha, hs, hok⟩
    obtain ⟨h1, h2⟩ := wrun_open accept ha
    have hc : (wrun accept {} a).closed = false := h1
    have hk : (wrun accept {} a).socket = true := h2.2 hs
    have hx := sendChunks_all accept _ _ hok
    have hstep : (wstep accept (wrun accept {} a) .onClose).shut = true ∧ (wstep accept (wrun accept {} a) .onClose).closed = true := by
      simp only [wstep, hc, Bool.false_eq_true, if_false, flushBuffer, hk, if_true, hx, Bool.and_self]
      exact ⟨trivial, trivial⟩
    rw [wrun_split, wrun_shut_closed accept b hstep.2]
    exact hstep.1

/-- Data, connection, data, close: all data and then the end. -/
example : (wrun (fun _ => none) {} [.data [1], .setSocket, .flush, .data [2], .onClose, .data [3], .flush]) =
    { socket := true, buffer := [], closed := true, calls := 2, sent := [1, 2], shut := true } := by decide

/-- The flush at the close raises: no end. -/
example : (wrun (fun n => if n = 1 then some 0 else none) {} [.data [1], .data [2], .setSocket, .onClose]) =
    { socket := true, buffer := [], closed := true, calls := 2, sent := [1], shut := false } := by decide

/-! ### C40 -/

/-- C40: in every schedule of any number of forwarding threads, the bytes a thread writes to its channel are exactly the bytes it
receives from its socket, in order. -/
theorem c40_forwarded (sts : List Step) (i : Nat) :
    written (actsOf i (run {} sts).2) = received (actsOf i (run {} sts).2) := by
  rcases run_shape {} sts i (by simp) with ⟨acts, h1, -, h3, -⟩ | ⟨acts, st, -, -, h1, -, h3, -⟩
  · rw [h1, h3]
  · rw [h1, written_append, received_append, h3, (finish_same _).1, (finish_same _).2]

/-- C40: and each piece is written right after it was received, before the next one is received. -/
theorem c40_no_waiting (es : List PollEv) : ∀ pre d post, (pollEvents es).1 = pre ++ .recv d :: post → d ≠ [] → post.head? = some (.write d) := by
  induction es with
  | nil => intro pre d post h; simp [pollEvents] at h
  | cons e es ih =>
    intro pre d post h hd
    simp only [pollEvents] at h
    have hone : ∀ (l : List Act) c, (∀ pre d post, l = pre ++ .recv d :: post → d ≠ [] → post.head? = some (.write d)) →
        ∀ pre d post, Act.recv c :: .write c :: l = pre ++ .recv d :: post → d ≠ [] → post.head? = some (.write d) := by
      intro l c hl pre d post h hd
      cases pre with
      | nil => simp at h; obtain ⟨rfl, rfl⟩ := h; rfl
      | cons a pre =>
        simp at h
        obtain ⟨-, h⟩ := h
        cases pre with
        | nil => simp at h
        | cons b pre => simp at h; exact hl pre d post h.2 hd
    split at h
    · split at h
      · simp at h
      · split at h
        · rename_i c hc
          cases pre with
          | nil => simp at h hc; obtain ⟨rfl, rfl⟩ := h; exact absurd hc hd
          | cons a pre => simp at h
        · split at h
          · exact hone [] _ (by intro pre d post h; simp at h) pre d post h hd
          · exact hone _ _ ih pre d post h hd
    · exact ih pre d post h hd

example : actsOf 1 (run {} [.connect 0 true false, .connect 1 true false,
    .check 1 false, .check 0 false, .iter 1 (some [{ readable := true, error := false, recv := some [7, 8] }]) false false,
    .iter 0 (some [{ readable := true, error := false, recv := some [1] }]) false false,
    .check 1 false, .iter 1 (some [{ readable := true, error := false, recv := some [9] }]) false false,
    .check 1 false, .iter 1 (some []) true false]).2 = [.recv [7, 8], .write [7, 8], .recv [9], .write [9], .closeChannel, .shutdownRead, .release] := by
  decide

/-! ### C41 -/

/-- C41 fails: all connections share one close event.  A hang-up reported for connection 0 makes connection 1 end although its socket
has data; connection 2, opened later, ends at its first look. -/
theorem c41_counterexample :
    let h := [Step.connect 0 true false, .connect 1 true false, .check 0 false, .iter 0 (some [{ readable := false, error := true }]) false false,
      .check 1 false, .iter 1 (some [{ readable := true, error := false, recv := some [7] }]) false false,
      .connect 2 true false, .check 2 false, .iter 2 (some [{ readable := true, error := false, recv := some [8] }]) false false]
    actsOf 1 (run {} h).2 = [.closeChannel, .shutdownRead, .release] ∧ actsOf 2 (run {} h).2 = [.closeChannel, .shutdownRead, .release] := by
  decide

/-- C41 fails for good: the close event is never cleared.  After a step with an error event (on an entry that is not readable, with the
channel open) every connection, old or new, goes through at most one more poll result, in any continuation; and those that are not waiting
in `poll` at that moment (connecting, between two polls, or opened later) never receive or write another byte. -/
theorem c41_counterexample_for_ever (before after : List Step) (i : Nat) (e : PollEv) (still : Bool)
    (hl : (run {} before).1.phase i = .polling) (he : e.error = true) (hr : e.readable = false) (j : Nat) :
    let s := (run {} (before ++ [.iter i (some [e]) false still])).1
    (∃ es rest, actsOf j (run s after).2 = (pollEvents es).1 ++ rest ∧ ∀ a ∈ rest, a.moves = false) ∧
    (s.phase j ≠ .polling → ∀ a ∈ actsOf j (run s after).2, a.moves = false) := by
  have hev : (run {} (before ++ [.iter i (some [e]) false still])).1.closeEvent = true := by
    have happ : ∀ (s : Sys) (a b : List Step), (run s (a ++ b)).1 = (run (run s a).1 b).1 := by
      intro s a
      induction a generalizing s with
      | nil => intro b; rfl
      | cons x a ih => intro b; exact ih _ b
    rw [happ]
    show (step _ _).1.closeEvent = true
    simp [step, hl, pollEvents, hr, he]
  exact ⟨run_event_once _ after j hev, run_event_acts _ after j hev⟩

/-- A connection that is waiting in `poll` when the event is set gets one more message through. -/
example : actsOf 1 (run {} [.connect 0 true false, .connect 1 true false, .check 0 false, .check 1 false,
    .iter 0 (some [{ readable := false, error := true }]) false false,
    .iter 1 (some [{ readable := true, error := false, recv := some [7] }]) false false, .check 1 false]).2 =
    [.recv [7], .write [7], .closeChannel, .shutdownRead, .release] := by decide

/-- C41 where it holds: in a schedule without error events every connection does exactly what it would do alone.  Missing for the full
property: schedules with error events, see the counterexamples. -/
theorem c41_isolated_partial (sts : List Step) (i : Nat) (h : ∀ st ∈ sts, st.hasError = false) :
    actsOf i (run {} sts).2 = actsOf i (run {} (sts.filter (fun st => decide (st.thread = i)))).2 ∧
    (run {} sts).1.phase i = (run {} (sts.filter (fun st => decide (st.thread = i)))).1.phase i :=
  run_local {} {} sts i h rfl rfl rfl

/-- C41 where it holds, in more schedules: as long as no error was seen by any thread (as `c41_event_iff` says exactly), every connection does
exactly what it would do alone. -/
theorem c41_apart_partial (sts : List Step) (i : Nat) (h : (run {} sts).1.closeEvent = false) :
    actsOf i (run {} sts).2 = actsOf i (run {} (sts.filter (fun st => decide (st.thread = i)))).2 ∧
    (run {} sts).1.phase i = (run {} (sts.filter (fun st => decide (st.thread = i)))).1.phase i :=
  run_apart {} {} sts i h rfl rfl

/-- C41: exactly when the event that ends all connections is set: some thread whose channel was open has seen an error or hang-up in its poll
result, in an entry that was not readable or whose bytes were passed on, and behind entries of this kind only. -/
theorem c41_event_iff (sts : List Step) : (run {} sts).1.closeEvent = true ↔
    ∃ a i es still b, sts = a ++ .iter i (some es) false still :: b ∧ (run {} a).1.phase i = .polling ∧ ErrorSeen es := by
  rw [run_event_iff]
  exact ⟨fun h => h.elim (fun h => nomatch h) id, .inr⟩

/-- A hang-up together with the end of the data does not set it, a hang-up together with data does. -/
example : (run {} [.connect 0 true false, .check 0 false, .iter 0 (some [{ readable := true, error := true, recv := some [] }]) false false]).1.closeEvent
      = false ∧
    (run {} [.connect 0 true false, .check 0 false, .iter 0 (some [{ readable := true, error := true, recv := some [1] }]) false false]).1.closeEvent
      = true := by decide

/-! ### C42 -/

/-- C42 fails: when the local service has closed its connection the socket stays readable and `recv` returns nothing; this only leaves
the inner loop.  As long as the channel is open, however many times the thread polls, it is still looping and has asked for nothing. -/
theorem c42_counterexample (polls : List (List PollEv)) (he : ∀ es ∈ polls, atEof es) :
    let rounds := polls.flatMap (fun es => [Step.check 0 false, .iter 0 (some es) false false])
    (run {} (.connect 0 true false :: rounds)).1.phase 0 = .looping ∧
    Act.closeChannel ∉ actsOf 0 (run {} (.connect 0 true false :: rounds)).2 := by
  have key : ∀ (s : Sys), s.phase 0 = .looping → s.closeEvent = false →
      (run s (polls.flatMap (fun es => [Step.check 0 false, .iter 0 (some es) false false]))).1.phase 0 = .looping ∧
      Act.closeChannel ∉ actsOf 0 (run s (polls.flatMap (fun es => [Step.check 0 false, .iter 0 (some es) false false]))).2 := by
    induction polls with
    | nil => intro s h _; exact ⟨h, by simp [run, actsOf]⟩
    | cons es polls ih =>
      intro s h1 h2
      obtain ⟨e, rest, rfl, hr, hv⟩ := he es (by simp)
      have hc : step s (.check 0 false) = ({ s with phase := setPhase s 0 .polling }, []) := by simp [step, h1, h2]
      have hst : (step { s with phase := setPhase s 0 .polling } (.iter 0 (some (e :: rest)) false false)).2 = [(0, .recv [])] ∧
          (step { s with phase := setPhase s 0 .polling } (.iter 0 (some (e :: rest)) false false)).1.phase 0 = .looping ∧
          (step { s with phase := setPhase s 0 .polling } (.iter 0 (some (e :: rest)) false false)).1.closeEvent = false := by
        simp [step, setPhase, pollEvents, hr, hv, h2]
      obtain ⟨h3, h4, h5⟩ := hst
      have := ih (fun x hx => he x (by simp [hx])) _ h4 h5
      simp only [List.flatMap_cons, List.cons_append, List.nil_append, run, hc, h3]
      refine ⟨this.1, ?_⟩
      rw [← List.singleton_append, actsOf_append]
      intro hm
      rcases List.mem_append.mp hm with h | h
      · simp [actsOf] at h
      · exact this.2 h
  have h0 : step {} (.connect 0 true false) = ({ phase := setPhase {} 0 .looping }, []) := by simp [step]
  have := key { phase := setPhase {} 0 .looping } rfl rfl
  simp only [run, h0]
  simpa using this

/-- Poll results of a closed local service as Linux reports them: `POLLIN` alone, and `POLLIN|POLLHUP`. -/
example : atEof [{ readable := true, error := false }] ∧ atEof [{ readable := true, error := true }] :=
  ⟨⟨_, _, rfl, rfl, rfl⟩, ⟨_, _, rfl, rfl, rfl⟩⟩

/-- C42 where it holds: the thread leaves its loop in the next iteration in which the channel is found closed or `poll` raises.  Missing
for the full property: end of file, see `c42_counterexample`. -/
theorem c42_ends_partial (s : Sys) (i : Nat) (poll : Option (List PollEv)) (chClosed : Bool) (hl : s.phase i = .polling)
    (h : poll = none ∨ chClosed = true) :
    (step s (.iter i poll chClosed false)).1.phase i = .ended ∧
    actsOf i (step s (.iter i poll chClosed false)).2 = [.closeChannel, .shutdownRead, .release] := by
  cases poll with
  | none => simp [step, hl, setPhase, finish, actsOf]
  | some es =>
    have : chClosed = true := by rcases h with h | h; simp at h; exact h
    simp [step, hl, this, setPhase, finish, actsOf]

/-- C42 where it holds: an error event on an entry that is not readable ends the thread at its next look, whatever the other threads do in
between.  Missing for the full property: error events on entries that are readable, see `c42_counterexample`. -/
theorem c42_error_ends_partial (s : Sys) (i : Nat) (e : PollEv) (between : List Step) (hl : s.phase i = .polling)
    (he : e.error = true) (hr : e.readable = false) (hb : ∀ st ∈ between, st.thread ≠ i) :
    let s' := (run (step s (.iter i (some [e]) false false)).1 between).1
    (step s' (.check i false)).1.phase i = .ended ∧
    actsOf i (step s' (.check i false)).2 = [.closeChannel, .shutdownRead, .release] := by
  have h1 : (step s (.iter i (some [e]) false false)).1.phase i = .looping := by simp [step, hl, pollEvents, hr, he, setPhase]
  have h2 : (step s (.iter i (some [e]) false false)).1.closeEvent = true := by simp [step, hl, pollEvents, hr, he]
  have h3 := run_event_set _ between h2
  have h4 : ∀ (t : Sys), t.phase i = .looping → (run t between).1.phase i = .looping := by
    clear h1 h2 h3
    induction between with
    | nil => intro t h; exact h
    | cons st sts ih =>
      intro t h
      exact ih (fun x hx => hb x (by simp [hx])) _ (by rw [step_phase_other _ _ _ (hb st (by simp))]; exact h)
  have h5 := h4 _ h1
  generalize (run (step s (.iter i (some [e]) false false)).1 between).1 = t at h3 h5
  simp [step, h5, h3, setPhase, finish, actsOf]

/-- C42: exactly when a thread ends: if it could not connect, if it finds the close event set, if `poll` raises, if the channel is found
closed after `poll`, or if the bytes received could not be written to the channel.  In particular not when the local service has closed its
connection. -/
theorem c42_ends_iff (s : Sys) (st : Step) (h : s.phase st.thread ≠ .ended) : (step s st).1.phase st.thread = .ended ↔
    (∃ i still, st = .connect i false still ∧ s.phase i = .connecting) ∨
    (∃ i still, st = .check i still ∧ s.phase i = .looping ∧ s.closeEvent = true) ∨
    (∃ i poll chClosed still, st = .iter i poll chClosed still ∧ s.phase i = .polling ∧
      (poll = none ∨ chClosed = true ∨ ∃ es, poll = some es ∧ WriteFailed es)) := by
  cases st with
  | connect i ok still =>
    simp only [Step.thread] at h
    simp only [step, Step.thread, Step.connect.injEq, reduceCtorEq, false_and, exists_false, or_false]
    split
    · rename_i hp
      split
      · rename_i ho
        simp [setPhase, ho]
      · rename_i ho
        have ho : ok = false := by simpa using ho
        simp [setPhase, ho, hp]
    · rename_i hp
      exact ⟨fun e => absurd e h, fun ⟨_, _, h1, h2⟩ => absurd (h1.1 ▸ h2) hp⟩
  | check i still =>
    simp only [Step.thread] at h
    simp only [step, Step.thread, Step.check.injEq, reduceCtorEq, false_and, exists_false, or_false, false_or]
    split
    · rename_i hp
      split
      · rename_i ho
        simp [setPhase, ho, hp]
      · rename_i ho
        simp [setPhase, ho]
    · rename_i hp
      exact ⟨fun e => absurd e h, fun ⟨_, _, h1, h2, _⟩ => absurd (h1.1 ▸ h2) hp⟩
  | iter i poll chClosed still =>
    simp only [Step.thread] at h
    simp only [Step.thread, reduceCtorEq, false_and, exists_false, false_or]
    have key : (∃ i' poll' chClosed' still', Step.iter i poll chClosed still = .iter i' poll' chClosed' still' ∧ s.phase i' = .polling ∧
        (poll' = none ∨ chClosed' = true ∨ ∃ es, poll' = some es ∧ WriteFailed es)) ↔
        s.phase i = .polling ∧ (poll = none ∨ chClosed = true ∨ ∃ es, poll = some es ∧ WriteFailed es) := by
      constructor
      · rintro ⟨i', poll', chClosed', still', e, h1, h2⟩
        injection e with e1 e2 e3 _
        subst e1 e2 e3
        exact ⟨h1, h2⟩
      · exact fun h => ⟨i, poll, chClosed, still, rfl, h⟩
    rw [key]
    simp only [step]
    split
    · rename_i hp
      simp only [hp, true_and]
      split
      · exact ⟨fun _ => .inl rfl, fun _ => by simp [setPhase]⟩
      · rename_i es
        split
        · rename_i hc
          exact ⟨fun _ => .inr (.inl hc), fun _ => by simp [setPhase]⟩
        · rename_i hc
          have e : (some es = none ∨ chClosed = true ∨ ∃ es', some es = some es' ∧ WriteFailed es') ↔ WriteFailed es := by
            constructor
            · rintro (h | h | ⟨_, h, h'⟩)
              · nomatch h
              · exact absurd h hc
              · injection h with h
                exact h ▸ h'
            · exact fun h => .inr (.inr ⟨es, rfl, h⟩)
          rw [e, ← (pollEvents_iff es).2]
          split
          · rename_i hw
            exact ⟨fun _ => hw, fun _ => by simp [setPhase]⟩
          · rename_i hw
            exact ⟨fun e => by simp [setPhase] at e, fun e => absurd e hw⟩
    · rename_i hp
      exact ⟨fun e => absurd e h, fun e => absurd e.1 hp⟩

/-- Both hypotheses are met by running threads. -/
example : (run {} [.connect 3 true false, .check 3 false]).1.phase 3 = .polling := by decide

/-! ### C43 -/

/-- C43 when the clock has moved on: in every schedule a thread that has ended, whether it connected or not, has requested the close of
its channel once, then shut down reading, then released its slot once, as its last three actions; a thread that has not ended has done
none of these.  Missing for the full property: `c43_counterexample`. -/
theorem c43_closes_partial (sts : List Step) (i : Nat) (h : ∀ st ∈ sts, st.thread = i → st.isStill = false) :
    ∃ acts, (∀ a ∈ acts, (∃ d, a = .recv d) ∨ ∃ d, a = .write d) ∧
      actsOf i (run {} sts).2 = acts ++ (if (run {} sts).1.phase i = .ended then [.closeChannel, .shutdownRead, .release] else []) := by
  rcases run_shape {} sts i (by simp) with ⟨acts, h1, h2, -, h4⟩ | ⟨acts, st, h0, h0', h1, h2, -, h4⟩
  · exact ⟨acts, h2, by simp [h1, h4]⟩
  · refine ⟨acts, h2, ?_⟩
    rw [h1, h st h0 h0', h4]
    simp [finish]

/-- C43: exactly when the close is requested: in every schedule, by a thread that ends in the step `st`, exactly if the clock has moved on in
that step. -/
theorem c43_iff (before after : List Step) (st : Step) (h : (run {} before).1.phase st.thread ≠ .ended)
    (he : (run {} (before ++ [st])).1.phase st.thread = .ended) :
    Act.closeChannel ∈ actsOf st.thread (run {} (before ++ st :: after)).2 ↔ st.isStill = false := by
  have e1 : (run {} (before ++ [st])).1 = (step (run {} before).1 st).1 := by rw [run_append]; rfl
  rw [e1] at he
  have no : ∀ l : List Act, (∀ a ∈ l, (∃ d, a = .recv d) ∨ ∃ d, a = .write d) → Act.closeChannel ∉ l := by
    intro l hl hm
    rcases hl _ hm with ⟨d, h⟩ | ⟨d, h⟩ <;> nomatch h
  have hb : Act.closeChannel ∉ actsOf st.thread (run {} before).2 := by
    rcases run_shape {} before st.thread (by simp) with ⟨acts, h1, h2, -, h4⟩ | ⟨acts, _, -, -, h1, h2, -, h4⟩
    · rw [h1]; exact no acts h2
    · exact absurd h4 h
  have hs : Act.closeChannel ∈ actsOf st.thread (step (run {} before).1 st).2 ↔ st.isStill = false := by
    rcases step_cases (run {} before).1 st with ⟨acts, h1, h2, h3, h4⟩ | ⟨acts, h1, h2, h3, h4, h5⟩
    · exact absurd (h4.1 he) h
    · rw [h1, List.mem_append]
      constructor
      · rintro (h | h)
        · exact absurd h (no acts h2)
        · cases hst : st.isStill with
          | false => rfl
          | true => rw [hst] at h; exact absurd h (by decide)
      · intro h
        rw [h]
        exact .inr (by decide)
  have e2 : (run {} (before ++ st :: after)).2 =
      (run {} before).2 ++ ((step (run {} before).1 st).2 ++ (run (step (run {} before).1 st).1 after).2) := by rw [run_append]; rfl
  rw [e2, actsOf_append, actsOf_append, (run_ended _ after _ he).2, List.append_nil, List.mem_append]
  exact ⟨fun h => h.elim (fun h => absurd h hb) hs.1, fun h => .inr (hs.2 h)⟩

/-- C43: the slot is released exactly once by every thread that ends, whatever the clock shows, and never before. -/
theorem c43_released (sts : List Step) (i : Nat) :
    (actsOf i (run {} sts).2).count .release = if (run {} sts).1.phase i = .ended then 1 else 0 := by
  have h0 : ∀ l : List Act, (∀ a ∈ l, (∃ d, a = .recv d) ∨ ∃ d, a = .write d) → l.count .release = 0 := by
    intro l hl
    rw [List.count_eq_zero]
    intro h
    rcases hl _ h with ⟨d, h⟩ | ⟨d, h⟩ <;> simp at h
  rcases run_shape {} sts i (by simp) with ⟨acts, h1, h2, -, h4⟩ | ⟨acts, st, -, -, h1, h2, -, h4⟩
  · rw [h1, h0 acts h2, if_neg h4]
  · rw [h1, List.count_append, h0 acts h2, if_pos h4]
    cases st.isStill <;> decide

/-- C43 fails: if the clock shows no time elapsed since the connection object was made (a clock that is coarse or was set back by that
much) the division in the `finally` clause raises and the channel is never closed. -/
theorem c43_counterexample : (run {} [.connect 0 false true]).1.phase 0 = .ended ∧ actsOf 0 (run {} [.connect 0 false true]).2 = [.release] := by
  decide

/-! ### C44 and C45 -/

/-- C44: looking up a name gives the service last added under that name, and nothing if none was. -/
theorem c44_by_name (l : List Svc) (name : Text) : getService (addAll {} l) name = lastNamed name l := addAll_services l name

/-- C44: looking up a port never raises, and finds something exactly if a service was added for that port. -/
theorem c44_by_port_total (l : List Svc) (port : Int) :
    ∃ r, getServiceOnPort (addAll {} l) port = .ok r ∧ (r.isSome ↔ ∃ s ∈ l, s.port = port) := by
  simp only [getServiceOnPort, addAll_ports, addAll_services]
  cases hp : lastOnPort port l with
  | none =>
    refine ⟨none, rfl, by simp, ?_⟩
    rintro ⟨s, hs, rfl⟩
    simp only [lastOnPort, List.getLast?_eq_none_iff] at hp
    have : s ∈ l.filter (fun x => decide (x.port = s.port)) := by simp [hs]
    rw [hp] at this
    simp at this
  | some s =>
    obtain ⟨h1, h2⟩ := lastOnPort_mem port l s hp
    obtain ⟨t, ht⟩ := lastNamed_some l s h1
    simp only [Option.map_some, ht]
    exact ⟨some t, rfl, by simp; exact ⟨s, h1, h2⟩⟩

/-- C44 by port fails: a name that is added again for another port leaves its old port in the table. -/
theorem c44_counterexample : ∃ (l : List Svc) (port : Int) (s : Svc),
    getServiceOnPort (addAll {} l) port = .ok (some s) ∧ s.port ≠ port :=
  ⟨[⟨"web".toList, 80, localhost⟩, ⟨"web".toList, 81, localhost⟩], 80, ⟨"web".toList, 81, localhost⟩, by decide, by decide⟩

/-- C44 by port, exactly: what is found is the service last added under the name that was last added for that port. -/
theorem c44_by_port_exact (l : List Svc) (port : Int) :
    getServiceOnPort (addAll {} l) port = .ok ((lastOnPort port l).bind (fun s => lastNamed s.name l)) := by
  simp only [getServiceOnPort, addAll_ports, addAll_services]
  cases hp : lastOnPort port l with
  | none => rfl
  | some s =>
    obtain ⟨h1, -⟩ := lastOnPort_mem port l s hp
    obtain ⟨t, ht⟩ := lastNamed_some l s h1
    simp only [Option.map_some, ht, Option.bind_some]

/-- C44 by port, exactly when the service last added for the port is found: its name was not used again for another. -/
theorem c44_by_port_iff (l : List Svc) (port : Int) :
    getServiceOnPort (addAll {} l) port = .ok (lastOnPort port l) ↔ ∀ s, lastOnPort port l = some s → lastNamed s.name l = some s := by
  rw [c44_by_port_exact]
  cases hp : lastOnPort port l with
  | none => exact ⟨fun _ s h => (nomatch h), fun _ => rfl⟩
  | some s =>
    simp only [Option.bind_some]
    constructor
    · intro h s' hs'
      injection hs' with hs'
      subst hs'
      injection h
    · intro h
      rw [h s rfl]

/-- C44 by port where it holds: if no name is used for two different services, the service found is the one last added for that port.
Missing for the full property: names that are used again, see `c44_counterexample`. -/
theorem c44_by_port_partial (l : List Svc) (port : Int) (h : ∀ s ∈ l, ∀ t ∈ l, s.name = t.name → s = t) :
    getServiceOnPort (addAll {} l) port = .ok (lastOnPort port l) := by
  simp only [getServiceOnPort, addAll_ports, addAll_services]
  cases hp : lastOnPort port l with
  | none => rfl
  | some s =>
    obtain ⟨h1, -⟩ := lastOnPort_mem port l s hp
    obtain ⟨t, ht⟩ := lastNamed_some l s h1
    obtain ⟨h3, h4⟩ := lastNamed_mem _ _ _ ht
    simp only [Option.map_some, ht]
    rw [h t h3 s h1 h4]

/-- The services of the agent (`PortForwardManager.init`) satisfy the hypothesis. -/
theorem c44_agent (port : Int) : getServiceOnPort (addAll {} initServices) port = .ok (lastOnPort port initServices) :=
  c44_by_port_partial initServices port (by decide +kernel)

example : getServiceOnPort (addAll {} initServices) 8000 = .ok (some ⟨"extalt".toList, 8000, localhost⟩) := by rw [c44_agent]; decide +kernel

/-- C45: opening a named service starts one connection to the host and port last registered under that name, on the requested
channel, if the limiter admits it; none otherwise; and none for an unknown name. -/
theorem c45_open_name (l : List Svc) (admitted : Bool) (service : Text) (a b c m2mPort : Int) :
    openService (addAll {} l) admitted service [a, b, c, m2mPort] =
      .ok (match lastNamed service l with
        | some s => if admitted then [⟨m2mPort, s.host, s.port⟩] else []
        | none => []) := by
  simp only [openService, openPort, c44_by_name]
  cases lastNamed service l <;> rfl

/-- C45: a route that does not have four elements is an error and starts nothing. -/
theorem c45_bad_route (m : Mgr) (admitted : Bool) (service : Text) (route : List Int) (h : route.length ≠ 4) :
    openService m admitted service route = .error .valueError := by
  simp only [openService]
  split
  · simp at h
  · rfl

/-- C45: opening by port, for tables in which names are not used twice: one connection to the host of the service last added for that
port (80 if 0 is given), and to that port. -/
theorem c45_open_port (l : List Svc) (h : ∀ s ∈ l, ∀ t ∈ l, s.name = t.name → s = t) (admitted : Bool) (m2mPort : Int)
    (service : Option Text) (port : Int) (started : Started) (r : List Started)
    (ho : openPort (addAll {} l) admitted m2mPort service (some port) = .ok r) (hm : started ∈ r) :
    r = [started] ∧ admitted = true ∧ started.m2mPort = m2mPort ∧ started.port = (if port = 0 then 80 else port) ∧
      ∃ s ∈ l, s.port = started.port ∧ s.host = started.host := by
  simp only [openPort, c44_by_port_partial l _ h] at ho
  cases hp : lastOnPort (if port = 0 then 80 else port) l with
  | none => simp only [hp] at ho; simp at ho; subst ho; simp at hm
  | some s =>
    obtain ⟨h1, h2⟩ := lastOnPort_mem _ l s hp
    simp only [hp] at ho
    cases admitted with
    | false => simp at ho; subst ho; simp at hm
    | true =>
      simp at ho
      subst ho
      simp at hm
      subst hm
      exact ⟨rfl, rfl, rfl, h2, s, h1, rfl, rfl⟩

/-- C45: giving neither a name nor a port is an error. -/
theorem c45_neither (m : Mgr) (admitted : Bool) (m2mPort : Int) : openPort m admitted m2mPort none none = .error .valueError := rfl

/-- C45: redirecting a port connects to that port of 127.0.0.1 on the requested channel, and to nothing else. -/
theorem c45_redirect (admitted : Bool) (m2mPort devicePort : Int) (s : Started) (h : s ∈ redirectPort admitted m2mPort devicePort) :
    redirectPort admitted m2mPort devicePort = [s] ∧ s.host = "127.0.0.1".toList ∧ s.port = devicePort ∧ s.m2mPort = m2mPort := by
  simp only [redirectPort] at h ⊢
  cases admitted with
  | false => simp at h
  | true => simp at h ⊢; subst h; exact ⟨rfl, rfl, rfl, rfl⟩

/-- The web service of the agent. -/
example : openService (addAll {} initServices) true "web".toList [1, 2, 3, 4] = .ok [⟨4, "127.0.0.1".toList, 80⟩] := by
  decide +kernel

end Verif.PortForward
