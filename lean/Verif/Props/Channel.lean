import Verif.Proofs.Channel
/-!
C22-C25: the class `Channel` of `dataplicity/m2m/wsclient.py`.
-/
namespace Verif.Props
open Verif Channel

/-! ### C22 -/

/-- C22: for every history of operations on a new channel, the bytes returned by reads followed by what is still buffered are exactly
the bytes that arrived while the channel was open and had no data callback. -/
theorem c22_lossless_stream (ops : List Op) :
    returnedBytes (run {} ops).2 ++ (run {} ops).1.deque.flatten = readable false false ops := by
  have := lossless {} ops
  simpa using this

/-- C22 as stated: without a callback and before the close, nothing is lost, duplicated or reordered. -/
theorem c22_no_callback (ops : List Op) (h1 : .onClose ∉ ops) (h2 : ∀ a b d, .setCallbacks a b d ∉ ops) :
    returnedBytes (run {} ops).2 ++ (run {} ops).1.deque.flatten = (dataOps ops).flatten := by
  rw [c22_lossless_stream]
  induction ops with
  | nil => rfl
  | cons op ops ih =>
    have ih := ih (fun h => h1 (by simp [h])) (fun a b d h => h2 a b d (by simp [h]))
    cases op with
    | onClose => simp at h1
    | setCallbacks a b d => exact absurd (h2 a b d) (by simp)
    | _ => simp [readable, dataOps, ih]

/-- Two messages, reads across the boundary, also with a negative count. -/
example : run {} [.data [1, 2, 3], .data [4, 5], .read 4, .data [6], .read (-1), .read 9] =
    ({}, [.returned [1, 2, 3, 4], .returned [], .returned [5, 6]]) := by decide +kernel

/-! ### C23 -/

/-- C23: `read(n)` returns exactly the first `n` unread bytes (all of them if there are fewer) and leaves the others. -/
theorem c23_read_exact (ops : List Op) (n : Nat) :
    let c := (run {} ops).1
    ∃ c', step c (.read n) = (c', [.returned (c.deque.flatten.take n)]) ∧ c'.deque.flatten = c.deque.flatten.drop n :=
  ⟨(readNow (run {} ops).1 n).1, by simp only [step, readNow, readLoop_take], by simp only [readNow, readLoop_drop]⟩

/-- C23: the number of bytes returned is `min(n, size)`; `size` is the number of bytes that arrived for reading minus the number
already returned. -/
theorem c23_size (ops : List Op) (n : Nat) :
    let c := (run {} ops).1
    (∃ c' bs, step c (.read n) = (c', [.returned bs]) ∧ bs.length = min n (size c) ∧ size c' = size c - min n (size c)) ∧
    size c + (returnedBytes (run {} ops).2).length = (readable false false ops).length := by
  intro c
  have hsz : ∀ c : Ch, size c = c.deque.flatten.length := fun c => by simp [size, List.length_flatten]
  constructor
  · obtain ⟨c', h1, h2⟩ := c23_read_exact ops n
    refine ⟨c', _, h1, ?_, ?_⟩
    · rw [hsz]; exact List.length_take
    · rw [hsz, hsz, h2, List.length_drop]
      show c.deque.flatten.length - n = c.deque.flatten.length - min n c.deque.flatten.length
      omega
  · have := congrArg List.length (c22_lossless_stream ops)
    rw [List.length_append] at this
    rw [hsz, ← this]
    exact Nat.add_comm _ _

/-- C23: the channel is truthy exactly while a message is buffered; in particular whenever there are unread bytes. -/
theorem c23_truthy (ops : List Op) :
    let c := (run {} ops).1
    (truthy c = true ↔ c.deque ≠ []) ∧ (0 < size c → truthy c = true) := by
  intro c
  have h : c.event = !c.deque.isEmpty := event_inv {} ops rfl
  have h1 : truthy c = true ↔ c.deque ≠ [] := by
    simp [truthy, h]
  refine ⟨h1, fun hs => h1.2 ?_⟩
  intro he
  simp [size, he] at hs

/-- An empty message makes the channel truthy although its size is 0. -/
example : truthy (run {} [.data []]).1 = true ∧ size (run {} [.data []]).1 = 0 := by decide +kernel

/-! ### C24 -/

/-- C24: the close callback is called at most once in any history. -/
theorem c24_close_once (ops : List Op) : closeCalls (run {} ops).2 ≤ 1 := close_once {} ops

/-- C24: after the close, no callback of any kind is called. -/
theorem c24_no_callback_after_close (before after : List Op) :
    ∀ o ∈ (run (run {} (before ++ [.onClose])).1 after).2, isCall o = false := by
  apply closed_no_calls
  simp only [run_append, run, step]
  split <;> simp_all

/-- C24 fails for what is sent: a thread that found the channel open still sends after the close. -/
theorem c24_write_race_counterexample :
    (run (run {} [.beginWrite [1], .onClose]).1 [.finishWrite 0]).2 = [.sendData [1]] := by decide +kernel
/-- Two threads that found it open send in any order. -/
example : (run (run {} [.beginWrite [1], .beginWrite [2], .onClose]).1 [.finishWrite 1, .finishWrite 0]).2 = [.sendData [2], .sendData [1]] := by
  decide +kernel
/-- The same for `close()`. -/
theorem c24_close_race_counterexample :
    (run (run {} [.beginClose, .onClose]).1 [.finishClose]).2 = [.requestClose] := by decide +kernel

/-- C24, the part that holds: after the close at most the calls that were already under way send something: at most as many as
calls that had begun. -/
theorem c24_in_flight_only_partial (before after : List Op) :
    (run (run {} (before ++ [.onClose])).1 after).2.countP isSend ≤
      (run {} before).1.pendingWrites.length + (run {} before).1.pendingControl.length + (run {} before).1.pendingCloses := by
  have hc : (run {} (before ++ [.onClose])).1.closed = true := by
    simp only [run_append, run, step]
    split <;> simp_all
  have := closed_sends _ after hc
  refine Nat.le_trans this (Nat.le_of_eq ?_)
  simp only [run_append, run, step]
  split <;> rfl

/-- A call that is not interleaved with others. -/
inductive Block where
  | op (o : Op)
  | write (d : Bytes)
  | control (d : Bytes)
  | close

/-- Its steps. -/
def Block.steps : Block → List Op
  | .op o => [o]
  | .write d => [.beginWrite d, .finishWrite 0]
  | .control d => [.beginControl d, .finishControl 0]
  | .close => [.beginClose, .finishClose]

/-- Not the beginning of a call left open. -/
def Block.whole : Block → Bool
  | .op (.beginWrite _) | .op (.beginControl _) | .op .beginClose => false
  | _ => true

/-- C24, the part that holds: if no call of `write`, `send_control` or `close` is interrupted by the close, then afterwards nothing at
all is sent: only reads give something. -/
theorem c24_silent_partial (before after : List Block) (h : ∀ b ∈ before, b.whole = true) :
    let c := (run {} (before.flatMap Block.steps ++ [.onClose])).1
    ∀ o ∈ (run c (after.flatMap Block.steps)).2, ∃ bs, o = .returned bs := by
  have hp : ∀ (bs : List Block) (c : Ch), (∀ b ∈ bs, b.whole = true) → c.pendingWrites = [] → c.pendingControl = [] → c.pendingCloses = 0 →
      (run c (bs.flatMap Block.steps)).1.pendingWrites = [] ∧ (run c (bs.flatMap Block.steps)).1.pendingControl = [] ∧
      (run c (bs.flatMap Block.steps)).1.pendingCloses = 0 := by
    intro bs
    induction bs with
    | nil => intro c _ h1 h2 h3; exact ⟨h1, h2, h3⟩
    | cons b bs ih =>
      intro c hb h1 h2 h3
      simp only [List.flatMap_cons, run_append]
      have hw := hb b (by simp)
      have key : (run c b.steps).1.pendingWrites = [] ∧ (run c b.steps).1.pendingControl = [] ∧ (run c b.steps).1.pendingCloses = 0 := by
        cases b with
        | write d => cases hc : c.closed <;> simp [Block.steps, run, step, hc, h1, h2, h3]
        | control d => cases hc : c.closed <;> simp [Block.steps, run, step, hc, h1, h2, h3]
        | close => cases hc : c.closed <;> simp [Block.steps, run, step, hc, h1, h2, h3]
        | op o =>
          cases o with
          | data d => cases hc : c.closed <;> cases hd : c.dataCb <;> simp [Block.steps, run, step, hc, hd, h1, h2, h3]
          | control d => cases hc : c.closed <;> cases hd : c.ctrlCb <;> simp [Block.steps, run, step, hc, hd, h1, h2, h3]
          | onClose => cases hc : c.closed <;> simp [Block.steps, run, step, hc, h1, h2, h3]
          | readBlocking n s => cases s <;> simp [Block.steps, run, step, readNow, h1, h2, h3]
          | beginWrite d => simp [Block.whole] at hw
          | beginControl d => simp [Block.whole] at hw
          | beginClose => simp [Block.whole] at hw
          | _ => simp [Block.steps, run, step, readNow, h1, h2, h3]
      exact ih _ (fun b' hb' => hb b' (by simp [hb'])) key.1 key.2.1 key.2.2
  intro c o ho
  obtain ⟨p1, p2, p3⟩ := hp before {} h rfl rfl rfl
  have h1 := c24_no_callback_after_close (before.flatMap Block.steps) (after.flatMap Block.steps) o ho
  have h2 := c24_in_flight_only_partial (before.flatMap Block.steps) (after.flatMap Block.steps)
  rw [p1, p2, p3] at h2
  have h3 : isSend o = false := by
    have := List.countP_eq_zero.1 (Nat.le_zero.1 h2) o ho
    simpa using this
  cases o with
  | returned bs => exact ⟨bs, rfl⟩
  | _ => first | simp [isCall] at h1; done | simp [isSend] at h3; done

/-- A channel that is used, closed, and used on. -/
example : (run (run {} ([Block.op (.setCallbacks (some 1) (some 2) none), .write [7]].flatMap Block.steps ++ [.onClose])).1
    ([Block.op (.data [1]), .write [8], .close, .op (.read 3)].flatMap Block.steps)).2 = [.returned []] := by decide +kernel

/-! ### C25 -/

/-- C25 fails: data that arrives before the registration stays in the buffer, later data is handed over instead. -/
theorem c25_counterexample :
    dataCalls 1 (run {} [.data [1], .setCallbacks (some 1) none none, .data [2]]).2 = [[2]] ∧
    (run {} [.data [1], .setCallbacks (some 1) none none, .data [2]]).1.deque = [[1]] := by decide +kernel

/-- C25, the part that holds: whatever happened before, after the registration everything that arrives until the close is handed to
the callback, once and in order. -/
theorem c25_later_data_partial (before after : List Op) (f : Nat) (cl ct : Option Nat) (hopen : .onClose ∉ before)
    (h1 : .onClose ∉ after) (h2 : ∀ a b d, .setCallbacks a b d ∉ after) :
    dataCalls f (run (run {} (before ++ [.setCallbacks (some f) cl ct])).1 after).2 = dataOps after := by
  apply delivered _ _ _ _ _ h1 h2
  · have : ∀ (ops : List Op) (c : Ch), .onClose ∉ ops → c.closed = false → (run c ops).1.closed = false := by
      intro ops
      induction ops with
      | nil => intro c _ h; exact h
      | cons op ops ih =>
        intro c hn hc
        apply ih _ (fun h => hn (by simp [h]))
        cases op <;> simp only [step, readNow] <;> (repeat' split) <;> first | exact hc | simp_all
    rw [run_append]
    exact this before {} hopen rfl
  · simp [run_append, run, step]

/-- C25 exactly: the callback receives all that arrives on the channel just if nothing arrives before it is set. -/
theorem c25_iff (before after : List Op) (f : Nat) (cl ct : Option Nat) (h1 : .onClose ∉ before ++ after)
    (h2 : ∀ a b d, .setCallbacks a b d ∉ before ++ after) :
    dataCalls f (run {} (before ++ .setCallbacks (some f) cl ct :: after)).2 = dataOps (before ++ .setCallbacks (some f) cl ct :: after) ↔
    ∀ d, .data d ∉ before := by
  have hb : ∀ (ops : List Op) (c : Ch), (∀ a b d, .setCallbacks a b d ∉ ops) → c.dataCb = none → dataCalls f (run c ops).2 = [] := by
    intro ops
    induction ops with
    | nil => intro c _ _; rfl
    | cons op ops ih =>
      intro c hn hc
      have h : (step c op).1.dataCb = none ∧ dataCalls f (step c op).2 = [] := by
        cases op with
        | setCallbacks a b d => exact absurd (by simp) (hn a b d)
        | _ => simp only [step, readNow] <;> (repeat' split) <;> simp_all [dataCalls]
      show dataCalls f ((step c op).2 ++ (run (step c op).1 ops).2) = []
      have := ih (step c op).1 (fun a b d hm => hn a b d (by simp [hm])) h.1
      unfold dataCalls at this h ⊢
      rw [List.filterMap_append, this, h.2, List.append_nil]
  have hl := c25_later_data_partial before after f cl ct (fun h => h1 (by simp [h])) (fun h => h1 (by simp [h]))
    (fun a b d h => h2 a b d (by simp [h]))
  have e : dataCalls f (run {} (before ++ .setCallbacks (some f) cl ct :: after)).2 = dataOps after := by
    have e1 : before ++ .setCallbacks (some f) cl ct :: after = (before ++ [.setCallbacks (some f) cl ct]) ++ after := by simp
    rw [e1, run_append]
    have e2 := hb before {} (fun a b d h => h2 a b d (by simp [h])) rfl
    have e3 : dataCalls f (run {} (before ++ [.setCallbacks (some f) cl ct])).2 = [] := by
      rw [run_append]
      unfold dataCalls at e2 ⊢
      rw [List.filterMap_append, e2]
      simp [run, step]
    unfold dataCalls at hl e3 ⊢
    rw [List.filterMap_append, e3, hl, List.nil_append]
  rw [e]
  have e' : dataOps (before ++ .setCallbacks (some f) cl ct :: after) = dataOps before ++ dataOps after := by
    simp [dataOps]
  rw [e']
  constructor
  · intro h d hd
    have : dataOps before = [] := by
      have := congrArg List.length h
      rw [List.length_append] at this
      exact List.eq_nil_of_length_eq_zero (by omega)
    have hm : d ∈ dataOps before := List.mem_filterMap.2 ⟨_, hd, rfl⟩
    rw [this] at hm
    exact nomatch hm
  · intro h
    have : dataOps before = [] := by
      rw [List.eq_nil_iff_forall_not_mem]
      intro d hd
      obtain ⟨op, hm, ho⟩ := List.mem_filterMap.1 hd
      cases op with
      | data x => exact h x hm
      | _ => exact nomatch ho
    rw [this, List.nil_append]

/-- Both sides fail, and hold. -/
example : dataCalls 1 (run {} [.control [1], .setCallbacks (some 1) none none, .data [2]]).2 = [[2]] := by decide +kernel

/-- C25, the part that holds: the earlier data is not lost, it can still be read. -/
theorem c25_earlier_data_readable_partial (before : List Op) (f : Nat) (cl ct : Option Nat) (n : Nat)
    (h1 : .onClose ∉ before) (h2 : ∀ a b d, .setCallbacks a b d ∉ before) (h3 : ∀ k, .read k ∉ before)
    (h4 : ∀ k s, .readBlocking k s ∉ before) (hn : (dataOps before).flatten.length ≤ n) :
    (step (run {} (before ++ [.setCallbacks (some f) cl ct])).1 (.read n)).2 = [.returned (dataOps before).flatten] := by
  have hret : returnedBytes (run {} before).2 = [] := by
    have : ∀ (ops : List Op) (c : Ch), (∀ k, .read k ∉ ops) → (∀ k s, .readBlocking k s ∉ ops) → returnedBytes (run c ops).2 = [] := by
      intro ops
      induction ops with
      | nil => intros; rfl
      | cons op ops ih =>
        intro c g1 g2
        have hi := ih (step c op).1 (fun k h => g1 k (by simp [h])) (fun k s h => g2 k s (by simp [h]))
        simp only [run, returnedBytes, List.flatMap_append] at hi ⊢
        rw [hi, List.append_nil]
        cases op with
        | read k => exact absurd (g1 k) (by simp)
        | readBlocking k s => exact absurd (g2 k s) (by simp)
        | _ => simp only [step] <;> (repeat' split) <;> rfl
    exact this before {} h3 h4
  have h := c22_no_callback before h1 h2
  rw [hret, List.nil_append] at h
  rw [run_append]
  simp only [run, step, readNow, readLoop_take, h]
  rw [List.take_of_length_le hn]

example : dataCalls 1 (run (run {} ([.data [1]] ++ [.setCallbacks (some 1) none none])).1 [.data [2], .read 1, .data [3]]).2 = [[2], [3]] := by
  decide +kernel

end Verif.Props
