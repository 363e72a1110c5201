import Verif.Spec.Channel
/-! Lemmas about the channel model. -/
namespace Verif.Channel
open Verif

theorem slice_append (b : Bytes) (k : Int) : sliceTo b k ++ sliceFrom b k = b := by
  unfold sliceTo sliceFrom; split <;> simp

/-- If some of the head is left, what remains to be read is 0. -/
theorem readLoop_left (head : Bytes) (remaining : Int)
    (h : sliceFrom head (min remaining (head.length : Int)) ≠ []) : remaining - min remaining (head.length : Int) = 0 := by
  by_cases hle : remaining ≤ head.length
  · omega
  · exfalso
    apply h
    have : min remaining (head.length : Int) = head.length := by omega
    rw [this]
    simp [sliceFrom]

theorem readLoop_flatten (q : List Bytes) (n : Int) : (readLoop q n).1.flatten ++ (readLoop q n).2.flatten = q.flatten := by
  induction q generalizing n with
  | nil => simp [readLoop]
  | cons a q ih =>
    simp only [readLoop]
    split
    · simp
    · split
      · rename_i h
        simp only [List.isEmpty_iff] at h
        have ha := slice_append a (min n a.length)
        rw [h, List.append_nil] at ha
        simp only [List.flatten_cons, List.append_assoc, ih, ha]
      · simp only [List.flatten_cons, List.flatten_nil, List.append_nil]
        rw [← List.append_assoc, slice_append]

theorem readLoop_take (q : List Bytes) (n : Nat) : (readLoop q n).1.flatten = q.flatten.take n := by
  induction q generalizing n with
  | nil => simp [readLoop]
  | cons a q ih =>
    simp only [readLoop]
    split
    · have : n = 0 := by omega
      subst this; simp
    · split
      · rename_i h
        simp only [List.isEmpty_iff] at h
        have ha := slice_append a (min (n : Int) a.length)
        rw [h, List.append_nil] at ha
        have hle : a.length ≤ n := by
          have h2 : (sliceTo a (min (n : Int) a.length)).length = min n a.length := by
            rw [sliceTo, if_pos (by omega)]; simp; omega
          rw [ha] at h2; omega
        have hn : (n : Int) - min (n : Int) a.length = ((n - a.length : Nat) : Int) := by omega
        rw [hn]
        simp only [List.flatten_cons, ih, ha]
        rw [List.take_append]
        congr 1
        exact (List.take_of_length_le hle).symm
      · rename_i h
        simp only [List.isEmpty_iff] at h
        have := readLoop_left a n h
        have hle : (n : Int) ≤ a.length := by omega
        rw [show min (n : Int) a.length = n by omega]
        simp only [List.flatten_cons, List.flatten_nil, List.append_nil]
        rw [List.take_append, show n - a.length = 0 by omega]
        simp [sliceTo]

theorem readLoop_drop (q : List Bytes) (n : Nat) : (readLoop q n).2.flatten = q.flatten.drop n := by
  have h := readLoop_flatten q n
  rw [readLoop_take] at h
  exact List.append_cancel_left (h.trans (List.take_append_drop n q.flatten).symm)

theorem run_append (c : Ch) (a b : List Op) :
    run c (a ++ b) = ((run (run c a).1 b).1, (run c a).2 ++ (run (run c a).1 b).2) := by
  induction a generalizing c with
  | nil => simp [run]
  | cons op a ih => simp [run, ih, List.append_assoc]

theorem step_lossless (c : Ch) (op : Op) :
    returnedBytes (step c op).2 ++ (step c op).1.deque.flatten = c.deque.flatten ++ readable c.closed c.dataCb.isSome [op] := by
  cases op with
  | data d => cases hc : c.closed <;> cases hd : c.dataCb <;> simp [step, readable, returnedBytes, hc, hd]
  | read n => simp [step, readNow, readable, returnedBytes, readLoop_flatten]
  | readBlocking n b => cases b <;> simp [step, readNow, readable, returnedBytes, readLoop_flatten]
  | onClose => cases hc : c.closed <;> cases hd : c.closeCb <;> simp [step, readable, returnedBytes, hc, hd]
  | control d => cases hc : c.closed <;> cases hd : c.ctrlCb <;> simp [step, readable, returnedBytes, hc, hd]
  | setCallbacks a b d => simp [step, readable, returnedBytes]
  | beginWrite d => cases hc : c.closed <;> simp [step, readable, returnedBytes, hc]
  | beginControl d => cases hc : c.closed <;> simp [step, readable, returnedBytes, hc]
  | beginClose => cases hc : c.closed <;> simp [step, readable, returnedBytes, hc]
  | finishWrite i => cases hp : c.pendingWrites[i]? <;> simp [step, readable, returnedBytes, hp]
  | finishControl i => cases hp : c.pendingControl[i]? <;> simp [step, readable, returnedBytes, hp]
  | finishClose => cases hp : c.pendingCloses <;> simp [step, readable, returnedBytes, hp]

theorem readable_step (c : Ch) (op : Op) (ops : List Op) :
    readable c.closed c.dataCb.isSome (op :: ops) =
      readable c.closed c.dataCb.isSome [op] ++ readable (step c op).1.closed (step c op).1.dataCb.isSome ops := by
  cases op with
  | data d => cases hc : c.closed <;> cases hd : c.dataCb <;> simp [step, readable, hc, hd]
  | read n => simp [step, readNow, readable]
  | readBlocking n b => cases b <;> simp [step, readNow, readable]
  | onClose => cases hc : c.closed <;> simp [step, readable, hc]
  | control d => cases hc : c.closed <;> cases hd : c.ctrlCb <;> simp [step, readable, hc, hd]
  | setCallbacks a b d => simp [step, readable]
  | beginWrite d => cases hc : c.closed <;> simp [step, readable, hc]
  | beginControl d => cases hc : c.closed <;> simp [step, readable, hc]
  | beginClose => cases hc : c.closed <;> simp [step, readable, hc]
  | finishWrite i => cases hp : c.pendingWrites[i]? <;> simp [step, readable, hp]
  | finishControl i => cases hp : c.pendingControl[i]? <;> simp [step, readable, hp]
  | finishClose => cases hp : c.pendingCloses <;> simp [step, readable, hp]

/-- Conservation of bytes from any state. -/
theorem lossless (c : Ch) (ops : List Op) :
    returnedBytes (run c ops).2 ++ (run c ops).1.deque.flatten = c.deque.flatten ++ readable c.closed c.dataCb.isSome ops := by
  induction ops generalizing c with
  | nil => simp [run, readable, returnedBytes]
  | cons op ops ih =>
    rw [readable_step, ← List.append_assoc, ← step_lossless, List.append_assoc, ← ih]
    simp only [run, returnedBytes, List.flatMap_append, List.append_assoc]

theorem readLoop_nil (n : Int) : readLoop [] n = ([], []) := rfl

theorem readNow_event (c : Ch) (n : Int) (h : c.event = !c.deque.isEmpty) :
    (readNow c n).1.event = !(readNow c n).1.deque.isEmpty := by
  simp only [readNow]
  cases hq : c.deque with
  | nil => simp [readLoop]
  | cons a q => rw [hq] at h; cases hr : (readLoop (a :: q) n).2 <;> simp [h]

/-- Invariant: the event is set exactly while something is queued. -/
theorem step_event (c : Ch) (op : Op) (h : c.event = !c.deque.isEmpty) : (step c op).1.event = !(step c op).1.deque.isEmpty := by
  cases op with
  | data d => cases hc : c.closed <;> cases hd : c.dataCb <;> simp [step, hc, hd, h]
  | read n => exact readNow_event c n h
  | readBlocking n b => cases b
                        · exact h
                        · exact readNow_event c n h
  | onClose => cases hc : c.closed <;> simp [step, hc, h]
  | control d => cases hc : c.closed <;> cases hd : c.ctrlCb <;> simp [step, hc, hd, h]
  | setCallbacks a b d => exact h
  | beginWrite d => cases hc : c.closed <;> simp [step, hc, h]
  | beginControl d => cases hc : c.closed <;> simp [step, hc, h]
  | beginClose => cases hc : c.closed <;> simp [step, hc, h]
  | finishWrite i => cases hp : c.pendingWrites[i]? <;> simp [step, hp, h]
  | finishControl i => cases hp : c.pendingControl[i]? <;> simp [step, hp, h]
  | finishClose => cases hp : c.pendingCloses <;> simp [step, hp, h]

theorem event_inv (c : Ch) (ops : List Op) (h : c.event = !c.deque.isEmpty) :
    (run c ops).1.event = !(run c ops).1.deque.isEmpty := by
  induction ops generalizing c with
  | nil => exact h
  | cons op ops ih => exact ih _ (step_event c op h)

/-- What one operation does to a closed channel. -/
theorem step_closed (c : Ch) (op : Op) (hc : c.closed = true) :
    (step c op).1.closed = true ∧ (∀ o ∈ (step c op).2, isCall o = false) ∧
    (step c op).2.countP isSend + ((step c op).1.pendingWrites.length + (step c op).1.pendingControl.length + (step c op).1.pendingCloses)
      ≤ c.pendingWrites.length + c.pendingControl.length + c.pendingCloses := by
  cases op with
  | data d => simp [step, hc]
  | read n => simp [step, readNow, hc, isCall, isSend]
  | readBlocking n b => cases b <;> simp [step, readNow, hc, isCall, isSend]
  | onClose => simp [step, hc]
  | control d => simp [step, hc]
  | setCallbacks a b d => simp [step, hc]
  | beginWrite d => simp [step, hc]
  | beginControl d => simp [step, hc]
  | beginClose => simp [step, hc]
  | finishWrite i =>
    cases hp : c.pendingWrites[i]? with
    | none => simp [step, hp, hc]
    | some d =>
      have hi := (List.getElem?_eq_some_iff.1 hp).1
      have := List.length_eraseIdx_of_lt hi
      simp [step, hp, hc, isCall, isSend]
      omega
  | finishControl i =>
    cases hp : c.pendingControl[i]? with
    | none => simp [step, hp, hc]
    | some d =>
      have hi := (List.getElem?_eq_some_iff.1 hp).1
      have := List.length_eraseIdx_of_lt hi
      simp [step, hp, hc, isCall, isSend]
      omega
  | finishClose => cases hp : c.pendingCloses <;> simp [step, hp, hc, isCall, isSend] <;> omega

theorem closed_run (c : Ch) (ops : List Op) (h : c.closed = true) : (run c ops).1.closed = true := by
  induction ops generalizing c with
  | nil => exact h
  | cons op ops ih => exact ih _ (step_closed c op h).1

/-- After the close: no callbacks. -/
theorem closed_no_calls (c : Ch) (ops : List Op) (h : c.closed = true) : ∀ o ∈ (run c ops).2, isCall o = false := by
  induction ops generalizing c with
  | nil => simp [run]
  | cons op ops ih =>
    intro o ho
    simp only [run, List.mem_append] at ho
    rcases ho with ho | ho
    · exact (step_closed c op h).2.1 o ho
    · exact ih _ (step_closed c op h).1 o ho

/-- After the close: only calls already under way can still send. -/
theorem closed_sends (c : Ch) (ops : List Op) (h : c.closed = true) :
    (run c ops).2.countP isSend ≤ c.pendingWrites.length + c.pendingControl.length + c.pendingCloses := by
  induction ops generalizing c with
  | nil => simp [run]
  | cons op ops ih =>
    simp only [run, List.countP_append]
    have h1 := (step_closed c op h).2.2
    have h2 := ih _ (step_closed c op h).1
    omega

theorem step_closeCalls (c : Ch) (op : Op) :
    closeCalls (step c op).2 = 0 ∨ closeCalls (step c op).2 = 1 ∧ (step c op).1.closed = true := by
  cases op with
  | data d => cases hc : c.closed <;> cases hd : c.dataCb <;> simp [step, hc, hd, closeCalls]
  | read n => simp [step, readNow, closeCalls]
  | readBlocking n b => cases b <;> simp [step, readNow, closeCalls]
  | onClose => cases hc : c.closed <;> cases hd : c.closeCb <;> simp [step, hc, hd, closeCalls]
  | control d => cases hc : c.closed <;> cases hd : c.ctrlCb <;> simp [step, hc, hd, closeCalls]
  | setCallbacks a b d => simp [step, closeCalls]
  | beginWrite d => cases hc : c.closed <;> simp [step, hc, closeCalls]
  | beginControl d => cases hc : c.closed <;> simp [step, hc, closeCalls]
  | beginClose => cases hc : c.closed <;> simp [step, hc, closeCalls]
  | finishWrite i => cases hp : c.pendingWrites[i]? <;> simp [step, hp, closeCalls]
  | finishControl i => cases hp : c.pendingControl[i]? <;> simp [step, hp, closeCalls]
  | finishClose => cases hp : c.pendingCloses <;> simp [step, hp, closeCalls]

theorem closed_closeCalls (c : Ch) (ops : List Op) (h : c.closed = true) : closeCalls (run c ops).2 = 0 := by
  rw [closeCalls, List.countP_eq_zero]
  intro o ho
  have := closed_no_calls c ops h o ho
  cases o <;> simp_all [isCall]

theorem close_once (c : Ch) (ops : List Op) : closeCalls (run c ops).2 ≤ 1 := by
  induction ops generalizing c with
  | nil => simp [run, closeCalls]
  | cons op ops ih =>
    have hsum : closeCalls (run c (op :: ops)).2 = closeCalls (step c op).2 + closeCalls (run (step c op).1 ops).2 := by
      simp only [run, closeCalls, List.countP_append]
    rw [hsum]
    have i := ih (step c op).1
    rcases step_closeCalls c op with h | ⟨h, hc⟩
    · omega
    · rw [closed_closeCalls _ _ hc]; omega

theorem step_open (c : Ch) (f : Nat) (op : Op) (hc : c.closed = false) (hf : c.dataCb = some f)
    (h1 : op ≠ .onClose) (h2 : ∀ a b d, op ≠ .setCallbacks a b d) :
    (step c op).1.closed = false ∧ (step c op).1.dataCb = some f ∧ dataCalls f (step c op).2 = dataOps [op] := by
  cases op with
  | data d => simp [step, hc, hf, dataCalls, dataOps]
  | read n => simp [step, readNow, hc, hf, dataCalls, dataOps]
  | readBlocking n b => cases b <;> simp [step, readNow, hc, hf, dataCalls, dataOps]
  | onClose => exact absurd rfl h1
  | control d => cases hd : c.ctrlCb <;> simp [step, hc, hd, hf, dataCalls, dataOps]
  | setCallbacks a b d => exact absurd rfl (h2 a b d)
  | beginWrite d => simp [step, hc, hf, dataCalls, dataOps]
  | beginControl d => simp [step, hc, hf, dataCalls, dataOps]
  | beginClose => simp [step, hc, hf, dataCalls, dataOps]
  | finishWrite i => cases hp : c.pendingWrites[i]? <;> simp [step, hp, hc, hf, dataCalls, dataOps]
  | finishControl i => cases hp : c.pendingControl[i]? <;> simp [step, hp, hc, hf, dataCalls, dataOps]
  | finishClose => cases hp : c.pendingCloses <;> simp [step, hp, hc, hf, dataCalls, dataOps]

/-- While open with a data callback, everything that arrives is handed to it. -/
theorem delivered (c : Ch) (f : Nat) (ops : List Op) (hc : c.closed = false) (hf : c.dataCb = some f)
    (h1 : .onClose ∉ ops) (h2 : ∀ a b d, .setCallbacks a b d ∉ ops) : dataCalls f (run c ops).2 = dataOps ops := by
  induction ops generalizing c with
  | nil => simp [run, dataCalls, dataOps]
  | cons op ops ih =>
    obtain ⟨g1, g2, g3⟩ := step_open c f op hc hf (fun h => h1 (by simp [h])) (fun a b d h => h2 a b d (by simp [h]))
    have hd : dataCalls f (run c (op :: ops)).2 = dataCalls f (step c op).2 ++ dataCalls f (run (step c op).1 ops).2 := by
      simp only [run, dataCalls, List.filterMap_append]
    rw [hd, ih _ g1 g2 (fun h => h1 (by simp [h])) (fun a b d h => h2 a b d (by simp [h])), g3]
    simp only [dataOps, ← List.filterMap_append, List.singleton_append]

end Verif.Channel
