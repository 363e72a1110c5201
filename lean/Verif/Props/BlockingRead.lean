import Verif.Proofs.BlockingRead
/-!
C121: reads of a channel that wait for data.
-/
namespace Verif.BlockingRead
open Verif Channel

/-- C121: a thread sleeps in `read` only while nothing is buffered, whatever the threads do: no wake-up is lost. -/
theorem c121_asleep (ops : List Op) (t : Nat) (n : Int) (timed : Bool) (h : (run {} ops).1.reader t = .asleep n timed) :
    (run {} ops).1.ch.deque = [] := by
  have i := inv_run {} ops inv_init
  have := i.event
  rw [i.asleep t n timed h] at this
  simpa using this.symm

/-- C121: a message that arrives on an open channel wakes a sleeping thread, and if it is the first to go on its read returns the beginning of the
message. -/
theorem c121_wakes (ops : List Op) (t n : Nat) (timed : Bool) (h : (run {} ops).1.reader t = .asleep n timed)
    (hc : (run {} ops).1.ch.closed = false) (hd : (run {} ops).1.ch.dataCb = none) (d : Bytes) :
    (run (run {} ops).1 [.chan (.data d), .take t]).2 = [.returned t (d.take n)] := by
  have hq := c121_asleep ops t n timed h
  generalize (run {} ops).1 = s at *
  have := readLoop_take [d] n
  simp only [List.flatten_cons, List.flatten_nil, List.append_nil] at this
  simp [run, step, sets, Channel.step, hc, hd, h, wake, hq, this]

/-- C121: whatever blocking and other reads the threads make, the bytes they return, in the order in which they were taken, followed by what is still
buffered, are the bytes that arrived for reading. -/
theorem c121_stream (ops : List Op) :
    allReturned (run {} ops).2 ++ (run {} ops).1.ch.deque.flatten = readable false false (chanOps ops) := by
  simpa using lossless {} ops

/-- C121, the part that holds: if no message is empty and nobody else reads during the call, a blocking read for at least one byte that does not end by
its time limit returns at least one. -/
theorem c121_bytes_partial (before between : List Op) (t n : Nat) (timed : Bool) (hn : 0 < n) (hidle : (run {} before).1.reader t = .idle)
    (hf : ∀ op ∈ before ++ between, op.full) (hr : ∀ op ∈ between, op.reads = false) (hc : ∀ op ∈ between, calls t op = false) (b : Bytes)
    (hb : (step (run {} (before ++ .call t n timed :: between)).1 (.take t)).2 = [.returned t b]) : b ≠ [] := by
  have hs : Served t n (step (run {} before).1 (.call t n timed)).1 := by
    simp only [step, hidle, Served]
    cases he : (run {} before).1.ch.event <;> simp
  have h2 := served_run t n _ between hs hr hc
  have hfull := run_full {} (before ++ .call t n timed :: between) (by simp) (by
    intro op hm
    rcases List.mem_append.1 hm with hm | hm
    · exact hf op (by simp [hm])
    · rcases List.mem_cons.1 hm with rfl | hm
      · trivial
      · exact hf op (by simp [hm]))
  have hi := (inv_run {} (before ++ .call t n timed :: between) inv_init).event
  have e : (run {} (before ++ .call t n timed :: between)).1 = (run (step (run {} before).1 (.call t n timed)).1 between).1 := by
    rw [run_append]; rfl
  rw [e] at hfull hi hb
  generalize (run (step (run {} before).1 (.call t n timed)).1 between).1 = s at *
  rcases h2 with ⟨x, h⟩ | ⟨h, h'⟩ | h
  · simp [step, h] at hb
  · simp only [step, h, List.cons.injEq, Out.returned.injEq, true_and, and_true] at hb
    rw [readLoop_take] at hb
    rw [h'] at hi
    cases hq : s.ch.deque with
    | nil => rw [hq] at hi; exact (nomatch hi)
    | cons a q =>
      have ha := hfull a (by simp [hq])
      rw [hq] at hb
      intro hbn
      rw [hbn] at hb
      cases a with
      | nil => exact ha rfl
      | cons x a =>
        cases n with
        | zero => omega
        | succ n => simp at hb
  · simp [step, h] at hb

/-- C121 exactly: a blocking read for at least one byte that does not end by its time limit returns nothing just if all bytes that have arrived for
reading have been returned by reads already. -/
theorem c121_iff (ops : List Op) (t n : Nat) (hn : 0 < n) (hw : (run {} ops).1.reader t = .woken n) :
    (step (run {} ops).1 (.take t)).2 = [.returned t []] ↔ allReturned (run {} ops).2 = readable false false (chanOps ops) := by
  have hs := c121_stream ops
  rw [← hs]
  generalize (run {} ops).1 = s at *
  simp only [step, hw, List.cons.injEq, Out.returned.injEq, true_and, and_true, readLoop_take]
  cases s.ch.deque.flatten with
  | nil => simp
  | cons x l =>
    cases n with
    | zero => omega
    | succ n => simp

/-- A call that finds nothing, a message, the rest of the message; a call that runs out of time. -/
example : (run {} [.call 1 2 false, .chan (.data [7, 8, 9]), .take 1, .call 1 2 false, .take 1, .call 1 2 true, .timeout 1]).2 =
    [.returned 1 [7, 8], .returned 1 [9], .returned 1 []] := by decide +kernel
/-- Two threads share a message. -/
example : (run {} [.call 1 2 false, .call 2 9 false, .chan (.data [7, 8, 9]), .take 2, .take 1]).2 =
    [.returned 2 [7, 8, 9], .returned 1 []] := by decide +kernel

/-- C121 in full would say that a blocking read without time limit for at least one byte never returns nothing.  This is false: one message wakes all
threads that sleep, and the first takes all of it. -/
theorem c121_two_false : ¬ ∀ (ops : List Op) (t : Nat), (∀ op ∈ ops, op.full) → (∀ u n b, .call u n b ∈ ops → 0 < n ∧ b = false) →
    .returned t [] ∉ (run {} ops).2 := by
  intro h
  refine h [.call 1 2 false, .call 2 9 false, .chan (.data [7, 8, 9]), .take 2, .take 1] 1 ?_ ?_ (by decide +kernel)
  · simp [Op.full]
  · intro u n b hm
    simp at hm
    rcases hm with ⟨-, rfl, rfl⟩ | ⟨-, rfl, rfl⟩ <;> simp

/-- C121 in full would also say that the close of the channel ends the waiting.  This is false: a thread that sleeps without time limit when the channel
is closed sleeps for ever, whatever happens afterwards. -/
theorem c121_close_false (before after : List Op) (t : Nat) (n : Int) (h : (run {} before).1.reader t = .asleep n false) :
    (run {} (before ++ .chan .onClose :: after)).1.reader t = .asleep n false := by
  rw [run_append]
  have e : ((run (run {} before).1 (.chan .onClose :: after)).1).reader t =
      (run (step (run {} before).1 (.chan .onClose)).1 after).1.reader t := rfl
  dsimp only
  rw [e]
  refine closed_run t n _ after ?_ ?_
  · simp only [step, Channel.step]
    cases hc : (run {} before).1.ch.closed <;> simp [hc]
  · simp [step, sets, h]

/-- There are such threads. -/
example : (run {} [.call 1 2 false]).1.reader 1 = .asleep 2 false := by decide +kernel
example : (run {} [.call 1 2 false, .chan .onClose, .chan (.data [1]), .take 1, .timeout 1]).2 = [] := by decide +kernel

end Verif.BlockingRead
