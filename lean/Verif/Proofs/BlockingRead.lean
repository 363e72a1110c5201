import Verif.Spec.BlockingRead
import Verif.Proofs.Channel
/-! Lemmas about blocking reads. -/
namespace Verif.BlockingRead
open Verif Channel

theorem run_append (s : State) (a b : List Op) :
    run s (a ++ b) = ((run (run s a).1 b).1, (run s a).2 ++ (run (run s a).1 b).2) := by
  induction a generalizing s with
  | nil => simp [run]
  | cons op a ih => simp [run, ih, List.append_assoc]

/-- The flag is set exactly while a message is buffered, and nobody sleeps then. -/
structure Inv (s : State) : Prop where
  event : s.ch.event = !s.ch.deque.isEmpty
  asleep : ∀ t n b, s.reader t = .asleep n b → s.ch.event = false

theorem inv_init : Inv {} := ⟨rfl, fun _ _ _ h => (nomatch h)⟩

/-- Only data sets the flag. -/
theorem chan_event (c : Ch) (op : Channel.Op) (h : sets c op = false) (he : c.event = false) : (Channel.step c op).1.event = false := by
  cases op with
  | data d => cases hc : c.closed <;> cases hd : c.dataCb <;> simp_all [Channel.step, sets]
  | read n => simp [Channel.step, readNow, he]
  | readBlocking n b => cases b <;> simp [Channel.step, readNow, he]
  | onClose => cases hc : c.closed <;> simp [Channel.step, he, hc]
  | control d => cases hc : c.closed <;> cases hd : c.ctrlCb <;> simp [Channel.step, he, hc, hd]
  | setCallbacks a b d => simp [Channel.step, he]
  | beginWrite d => cases hc : c.closed <;> simp [Channel.step, he, hc]
  | beginControl d => cases hc : c.closed <;> simp [Channel.step, he, hc]
  | beginClose => cases hc : c.closed <;> simp [Channel.step, he, hc]
  | finishWrite i => cases hp : c.pendingWrites[i]? <;> simp [Channel.step, he, hp]
  | finishControl i => cases hp : c.pendingControl[i]? <;> simp [Channel.step, he, hp]
  | finishClose => cases hp : c.pendingCloses <;> simp [Channel.step, he, hp]

theorem wake_asleep (p : Phase) (n : Int) (b : Bool) : wake p ≠ .asleep n b := by
  cases p <;> simp [wake]

theorem inv_step (s : State) (op : Op) (h : Inv s) : Inv (step s op).1 := by
  cases op with
  | chan op =>
    refine ⟨step_event s.ch op h.event, ?_⟩
    intro t n b ht
    simp only [step] at ht ⊢
    cases hs : sets s.ch op with
    | true => rw [hs, if_pos rfl] at ht; exact absurd ht (wake_asleep _ _ _)
    | false =>
      rw [hs, if_neg (by simp)] at ht
      exact chan_event s.ch op hs (h.asleep t n b ht)
  | call t n timed =>
    simp only [step]
    split
    · refine ⟨h.event, ?_⟩
      intro u k b hu
      dsimp only at hu ⊢
      by_cases e : u = t
      · rw [if_pos e] at hu
        cases he : s.ch.event with
        | true => rw [he, if_pos rfl] at hu; exact (nomatch hu)
        | false => rfl
      · rw [if_neg e] at hu; exact h.asleep u k b hu
    · exact h
  | timeout t =>
    simp only [step]
    split
    · refine ⟨h.event, ?_⟩
      intro u k b hu
      dsimp only at hu ⊢
      by_cases e : u = t
      · rw [if_pos e] at hu; exact (nomatch hu)
      · rw [if_neg e] at hu; exact h.asleep u k b hu
    · exact h
  | take t =>
    simp only [step]
    split
    · rename_i n hn
      refine ⟨readNow_event s.ch n h.event, ?_⟩
      intro u k b hu
      dsimp only at hu ⊢
      by_cases e : u = t
      · rw [if_pos e] at hu; exact (nomatch hu)
      · rw [if_neg e] at hu
        have := h.asleep u k b hu
        rw [this]; simp
    · exact h

theorem inv_run (s : State) (ops : List Op) (h : Inv s) : Inv (run s ops).1 := by
  induction ops generalizing s with
  | nil => exact h
  | cons op ops ih => exact ih _ (inv_step s op h)

theorem allReturned_append (a b : List Out) : allReturned (a ++ b) = allReturned a ++ allReturned b := by
  simp [allReturned]

theorem allReturned_chan (outs : List Channel.Out) : allReturned (outs.map .chan) = returnedBytes outs := by
  induction outs with
  | nil => rfl
  | cons o outs ih =>
    have ih' : (outs.map Out.chan).flatMap _ = outs.flatMap _ := ih
    cases o <;> simp [allReturned, returnedBytes, ih']

theorem lossless (s : State) (ops : List Op) :
    allReturned (run s ops).2 ++ (run s ops).1.ch.deque.flatten =
      s.ch.deque.flatten ++ readable s.ch.closed s.ch.dataCb.isSome (chanOps ops) := by
  induction ops generalizing s with
  | nil => simp [run, allReturned, chanOps, readable]
  | cons op ops ih =>
    simp only [run, allReturned_append, List.append_assoc]
    rw [ih]
    cases op with
    | chan op =>
      have e : chanOps (.chan op :: ops) = op :: chanOps ops := rfl
      rw [e, readable_step, ← List.append_assoc s.ch.deque.flatten, ← step_lossless]
      simp only [step, allReturned_chan, List.append_assoc]
    | call t n timed =>
      have e : chanOps (.call t n timed :: ops) = chanOps ops := rfl
      rw [e]
      simp only [step]
      split <;> simp [allReturned]
    | timeout t =>
      have e : chanOps (.timeout t :: ops) = chanOps ops := rfl
      rw [e]
      simp only [step]
      split <;> simp [allReturned]
    | take t =>
      have e : chanOps (.take t :: ops) = chanOps ops := rfl
      rw [e]
      simp only [step]
      split
      · rename_i n hn
        rw [← List.append_assoc]
        congr 1
        simp only [allReturned, List.flatMap_cons, List.flatMap_nil, List.append_nil]
        exact readLoop_flatten _ _
      · simp [allReturned]

/-! ### Messages that are not empty -/

theorem readLoop_full (q : List Bytes) (n : Int) (h : ∀ b ∈ q, b ≠ []) : ∀ b ∈ (readLoop q n).2, b ≠ [] := by
  induction q generalizing n with
  | nil => simp [readLoop]
  | cons a q ih =>
    simp only [readLoop]
    split
    · exact h
    · split
      · exact ih _ (fun b hb => h b (by simp [hb]))
      · rename_i hl
        intro b hb
        rcases List.mem_cons.1 hb with rfl | hb
        · intro e; exact hl (by rw [e]; rfl)
        · exact h b (by simp [hb])

theorem step_full (s : State) (op : Op) (h : ∀ b ∈ s.ch.deque, b ≠ []) (ho : op.full) : ∀ b ∈ (step s op).1.ch.deque, b ≠ [] := by
  cases op with
  | chan op =>
    simp only [step]
    cases op with
    | data d =>
      have hd : d ≠ [] := ho
      cases hc : s.ch.closed <;> cases hb : s.ch.dataCb <;> simp [Channel.step, hc, hb] <;> try exact h
      intro b hb
      rcases hb with hb | rfl
      · exact h b hb
      · exact hd
    | read n => exact readLoop_full _ _ h
    | readBlocking n b =>
      cases b
      · exact h
      · exact readLoop_full _ _ h
    | onClose => simp only [Channel.step]; split <;> exact h
    | control d => simp only [Channel.step]; split <;> try split <;> exact h
                   exact h
    | setCallbacks a b d => exact h
    | beginWrite d => simp only [Channel.step]; split <;> exact h
    | beginControl d => simp only [Channel.step]; split <;> exact h
    | beginClose => simp only [Channel.step]; split <;> exact h
    | finishWrite i => simp only [Channel.step]; split <;> exact h
    | finishControl i => simp only [Channel.step]; split <;> exact h
    | finishClose => simp only [Channel.step]; split <;> exact h
  | call t n timed => simp only [step]; split <;> exact h
  | timeout t => simp only [step]; split <;> exact h
  | take t =>
    simp only [step]
    split
    · exact readLoop_full _ _ h
    · exact h

theorem run_full (s : State) (ops : List Op) (h : ∀ b ∈ s.ch.deque, b ≠ []) (ho : ∀ op ∈ ops, op.full) :
    ∀ b ∈ (run s ops).1.ch.deque, b ≠ [] := by
  induction ops generalizing s with
  | nil => exact h
  | cons op ops ih => exact ih _ (step_full s op h (ho op (by simp))) (fun o hm => ho o (by simp [hm]))

/-! ### A reader that is alone -/

/-- A thread in a call of `read`: asleep, or awake with something to read. -/
def Served (t : Nat) (n : Int) (s : State) : Prop :=
  (∃ b, s.reader t = .asleep n b) ∨ (s.reader t = .woken n ∧ s.ch.event = true) ∨ s.reader t = .idle

theorem chan_keeps (c : Ch) (op : Channel.Op) (h : Op.reads (.chan op) = false) (he : c.event = true) : (Channel.step c op).1.event = true := by
  cases op with
  | data d => cases hc : c.closed <;> cases hd : c.dataCb <;> simp [Channel.step, hc, hd, he]
  | read n => exact (nomatch h)
  | readBlocking n b => exact (nomatch h)
  | onClose => cases hc : c.closed <;> simp [Channel.step, he, hc]
  | control d => cases hc : c.closed <;> cases hd : c.ctrlCb <;> simp [Channel.step, he, hc, hd]
  | setCallbacks a b d => simp [Channel.step, he]
  | beginWrite d => cases hc : c.closed <;> simp [Channel.step, he, hc]
  | beginControl d => cases hc : c.closed <;> simp [Channel.step, he, hc]
  | beginClose => cases hc : c.closed <;> simp [Channel.step, he, hc]
  | finishWrite i => cases hp : c.pendingWrites[i]? <;> simp [Channel.step, he, hp]
  | finishControl i => cases hp : c.pendingControl[i]? <;> simp [Channel.step, he, hp]
  | finishClose => cases hp : c.pendingCloses <;> simp [Channel.step, he, hp]

theorem sets_event (c : Ch) (op : Channel.Op) (h : sets c op = true) : (Channel.step c op).1.event = true := by
  cases op <;> simp only [sets, Bool.and_eq_true, Bool.not_eq_true', Option.isNone_iff_eq_none, Bool.false_eq_true] at h
  simp [Channel.step, h.1, h.2]

/-- A call made by `t` in this state. -/
def calls (t : Nat) : Op → Bool
  | .call u _ _ => u = t
  | _ => false

theorem served_step (t : Nat) (n : Int) (s : State) (op : Op) (h : Served t n s) (hr : op.reads = false) (hc : calls t op = false) :
    Served t n (step s op).1 := by
  cases op with
  | chan op =>
    simp only [step]
    cases hs : sets s.ch op with
    | true =>
      have he := sets_event s.ch op hs
      rcases h with ⟨b, h⟩ | ⟨h, -⟩ | h
      · exact .inr (.inl ⟨by simp [h, wake], he⟩)
      · exact .inr (.inl ⟨by simp [h, wake], he⟩)
      · exact .inr (.inr (by simp [h, wake]))
    | false =>
      rcases h with ⟨b, h⟩ | ⟨h, h'⟩ | h
      · exact .inl ⟨b, by simpa using h⟩
      · exact .inr (.inl ⟨by simpa using h, chan_keeps s.ch op hr h'⟩)
      · exact .inr (.inr (by simpa using h))
  | call u k timed =>
    simp only [calls, decide_eq_false_iff_not] at hc
    simp only [step]
    split
    · simp only [Served, if_neg (Ne.symm hc)]
      exact h
    · exact h
  | timeout u =>
    simp only [step]
    split
    · by_cases e : t = u
      · exact .inr (.inr (by simp [e]))
      · simp only [Served, if_neg e]
        exact h
    · exact h
  | take u => exact (nomatch hr)

theorem served_run (t : Nat) (n : Int) (s : State) (ops : List Op) (h : Served t n s) (hr : ∀ op ∈ ops, op.reads = false)
    (hc : ∀ op ∈ ops, calls t op = false) : Served t n (run s ops).1 := by
  induction ops generalizing s with
  | nil => exact h
  | cons op ops ih =>
    exact ih _ (served_step t n s op h (hr op (by simp)) (hc op (by simp))) (fun o hm => hr o (by simp [hm]))
      (fun o hm => hc o (by simp [hm]))

/-! ### A closed channel -/

theorem closed_step (t : Nat) (n : Int) (s : State) (op : Op) (hc : s.ch.closed = true) (h : s.reader t = .asleep n false) :
    (step s op).1.ch.closed = true ∧ (step s op).1.reader t = .asleep n false := by
  cases op with
  | chan op =>
    have hs : sets s.ch op = false := by cases op <;> simp [sets, hc]
    refine ⟨(Channel.step_closed s.ch op hc).1, ?_⟩
    simp [step, hs, h]
  | call u k timed =>
    simp only [step]
    split
    · rename_i hu
      refine ⟨hc, ?_⟩
      have : t ≠ u := by intro e; rw [← e, h] at hu; exact (nomatch hu)
      simp [this, h]
    · exact ⟨hc, h⟩
  | timeout u =>
    simp only [step]
    split
    · rename_i hu
      refine ⟨hc, ?_⟩
      have : t ≠ u := by intro e; rw [← e, h] at hu; exact (nomatch hu)
      simp [this, h]
    · exact ⟨hc, h⟩
  | take u =>
    simp only [step]
    split
    · rename_i hu
      refine ⟨hc, ?_⟩
      have : t ≠ u := by intro e; rw [← e, h] at hu; exact (nomatch hu)
      simp [this, h]
    · exact ⟨hc, h⟩

theorem closed_run (t : Nat) (n : Int) (s : State) (ops : List Op) (hc : s.ch.closed = true) (h : s.reader t = .asleep n false) :
    (run s ops).1.reader t = .asleep n false := by
  induction ops generalizing s with
  | nil => exact h
  | cons op ops ih =>
    have := closed_step t n s op hc h
    exact ih _ this.1 this.2

end Verif.BlockingRead
