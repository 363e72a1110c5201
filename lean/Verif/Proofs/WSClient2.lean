import Verif.Proofs.WSClient
/-! Lemmas about histories of the websocket client. -/
namespace Verif.WSClient
open Verif Packets Dispatcher

theorem run_append (s : St) (a b : List (Env × Ev)) :
    run s (a ++ b) = ((run (run s a).1 b).1, (run s a).2 ++ (run (run s a).1 b).2) := by
  induction a generalizing s with
  | nil => simp [run]
  | cons x a ih => simp [run, ih, List.append_assoc]

theorem Fair.head {x hist} (h : Fair (x :: hist)) : ∀ data, x.2 = .binary data → ¬ Hangs data ∧ data.length ≤ maxSize := h x (by simp)
theorem Fair.tail {x hist} (h : Fair (x :: hist)) : Fair hist := fun y hy => h y (by simp [hy])

/-! ### Handlers -/

/-- The identity handler is the only one that touches the identity. -/
theorem handle_identity (env s num args) (h : num ≠ 9) :
    (handle env s num args).1.identity = s.identity ∧ (handle env s num args).1.notified = s.notified ∧
    (∀ o ∈ (handle env s num args).2.1, o.isAnnounce = false) := by
  have hch : ∀ n os, ∀ o ∈ List.flatMap (chanOut n) os, o.isAnnounce = false := by
    intro n os o ho
    obtain ⟨a, _, ha⟩ := List.mem_flatMap.1 ho
    cases a <;> simp only [chanOut, Option.mem_toList, Option.map_eq_some_iff, List.mem_singleton] at ha
    all_goals first | (obtain ⟨_, _, rfl⟩ := ha; rfl) | (subst ha; rfl)
  unfold handle
  split
  · exact absurd rfl h
  all_goals repeat' split
  all_goals first
    | exact ⟨rfl, rfl, hch _ _⟩
    | (refine ⟨rfl, rfl, ?_⟩; simp [Out.isAnnounce]; done)

/-- The response handler is the only one that touches the command callbacks. -/
theorem handle_callbacks (env s num args) (h : num ≠ 100) (cb : Nat) :
    (handle env s num args).1.callbacks = s.callbacks ∧ callsOf cb (handle env s num args).2.1 = [] := by
  have hch : ∀ n os, callsOf cb (List.flatMap (chanOut n) os) = [] := by
    intro n os
    rw [callsOf, List.filterMap_eq_nil_iff]
    intro o ho
    obtain ⟨a, _, ha⟩ := List.mem_flatMap.1 ho
    cases a <;> simp only [chanOut, Option.mem_toList, Option.map_eq_some_iff, List.mem_singleton] at ha
    all_goals first | (obtain ⟨_, _, rfl⟩ := ha; rfl) | (subst ha; rfl)
  have hsync : ∀ s : St, (syncIdentity env s).1.callbacks = s.callbacks ∧ callsOf cb (syncIdentity env s).2 = [] := by
    intro s
    unfold syncIdentity
    split
    · exact ⟨rfl, rfl⟩
    · split <;> exact ⟨rfl, rfl⟩
  unfold handle
  split
  · split
    · exact ⟨rfl, rfl⟩
    · exact hsync _
  all_goals repeat' split
  all_goals first
    | exact absurd rfl h
    | exact ⟨rfl, rfl⟩
    | exact ⟨rfl, hch _ _⟩

theorem seenBy_append (n a b) : seenBy n (a ++ b) = seenBy n a ++ seenBy n b := by simp [seenBy]

/-- Only four handlers touch the channels. -/
theorem handle_channels (env s num args) (h : num ≠ 6 ∧ num ≠ 21 ∧ num ≠ 14 ∧ num ≠ 19) (n : Int) :
    (handle env s num args).1.channels = s.channels ∧ seenBy n (handle env s num args).2.1 = [] := by
  obtain ⟨h1, h2, h3, h4⟩ := h
  have hsync : ∀ s : St, (syncIdentity env s).1.channels = s.channels ∧ seenBy n (syncIdentity env s).2 = [] := by
    intro s
    unfold syncIdentity
    split
    · exact ⟨rfl, rfl⟩
    · split <;> exact ⟨rfl, rfl⟩
  unfold handle
  split
  · split
    · exact ⟨rfl, rfl⟩
    · exact hsync _
  all_goals repeat' split
  all_goals first
    | exact absurd rfl h1
    | exact absurd rfl h2
    | exact absurd rfl h3
    | exact absurd rfl h4
    | exact ⟨rfl, rfl⟩
    | (refine ⟨rfl, ?_⟩; simp [seenBy]; done)

theorem handle_hung (env s num args) : (handle env s num args).1.hung = s.hung := by
  have hsync : ∀ s : St, (syncIdentity env s).1.hung = s.hung := by
    intro s
    unfold syncIdentity
    split
    · rfl
    · split <;> rfl
  unfold handle
  split
  · split
    · rfl
    · exact hsync _
  all_goals repeat' split
  all_goals first
    | rfl

theorem handle_closed (env s num args) : (handle env s num args).1.closed = s.closed := by
  have hsync : ∀ s : St, (syncIdentity env s).1.closed = s.closed := by
    intro s
    unfold syncIdentity
    split
    · rfl
    · split <;> rfl
  unfold handle
  split
  · split
    · rfl
    · exact hsync _
  all_goals repeat' split
  all_goals first
    | rfl

/-! ### The receive loop -/

theorem step_hung (env s e) (h : ∀ data, e = .binary data → ¬ Hangs data) : (step env s e).1.hung = s.hung := by
  cases e with
  | binary data =>
    simp only [step, Ev.isSocket, if_true]
    split
    · rfl
    · simp only [onEvent]
      split
      · rename_i hb; exact absurd ((onBinary_hang_iff data).1 hb) (h data rfl)
      · rfl
      · rfl
      · exact handle_hung _ _ _ _
  | ready => simp only [step, Ev.isSocket, if_true, onEvent]; split <;> (try rfl); split <;> split <;> rfl
  | disconnected => simp only [step, Ev.isSocket, if_true, onEvent]; split <;> rfl
  | poll =>
    simp only [step, Ev.isSocket, if_true, onEvent, syncIdentity]
    split
    · rfl
    · split
      · rfl
      · split <;> rfl
  | other => simp only [step, Ev.isSocket, if_true, onEvent]; split <;> rfl
  | close => rfl
  | addCallback id cb => rfl
  | getChannel n => rfl
  | chanOp n op =>
    simp only [step, Ev.isSocket, Bool.false_eq_true, if_false]
    split
    · split <;> rfl
    · rfl

theorem run_hung (s : St) (hist) (h : Fair hist) : (run s hist).1.hung = s.hung := by
  induction hist generalizing s with
  | nil => rfl
  | cons x hist ih =>
    simp only [run]
    rw [ih _ h.tail, step_hung]
    intro data hd; exact (h.head data hd).1

/-! ### Identity -/

theorem step_identity (env s e) (hl : ∀ data, e = .binary data → data.length ≤ maxSize) (h : ∀ id, ¬ e.assigns id) :
    ((step env s e).1.identity = s.identity ∨ (step env s e).1.identity = none) ∧
    ((step env s e).1.notified = s.notified ∧ (∀ o ∈ (step env s e).2, o.isAnnounce = false) ∨
      e = .poll ∧ step env s e = syncIdentity env s) := by
  have hch : ∀ n os, ∀ o ∈ List.flatMap (chanOut n) os, o.isAnnounce = false := by
    intro n os o ho
    obtain ⟨a, _, ha⟩ := List.mem_flatMap.1 ho
    cases a <;> simp only [chanOut, Option.mem_toList, Option.map_eq_some_iff, List.mem_singleton] at ha
    all_goals first | (obtain ⟨_, _, rfl⟩ := ha; rfl) | (subst ha; rfl)
  have hnil : ∀ o ∈ ([] : List Out), o.isAnnounce = false := by simp
  cases e with
  | binary data =>
    simp only [step, Ev.isSocket, if_true]
    split
    · exact ⟨.inl rfl, .inl ⟨rfl, hnil⟩⟩
    · simp only [onEvent]
      split
      · exact ⟨.inl rfl, .inl ⟨rfl, hnil⟩⟩
      · exact ⟨.inl rfl, .inl ⟨rfl, hnil⟩⟩
      · exact ⟨.inl rfl, .inl ⟨rfl, by simp [Out.isAnnounce]⟩⟩
      · rename_i num args hb
        have h9 : num ≠ 9 := by
          rintro rfl
          obtain ⟨id, _, rfl, _⟩ := call_bytes (hl data rfl) (.inr rfl) hb
          exact h id ⟨data, rfl, (assigned_call (hl data rfl) id).2 hb⟩
        obtain ⟨h1, h2, h3⟩ := handle_identity env s num args h9
        refine ⟨.inl h1, .inl ⟨h2, ?_⟩⟩
        intro o ho
        rcases List.mem_append.1 ho with ho | ho
        · exact h3 o ho
        · split at ho
          · simp only [List.mem_singleton] at ho; subst ho; rfl
          · simp at ho
  | ready =>
    simp only [step, Ev.isSocket, if_true, onEvent]
    split
    · exact ⟨.inl rfl, .inl ⟨rfl, hnil⟩⟩
    · split <;> split <;> exact ⟨.inl rfl, .inl ⟨rfl, by simp [Out.isAnnounce]⟩⟩
  | disconnected =>
    simp only [step, Ev.isSocket, if_true, onEvent]
    split
    · exact ⟨.inl rfl, .inl ⟨rfl, hnil⟩⟩
    · refine ⟨.inr rfl, .inl ⟨rfl, ?_⟩⟩
      intro o ho
      rcases List.mem_append.1 ho with ho | ho
      · obtain ⟨e, _, he⟩ := List.mem_flatMap.1 ho
        obtain ⟨cb, _, rfl⟩ := List.mem_map.1 he
        rfl
      · generalize s.channels = chs at ho
        induction chs with
        | nil => simp [hardClose] at ho
        | cons x chs ih =>
          obtain ⟨m, c⟩ := x
          rcases List.mem_append.1 ho with ho | ho
          · exact hch _ _ o ho
          · exact ih ho
  | poll =>
    simp only [step, Ev.isSocket, if_true, onEvent]
    split
    · exact ⟨.inl rfl, .inl ⟨rfl, hnil⟩⟩
    · refine ⟨.inl ?_, .inr ⟨trivial, rfl⟩⟩
      simp only [syncIdentity]
      split
      · rfl
      · split <;> rfl
  | other => simp only [step, Ev.isSocket, if_true, onEvent]; split <;> exact ⟨.inl rfl, .inl ⟨rfl, hnil⟩⟩
  | close => exact ⟨.inr rfl, .inl ⟨rfl, hnil⟩⟩
  | addCallback id cb => exact ⟨.inl rfl, .inl ⟨rfl, hnil⟩⟩
  | getChannel n => exact ⟨.inl rfl, .inl ⟨rfl, hnil⟩⟩
  | chanOp n op =>
    simp only [step, Ev.isSocket, Bool.false_eq_true, if_false]
    split
    · split
      · exact ⟨.inl rfl, .inl ⟨rfl, hnil⟩⟩
      · exact ⟨.inl rfl, .inl ⟨rfl, hch _ _⟩⟩
    · exact ⟨.inl rfl, .inl ⟨rfl, hnil⟩⟩

/-- What an assignment does. -/
theorem step_assigns (env s e id) (hl : ∀ data, e = .binary data → data.length ≤ maxSize) (h : e.assigns id) :
    step env s e = if s.hung || s.closed then (s, []) else syncIdentity env { s with identity := some id } := by
  obtain ⟨data, rfl, ha⟩ := h
  have hb := (assigned_call (hl data rfl) id).1 ha
  simp only [step, Ev.isSocket, if_true, onEvent, hb, handle]
  cases s.hung <;> cases s.closed <;> simp

theorem step_closed (env s e) : s.closed = true → (step env s e).1.closed = true := by
  intro hc
  cases e with
  | binary data =>
    simp only [step, Ev.isSocket, if_true]
    split
    · exact hc
    · simp only [onEvent]
      split
      · exact hc
      · exact hc
      · exact hc
      · exact (handle_closed _ _ _ _).trans hc
  | ready => simp only [step, Ev.isSocket, if_true, onEvent]; split <;> (try exact hc); split <;> split <;> exact hc
  | disconnected => simp only [step, Ev.isSocket, if_true, onEvent]; split <;> exact hc
  | poll =>
    simp only [step, Ev.isSocket, if_true, onEvent, syncIdentity]
    split
    · exact hc
    · split
      · exact hc
      · split <;> exact hc
  | other => simp only [step, Ev.isSocket, if_true, onEvent]; split <;> exact hc
  | close => rfl
  | addCallback id cb => exact hc
  | getChannel n => exact hc
  | chanOp n op =>
    simp only [step, Ev.isSocket, Bool.false_eq_true, if_false]
    split
    · split <;> exact hc
    · exact hc

theorem lastAck_append (a b : List Out) : lastAck (a ++ b) = (lastAck b).or (lastAck a) := by
  induction a with
  | nil => simp [lastAck]
  | cons o a ih =>
    simp only [List.cons_append, lastAck, ih]
    cases lastAck b <;> rfl

theorem lastAck_none {outs : List Out} (h : ∀ o ∈ outs, o.isAnnounce = false) : lastAck outs = none := by
  induction outs with
  | nil => rfl
  | cons o os ih =>
    rw [lastAck, ih (fun o ho => h o (by simp [ho]))]
    have := h o (by simp)
    cases o <;> simp_all [Out.isAnnounce]

/-- After an event the notified identity is the one acknowledged last, or nothing. -/
theorem step_ack (env s e) (hl : ∀ data, e = .binary data → data.length ≤ maxSize) :
    (step env s e).1.notified = none ∨ (step env s e).1.notified = (lastAck (step env s e).2).or s.notified := by
  have hsync : ∀ s : St, (syncIdentity env s).1.notified = none ∨ (syncIdentity env s).1.notified = (lastAck (syncIdentity env s).2).or s.notified := by
    intro s
    unfold syncIdentity
    split
    · right; simp [lastAck]
    · split
      · right; simp [lastAck]
      · cases env.rpcOk <;> simp [lastAck]
  by_cases h : ∃ id, e.assigns id
  · obtain ⟨id, h⟩ := h
    rw [step_assigns env s e id hl h]
    split
    · right; simp [lastAck]
    · exact hsync _
  · rcases (step_identity env s e hl (fun id hi => h ⟨id, hi⟩)).2 with ⟨h1, h2⟩ | ⟨_, h2⟩
    · right; rw [h1, lastAck_none h2]; simp
    · rw [h2]; exact hsync s

theorem run_ack (s : St) (hist) (h : Fair hist) (x : Bytes) (hn : (run s hist).1.notified = some x) :
    (lastAck (run s hist).2).or s.notified = some x := by
  induction hist generalizing s with
  | nil => simpa [run, lastAck] using hn
  | cons y hist ih =>
    have := ih _ h.tail hn
    simp only [run, lastAck_append]
    cases hl : lastAck (run (step y.1 s y.2).1 hist).2 with
    | some z => rw [hl] at this; simpa using this
    | none =>
      rw [hl] at this
      simp only [Option.or] at this ⊢
      rcases step_ack y.1 s y.2 (fun data hd => (h.head data hd).2) with h1 | h1
      · rw [h1] at this; simp at this
      · rw [h1] at this; exact this

end Verif.WSClient
