import Verif.Proofs.WSClient2
/-! Lemmas about the channels and command callbacks of the websocket client. -/
namespace Verif.WSClient
open Verif Packets Dispatcher

/-! ### The table of channels -/

/-- Channel numbers in the table. -/
def keys (chs : List (Int × Channel.Ch)) : List Int := chs.map (·.1)

theorem lookup_none_iff (n chs) : lookup n chs = none ↔ n ∉ keys chs := by
  induction chs with
  | nil => simp [lookup, keys]
  | cons x chs ih =>
    obtain ⟨m, c⟩ := x
    simp only [lookup, keys, List.map_cons, List.mem_cons, not_or] at *
    split
    · simp_all
    · rename_i h; rw [ih]; exact ⟨fun h' => ⟨fun e => h e.symm, h'⟩, fun h' => h'.2⟩

theorem lookup_update (n m c chs) : lookup n (update m c chs) = if m = n then (lookup n chs).map (fun _ => c) else lookup n chs := by
  induction chs with
  | nil => simp [lookup, update]
  | cons x chs ih =>
    obtain ⟨k, d⟩ := x
    simp only [lookup, update]
    by_cases h1 : k = m
    · subst h1
      by_cases h2 : k = n
      · subst h2; simp [lookup]
      · simp [lookup, h2]
    · by_cases h2 : k = n
      · subst h2
        simp [lookup, h1, Ne.symm h1]
      · rw [if_neg h1, if_neg h2]; simp only [lookup, if_neg h2, ih]

theorem lookup_append (n chs x) : lookup n (chs ++ [x]) = (lookup n chs).or (if x.1 = n then some x.2 else none) := by
  induction chs with
  | nil => obtain ⟨k, d⟩ := x; simp [lookup]
  | cons y chs ih =>
    obtain ⟨k, d⟩ := y
    simp only [List.cons_append, lookup]
    split
    · simp
    · exact ih

theorem lookup_remove_ne (n m chs) (h : m ≠ n) : lookup n (remove m chs) = lookup n chs := by
  induction chs with
  | nil => rfl
  | cons y chs ih =>
    obtain ⟨k, d⟩ := y
    simp only [remove, lookup]
    by_cases h1 : k = m
    · subst h1; simp [h]
    · rw [if_neg h1]; simp only [lookup, ih]

theorem keys_remove (n chs) : (keys (remove n chs)).Sublist (keys chs) := by
  induction chs with
  | nil => exact .slnil
  | cons y chs ih =>
    obtain ⟨k, d⟩ := y
    simp only [remove, keys, List.map_cons]
    split
    · exact List.sublist_cons_self _ _
    · exact ih.cons_cons _

theorem lookup_remove_self (n chs) (h : (keys chs).Nodup) : lookup n (remove n chs) = none := by
  induction chs with
  | nil => rfl
  | cons y chs ih =>
    obtain ⟨k, d⟩ := y
    simp only [keys, List.map_cons, List.nodup_cons] at h
    simp only [remove]
    split
    · rename_i hk; rw [lookup_none_iff]; exact hk ▸ h.1
    · rename_i hk; simp only [lookup, if_neg hk]; exact ih h.2

theorem keys_update (n c chs) : keys (update n c chs) = keys chs := by
  induction chs with
  | nil => rfl
  | cons y chs ih =>
    obtain ⟨k, d⟩ := y
    simp only [update, keys, List.map_cons]
    split
    · rfl
    · simp only [List.map_cons]; congr 1

theorem getChannel_keys (n chs) (h : (keys chs).Nodup) : (keys (getChannel n chs).1).Nodup := by
  unfold getChannel
  split
  · exact h
  · rename_i hn
    rw [lookup_none_iff] at hn
    simp only [keys, List.map_append, List.map_cons, List.map_nil]
    rw [List.nodup_append]
    refine ⟨h, by simp, ?_⟩
    intro a ha b hb
    simp only [List.mem_singleton] at hb
    subst hb
    intro he; subst he; exact hn ha

theorem lookup_getChannel_ne (n m chs) (h : m ≠ n) : lookup n (getChannel m chs).1 = lookup n chs := by
  unfold getChannel
  split
  · rfl
  · rw [lookup_append, if_neg h]; simp

theorem lookup_getChannel_self (n chs) : lookup n (getChannel n chs).1 = some (getChannel n chs).2 := by
  unfold getChannel
  split
  · assumption
  · rename_i h; rw [lookup_append, h]; simp

theorem hardClose_keys (chs) : keys (hardClose chs).1 = keys chs := by
  induction chs with
  | nil => rfl
  | cons y chs ih => obtain ⟨k, d⟩ := y; simp only [hardClose, keys, List.map_cons]; congr 1

theorem hardClose_lookup (n chs) : lookup n (hardClose chs).1 = (lookup n chs).map (fun c => (Channel.step c .onClose).1) := by
  induction chs with
  | nil => rfl
  | cons y chs ih =>
    obtain ⟨k, d⟩ := y
    simp only [hardClose, lookup]
    split
    · rfl
    · exact ih

theorem seenBy_chanOut (n m : Int) (os) : seenBy n (List.flatMap (chanOut m) os) = if m = n then local' os else [] := by
  induction os with
  | nil => simp [seenBy, local']
  | cons o os ih =>
    rw [List.flatMap_cons, seenBy_append, ih]
    have hsent : ∀ x : Option Bytes, seenBy n (x.map Out.sent).toList = [] := by
      intro x; cases x <;> rfl
    cases o <;> simp only [chanOut, hsent, List.nil_append] <;> by_cases h : m = n <;>
      simp [seenBy, local', Channel.isSend, h]

theorem hardClose_seen (n chs) (h : (keys chs).Nodup) :
    seenBy n (hardClose chs).2 = match lookup n chs with | some c => local' (Channel.step c .onClose).2 | none => [] := by
  induction chs with
  | nil => rfl
  | cons y chs ih =>
    obtain ⟨k, d⟩ := y
    simp only [keys, List.map_cons, List.nodup_cons] at h
    simp only [hardClose, lookup, seenBy_append, seenBy_chanOut]
    rw [ih h.2]
    by_cases hk : k = n
    · subst hk
      rw [(lookup_none_iff k chs).2 h.1]; simp
    · simp [hk]

theorem seenBy_logged (n) (b : Bool) : seenBy n (if b then [Out.logged] else []) = [] := by cases b <;> rfl

/-! ### Steps -/

theorem step_keys (env s e) (h : (keys s.channels).Nodup) (hl : ∀ data, e = .binary data → data.length ≤ maxSize) : (keys (step env s e).1.channels).Nodup := by
  cases e with
  | binary data =>
    have hl := hl data rfl
    simp only [step, Ev.isSocket, if_true]
    split
    · exact h
    · simp only [onEvent]
      split
      · exact h
      · exact h
      · exact h
      · rename_i num args hb
        by_cases h6 : num = 6 ∨ num = 21
        · obtain ⟨m, d, _, rfl, _⟩ := call_chan hl h6 hb
          rcases h6 with rfl | rfl <;> simp only [handle] <;> rw [keys_update] <;> exact getChannel_keys _ _ h
        · by_cases h14 : num = 14
          · subst h14
            obtain ⟨m, rfl, _⟩ := call_int hl (.inl rfl) hb
            exact getChannel_keys _ _ h
          · by_cases h19 : num = 19
            · subst h19
              obtain ⟨m, rfl, _⟩ := call_int hl (.inr rfl) hb
              simp only [handle]
              split
              · exact h
              · exact h.sublist (keys_remove _ _)
            · rw [(handle_channels env s num args ⟨fun h => h6 (.inl h), fun h => h6 (.inr h), h14, h19⟩ 0).1]; exact h
  | ready => simp only [step, Ev.isSocket, if_true, onEvent]; split <;> (try exact h); split <;> split <;> exact h
  | disconnected =>
    simp only [step, Ev.isSocket, if_true, onEvent]
    split
    · exact h
    · rw [hardClose_keys]; exact h
  | poll =>
    simp only [step, Ev.isSocket, if_true, onEvent, syncIdentity]
    split
    · exact h
    · split
      · exact h
      · split <;> exact h
  | other => simp only [step, Ev.isSocket, if_true, onEvent]; split <;> exact h
  | close => exact h
  | addCallback id cb => exact h
  | getChannel n => exact getChannel_keys _ _ h
  | chanOp n op =>
    simp only [step, Ev.isSocket, Bool.false_eq_true, if_false]
    split
    · split
      · exact h
      · rw [keys_update]; exact h
    · exact h

theorem run_keys (s hist) (h : (keys s.channels).Nodup) (hf : Fair hist) : (keys (run s hist).1.channels).Nodup := by
  induction hist generalizing s with
  | nil => exact h
  | cons x hist ih => exact ih _ (step_keys _ _ _ h (fun data hd => (hf.head data hd).2)) hf.tail

theorem opsFor_none {n data} (hl : data.length ≤ maxSize) (h : ∀ num args, onBinary data = .call num args → num ≠ 6 ∧ num ≠ 21) :
    opsFor n (.binary data) = [] := by
  simp only [opsFor]
  split
  · rename_i hd; exact absurd rfl (h _ _ (chan_call hl (.inl rfl) hd)).1
  · rename_i hd; exact absurd rfl (h _ _ (chan_call hl (.inr rfl) hd)).2
  · rfl

theorem getChannel_some {n chs c} (h : lookup n chs = some c) : getChannel n chs = (chs, c) := by
  simp [getChannel, h]

theorem opsFor_6 {n m d data surplus} (h : decoded data = .int 6 :: .int m :: .bytes d :: surplus) :
    opsFor n (.binary data) = if m = n then [.data d] else [] := by simp [opsFor, h]

theorem opsFor_21 {n m d data surplus} (h : decoded data = .int 21 :: .int m :: .bytes d :: surplus) :
    opsFor n (.binary data) = if m = n then [.control d] else [] := by simp [opsFor, h]

/-- One event and an existing channel. -/
theorem step_channel (env s e n c) (hh : s.hung = false) (hk : (keys s.channels).Nodup) (hc : lookup n s.channels = some c)
    (hl : ∀ data, e = .binary data → data.length ≤ maxSize) (hcl : ∀ data, e = .binary data → ¬ closes n data) :
    lookup n (step env s e).1.channels = some (Channel.run c (opsFor n e)).1 ∧
    seenBy n (step env s e).2 = local' (Channel.run c (opsFor n e)).2 := by
  have h0 : seenBy n [] = local' [] := rfl
  cases e with
  | binary data =>
    have hl := hl data rfl
    have hcl := hcl data rfl
    rw [closes_call hl] at hcl
    simp only [step, Ev.isSocket, if_true, hh, Bool.false_eq_true, if_false, onEvent]
    split
    · rename_i hb; rw [opsFor_none hl (by simp [hb])]; exact ⟨hc, h0⟩
    · rename_i hb; rw [opsFor_none hl (by simp [hb])]; exact ⟨hc, h0⟩
    · rename_i hb; rw [opsFor_none hl (by simp [hb])]; exact ⟨hc, rfl⟩
    · rename_i num args hb
      simp only [seenBy_append, seenBy_logged, List.append_nil]
      by_cases h6 : num = 6
      · subst h6
        obtain ⟨m, d, surplus, rfl, hd⟩ := call_chan hl (.inl rfl) hb
        rw [opsFor_6 hd]
        simp only [handle, seenBy_chanOut, lookup_update]
        by_cases hm : m = n
        · subst hm
          rw [getChannel_some hc]
          simp [hc, Channel.run]
        · simp only [if_neg hm]
          rw [lookup_getChannel_ne _ _ _ hm]
          exact ⟨hc, h0⟩
      by_cases h21 : num = 21
      · subst h21
        obtain ⟨m, d, surplus, rfl, hd⟩ := call_chan hl (.inr rfl) hb
        rw [opsFor_21 hd]
        simp only [handle, seenBy_chanOut, lookup_update]
        by_cases hm : m = n
        · subst hm
          rw [getChannel_some hc]
          simp [hc, Channel.run]
        · simp only [if_neg hm]
          rw [lookup_getChannel_ne _ _ _ hm]
          exact ⟨hc, h0⟩
      have hops : opsFor n (.binary data) = [] := by
        refine opsFor_none hl (fun num' args' h => ?_)
        rw [hb] at h
        simp only [Disp.call.injEq] at h
        exact ⟨fun e => h6 (h.1.trans e), fun e => h21 (h.1.trans e)⟩
      rw [hops]
      by_cases h14 : num = 14
      · subst h14
        obtain ⟨m, rfl, _⟩ := call_int hl (.inl rfl) hb
        simp only [handle]
        refine ⟨?_, rfl⟩
        by_cases hm : m = n
        · subst hm; rw [getChannel_some hc]; exact hc
        · rw [lookup_getChannel_ne _ _ _ hm]; exact hc
      by_cases h19 : num = 19
      · subst h19
        obtain ⟨m, rfl, _⟩ := call_int hl (.inr rfl) hb
        have hm : m ≠ n := by rintro rfl; exact hcl hb
        simp only [handle]
        split
        · exact ⟨hc, h0⟩
        · simp only [seenBy_chanOut, if_neg hm]
          rw [lookup_remove_ne _ _ _ hm]
          exact ⟨hc, h0⟩
      obtain ⟨h1, h2⟩ := handle_channels env s num args ⟨h6, h21, h14, h19⟩ n
      rw [h1, h2]; exact ⟨hc, h0⟩
  | ready =>
    simp only [step, Ev.isSocket, if_true, hh, Bool.false_eq_true, if_false, onEvent, opsFor]
    split <;> split <;> exact ⟨hc, rfl⟩
  | disconnected =>
    simp only [step, Ev.isSocket, if_true, hh, Bool.false_eq_true, if_false, onEvent, opsFor]
    rw [hardClose_lookup, hc, seenBy_append, hardClose_seen _ _ hk, hc]
    refine ⟨rfl, ?_⟩
    have : seenBy n (s.callbacks.flatMap fun e => e.2.map fun cb => Out.cmdCall cb none) = [] := by
      rw [seenBy, List.filterMap_eq_nil_iff]
      intro o ho
      obtain ⟨a, _, ha⟩ := List.mem_flatMap.1 ho
      obtain ⟨cb, _, rfl⟩ := List.mem_map.1 ha
      rfl
    rw [this]
    simp [Channel.run]
  | poll =>
    simp only [step, Ev.isSocket, if_true, hh, Bool.false_eq_true, if_false, onEvent, syncIdentity, opsFor]
    split
    · exact ⟨hc, rfl⟩
    · split <;> exact ⟨hc, rfl⟩
  | other => simp only [step, Ev.isSocket, if_true, hh, Bool.false_eq_true, if_false, onEvent, opsFor]; exact ⟨hc, rfl⟩
  | close => exact ⟨hc, rfl⟩
  | addCallback id cb => exact ⟨hc, rfl⟩
  | getChannel m =>
    refine ⟨?_, rfl⟩
    by_cases hm : m = n
    · subst hm; simp only [step, Ev.isSocket, Bool.false_eq_true, if_false]; rw [getChannel_some hc]; exact hc
    · simp only [step, Ev.isSocket, Bool.false_eq_true, if_false]; rw [lookup_getChannel_ne _ _ _ hm]; exact hc
  | chanOp m op =>
    simp only [step, Ev.isSocket, Bool.false_eq_true, if_false, opsFor]
    by_cases hs : serviceOp op
    · simp only [hs, if_true, and_true]
      by_cases hm : m = n
      · subst hm
        simp [hc, lookup_update, seenBy_chanOut, Channel.run]
      · simp only [if_neg hm]
        split
        · exact ⟨hc, h0⟩
        · simp only [lookup_update, seenBy_chanOut, if_neg hm]
          exact ⟨hc, h0⟩
    · simp only [hs, Bool.false_eq_true, if_false, and_false]
      exact ⟨hc, h0⟩

theorem local_append (a b) : local' (a ++ b) = local' a ++ local' b := by simp [local']

/-- A history and an existing channel. -/
theorem run_channel (s hist n c) (hh : s.hung = false) (hk : (keys s.channels).Nodup) (hc : lookup n s.channels = some c)
    (hf : Fair hist) (hcl : ∀ x ∈ hist, ∀ data, x.2 = .binary data → ¬ closes n data) :
    lookup n (run s hist).1.channels = some (Channel.run c (hist.flatMap (fun x => opsFor n x.2))).1 ∧
    seenBy n (run s hist).2 = local' (Channel.run c (hist.flatMap (fun x => opsFor n x.2))).2 := by
  induction hist generalizing s c with
  | nil => exact ⟨hc, rfl⟩
  | cons x hist ih =>
    obtain ⟨env, e⟩ := x
    have hl := fun data hd => (hf.head data hd).2
    obtain ⟨h1, h2⟩ := step_channel env s e n c hh hk hc hl (hcl (env, e) (by simp))
    have := ih (step env s e).1 _ (by rw [step_hung _ _ _ (fun data hd => (hf.head data hd).1)]; exact hh) (step_keys _ _ _ hk hl) h1 hf.tail
      (fun x hx => hcl x (by simp [hx]))
    simp only [List.flatMap_cons, Channel.run_append, run, seenBy_append, local_append]
    rw [this.1, this.2, h2]
    exact ⟨rfl, rfl⟩

theorem step_absent (env s e n) (hc : lookup n s.channels = none) (hl : ∀ data, e = .binary data → data.length ≤ maxSize)
    (hm : ¬ mentions n e) : lookup n (step env s e).1.channels = none ∧ seenBy n (step env s e).2 = [] := by
  cases e with
  | binary data =>
    have hl := hl data rfl
    simp only [mentions, not_or, Decidable.not_not] at hm
    rw [opens_call hl] at hm
    simp only [step, Ev.isSocket, if_true]
    split
    · exact ⟨hc, rfl⟩
    simp only [onEvent]
    split
    · exact ⟨hc, rfl⟩
    · exact ⟨hc, rfl⟩
    · exact ⟨hc, rfl⟩
    · rename_i num args hb
      simp only [seenBy_append, seenBy_logged, List.append_nil]
      by_cases h6 : num = 6
      · subst h6
        obtain ⟨m, d, surplus, rfl, hd⟩ := call_chan hl (.inl rfl) hb
        have hmn : m ≠ n := by rintro rfl; rw [opsFor_6 hd] at hm; simp at hm
        simp only [handle, seenBy_chanOut, lookup_update, if_neg hmn]
        rw [lookup_getChannel_ne _ _ _ hmn]
        exact ⟨hc, trivial⟩
      by_cases h21 : num = 21
      · subst h21
        obtain ⟨m, d, surplus, rfl, hd⟩ := call_chan hl (.inr rfl) hb
        have hmn : m ≠ n := by rintro rfl; rw [opsFor_21 hd] at hm; simp at hm
        simp only [handle, seenBy_chanOut, lookup_update, if_neg hmn]
        rw [lookup_getChannel_ne _ _ _ hmn]
        exact ⟨hc, trivial⟩
      by_cases h14 : num = 14
      · subst h14
        obtain ⟨m, rfl, _⟩ := call_int hl (.inl rfl) hb
        have hmn : m ≠ n := by rintro rfl; exact hm.2 hb
        simp only [handle]
        rw [lookup_getChannel_ne _ _ _ hmn]
        exact ⟨hc, rfl⟩
      by_cases h19 : num = 19
      · subst h19
        obtain ⟨m, rfl, _⟩ := call_int hl (.inr rfl) hb
        simp only [handle]
        split
        · exact ⟨hc, rfl⟩
        · rename_i hm'
          have hmn : m ≠ n := by rintro rfl; rw [hc] at hm'; simp at hm'
          simp only [seenBy_chanOut, if_neg hmn]
          rw [lookup_remove_ne _ _ _ hmn]
          exact ⟨hc, trivial⟩
      obtain ⟨h1, h2⟩ := handle_channels env s num args ⟨h6, h21, h14, h19⟩ n
      rw [h1, h2]; exact ⟨hc, rfl⟩
  | ready => simp only [step, Ev.isSocket, if_true, onEvent]; split <;> (try exact ⟨hc, rfl⟩); split <;> split <;> exact ⟨hc, rfl⟩
  | disconnected =>
    simp only [step, Ev.isSocket, if_true, onEvent]
    split
    · exact ⟨hc, rfl⟩
    · simp only [hardClose_lookup, hc, seenBy_append]
      refine ⟨rfl, ?_⟩
      have h1 : seenBy n (s.callbacks.flatMap fun e => e.2.map fun cb => Out.cmdCall cb none) = [] := by
        rw [seenBy, List.filterMap_eq_nil_iff]
        intro o ho
        obtain ⟨a, _, ha⟩ := List.mem_flatMap.1 ho
        obtain ⟨cb, _, rfl⟩ := List.mem_map.1 ha
        rfl
      rw [h1, List.nil_append]
      rw [lookup_none_iff] at hc
      generalize s.channels = chs at hc
      induction chs with
      | nil => rfl
      | cons y chs ih =>
        obtain ⟨k, d⟩ := y
        simp only [keys, List.map_cons, List.mem_cons, not_or] at hc
        simp only [hardClose, seenBy_append, seenBy_chanOut, if_neg (Ne.symm hc.1), List.nil_append]
        exact ih hc.2
  | poll =>
    simp only [step, Ev.isSocket, if_true, onEvent, syncIdentity]
    split
    · exact ⟨hc, rfl⟩
    · split
      · exact ⟨hc, rfl⟩
      · split <;> exact ⟨hc, rfl⟩
  | other => simp only [step, Ev.isSocket, if_true, onEvent]; split <;> exact ⟨hc, rfl⟩
  | close => exact ⟨hc, rfl⟩
  | addCallback id cb => exact ⟨hc, rfl⟩
  | getChannel m =>
    simp only [mentions] at hm
    simp only [step, Ev.isSocket, Bool.false_eq_true, if_false]
    rw [lookup_getChannel_ne _ _ _ hm]
    exact ⟨hc, rfl⟩
  | chanOp m op =>
    simp only [step, Ev.isSocket, Bool.false_eq_true, if_false]
    split
    · split
      · exact ⟨hc, rfl⟩
      · rename_i hm'
        have hmn : m ≠ n := by rintro rfl; rw [hc] at hm'; simp at hm'
        simp only [lookup_update, seenBy_chanOut, if_neg hmn]
        exact ⟨hc, trivial⟩
    · exact ⟨hc, rfl⟩

theorem run_absent (s hist n) (hc : lookup n s.channels = none) (hf : Fair hist) (hm : ∀ x ∈ hist, ¬ mentions n x.2) :
    lookup n (run s hist).1.channels = none := by
  induction hist generalizing s with
  | nil => exact hc
  | cons x hist ih =>
    exact ih _ (step_absent _ _ _ _ hc (fun data hd => (hf.head data hd).2) (hm x (by simp))).1 hf.tail (fun x hx => hm x (by simp [hx]))

/-! ### Command callbacks -/

/-- The commands callback `cb` is registered for, with multiplicity. -/
def registered (cb : Nat) (t : List (Int × List Nat)) : List Int := t.flatMap fun e => e.2.filterMap fun c => if c = cb then some e.1 else none

theorem filterMap_key (cb : Nat) (i : Int) (cbs : List Nat) :
    (cbs.filterMap fun c => if c = cb then some i else none) = List.replicate (cbs.count cb) i := by
  induction cbs with
  | nil => rfl
  | cons c cbs ih =>
    rw [List.filterMap_cons]
    by_cases h : c = cb
    · subst h; simp [ih, List.replicate_succ]
    · simp [h, ih]

theorem registered_cons (cb i cbs t) : registered cb ((i, cbs) :: t) = List.replicate (cbs.count cb) i ++ registered cb t := by
  simp only [registered, List.flatMap_cons, filterMap_key]

theorem addCb_keys (id cb t) (h : (t.map (·.1)).Nodup) : ((addCb id cb t).map (·.1)).Nodup ∧ ∀ k, k ∈ (addCb id cb t).map (·.1) → k = id ∨ k ∈ t.map (·.1) := by
  induction t with
  | nil => simp [addCb]
  | cons x t ih =>
    obtain ⟨i, cbs⟩ := x
    simp only [List.map_cons, List.nodup_cons] at h
    simp only [addCb]
    split
    · refine ⟨by simpa using h, fun k hk => ?_⟩
      right; simpa using hk
    · rename_i hi
      obtain ⟨h1, h2⟩ := ih h.2
      constructor
      · simp only [List.map_cons, List.nodup_cons]
        refine ⟨fun hk => ?_, h1⟩
        rcases h2 _ hk with h' | h'
        · exact hi h'
        · exact h.1 h'
      · intro k hk
        simp only [List.map_cons, List.mem_cons] at hk ⊢
        rcases hk with hk | hk
        · exact .inr (.inl hk)
        · rcases h2 _ hk with h' | h'
          · exact .inl h'
          · exact .inr (.inr h')

theorem addCb_other (id cb c t) (h : c ≠ cb) : registered cb (addCb id c t) = registered cb t := by
  induction t with
  | nil => simp [addCb, registered, h]
  | cons x t ih =>
    obtain ⟨i, cbs⟩ := x
    simp only [addCb]
    split
    · simp [registered_cons, List.count_append, h]
    · rw [registered_cons, registered_cons, ih]

theorem addCb_fresh (id cb t) (h : registered cb t = []) : registered cb (addCb id cb t) = [id] := by
  induction t with
  | nil => simp [addCb, registered]
  | cons x t ih =>
    obtain ⟨i, cbs⟩ := x
    rw [registered_cons, List.append_eq_nil_iff, List.replicate_eq_nil_iff] at h
    simp only [addCb]
    split
    · rename_i hi; simp [registered_cons, List.count_append, h.1, h.2, hi]
    · rw [registered_cons, h.1, ih h.2]; rfl

/-- Unique keys of the callback table. -/
def CbOk (s : St) : Prop := (s.callbacks.map (·.1)).Nodup

theorem take_keys (id t) : ((takeCallbacks id t).2.map (·.1)).Sublist (t.map (·.1)) := by
  induction t with
  | nil => exact .slnil
  | cons x t ih =>
    obtain ⟨i, cbs⟩ := x
    simp only [takeCallbacks]
    split
    · exact List.sublist_cons_self _ _
    · exact ih.cons_cons _

theorem registered_mem {cb id} {t : List (Int × List Nat)} (h : id ∈ registered cb t) : id ∈ t.map (·.1) := by
  obtain ⟨e, he, h⟩ := List.mem_flatMap.1 h
  obtain ⟨c, _, hc⟩ := List.mem_filterMap.1 h
  split at hc
  · simp only [Option.some.injEq] at hc; subst hc; exact List.mem_map_of_mem he
  · simp at hc

theorem take_registered (cb id t) (h : (t.map (·.1)).Nodup) :
    (id ∉ registered cb (takeCallbacks id t).2 ∧ (registered cb t).Perm (List.replicate ((takeCallbacks id t).1.count cb) id ++ registered cb (takeCallbacks id t).2)) := by
  induction t with
  | nil => simp [takeCallbacks, registered]
  | cons x t ih =>
    obtain ⟨i, cbs⟩ := x
    simp only [List.map_cons, List.nodup_cons] at h
    simp only [takeCallbacks]
    split
    · rename_i hi
      subst hi
      exact ⟨fun hm => h.1 (registered_mem hm), by rw [registered_cons]⟩
    · rename_i hi
      obtain ⟨h1, h2⟩ := ih h.2
      simp only [registered_cons]
      refine ⟨?_, ?_⟩
      · simp only [List.mem_append, List.mem_replicate, not_or]
        exact ⟨fun hm => hi hm.2.symm, h1⟩
      · refine (h2.append_left _).trans ?_
        rw [← List.append_assoc, ← List.append_assoc]
        exact (List.perm_append_comm).append_right _

theorem callsOf_append (cb a b) : callsOf cb (a ++ b) = callsOf cb a ++ callsOf cb b := by simp [callsOf]

theorem callsOf_map (cb : Nat) (cbs : List Nat) (r : Option PyVal) :
    callsOf cb (cbs.map fun c => .cmdCall c r) = List.replicate (cbs.count cb) r := by
  induction cbs with
  | nil => rfl
  | cons c cbs ih =>
    simp only [List.map_cons, callsOf, List.filterMap_cons] at *
    by_cases h : c = cb
    · subst h; simp [ih, List.replicate_succ]
    · simp [h, ih]

theorem callsOf_table (cb : Nat) (t : List (Int × List Nat)) :
    callsOf cb (t.flatMap fun e => e.2.map fun c => .cmdCall c none) = List.replicate (registered cb t).length none := by
  induction t with
  | nil => rfl
  | cons x t ih =>
    obtain ⟨i, cbs⟩ := x
    rw [List.flatMap_cons, callsOf_append, ih, callsOf_map, registered_cons, List.length_append, List.length_replicate,
      List.replicate_append_replicate]

theorem callsOf_chan (cb n os) : callsOf cb (List.flatMap (chanOut n) os) = [] := by
  rw [callsOf, List.filterMap_eq_nil_iff]
  intro o ho
  obtain ⟨a, _, ha⟩ := List.mem_flatMap.1 ho
  cases a <;> simp only [chanOut, Option.mem_toList, Option.map_eq_some_iff, List.mem_singleton] at ha
  all_goals first | (obtain ⟨_, _, rfl⟩ := ha; rfl) | (subst ha; rfl)

theorem callsOf_hardClose (cb chs) : callsOf cb (hardClose chs).2 = [] := by
  induction chs with
  | nil => rfl
  | cons y chs ih => obtain ⟨k, d⟩ := y; simp only [hardClose, callsOf_append, ih, callsOf_chan]; rfl

theorem callsOf_logged (cb) (b : Bool) : callsOf cb (if b then [Out.logged] else []) = [] := by cases b <;> rfl

/-- One event and the command callbacks. -/
theorem step_calls (env s e cb) (hh : s.hung = false) (hk : CbOk s) (hl : ∀ data, e = .binary data → data.length ≤ maxSize) :
    CbOk (step env s e).1 ∧
    ((∃ id c, e = .addCallback id c ∧ (step env s e).1.callbacks = addCb id c s.callbacks ∧ callsOf cb (step env s e).2 = []) ∨
     (e = .disconnected ∧ (step env s e).1.callbacks = s.callbacks ∧ callsOf cb (step env s e).2 = List.replicate (registered cb s.callbacks).length none) ∨
     (∃ id r, e.responds id r ∧ (step env s e).1.callbacks = (takeCallbacks id s.callbacks).2 ∧
        callsOf cb (step env s e).2 = List.replicate ((takeCallbacks id s.callbacks).1.count cb) (some r)) ∨
     ((∀ id c, e ≠ .addCallback id c) ∧ e ≠ .disconnected ∧ (∀ id r, ¬ e.responds id r) ∧ (step env s e).1.callbacks = s.callbacks ∧ callsOf cb (step env s e).2 = [])) := by
  cases e with
  | addCallback id c => exact ⟨(addCb_keys id c _ hk).1, .inl ⟨id, c, rfl, rfl, rfl⟩⟩
  | disconnected =>
    simp only [step, Ev.isSocket, if_true, hh, Bool.false_eq_true, if_false, onEvent]
    refine ⟨hk, .inr (.inl ⟨trivial, trivial, ?_⟩)⟩
    rw [callsOf_append, callsOf_table, callsOf_hardClose, List.append_nil]
  | binary data =>
    have hl := hl data rfl
    simp only [step, Ev.isSocket, if_true, hh, Bool.false_eq_true, if_false, onEvent]
    have hno : (∀ args, onBinary data ≠ .call 100 args) → ∀ id r, ¬ (Ev.binary data).responds id r := by
      rintro h id r ⟨data', he, hr⟩
      simp only [Ev.binary.injEq] at he
      subst he
      exact h _ (response_call hl hr)
    split
    · rename_i hb; exact ⟨hk, .inr (.inr (.inr ⟨by simp, by simp, hno (by simp [hb]), rfl, rfl⟩))⟩
    · rename_i hb; exact ⟨hk, .inr (.inr (.inr ⟨by simp, by simp, hno (by simp [hb]), rfl, rfl⟩))⟩
    · rename_i hb; exact ⟨hk, .inr (.inr (.inr ⟨by simp, by simp, hno (by simp [hb]), rfl, rfl⟩))⟩
    · rename_i num args hb
      simp only [callsOf_append, callsOf_logged, List.append_nil]
      by_cases h100 : num = 100
      · subst h100
        obtain ⟨id, r, rfl, hr⟩ := call_response hl hb
        simp only [handle]
        exact ⟨hk.sublist (take_keys _ _), .inr (.inr (.inl ⟨id, .dict r, ⟨data, rfl, hr⟩, rfl, callsOf_map _ _ _⟩))⟩
      · obtain ⟨h1, h2⟩ := handle_callbacks env s num args h100 cb
        refine ⟨by unfold CbOk; rw [h1]; exact hk, .inr (.inr (.inr ⟨by simp, by simp, hno (by simp [hb, h100]), h1, h2⟩))⟩
  | ready =>
    simp only [step, Ev.isSocket, if_true, hh, Bool.false_eq_true, if_false, onEvent]
    split <;> split <;> exact ⟨hk, .inr (.inr (.inr ⟨by simp, by simp, by simp [Ev.responds], rfl, rfl⟩))⟩
  | poll =>
    simp only [step, Ev.isSocket, if_true, hh, Bool.false_eq_true, if_false, onEvent, syncIdentity]
    split
    · exact ⟨hk, .inr (.inr (.inr ⟨by simp, by simp, by simp [Ev.responds], rfl, rfl⟩))⟩
    · split <;> exact ⟨hk, .inr (.inr (.inr ⟨by simp, by simp, by simp [Ev.responds], rfl, rfl⟩))⟩
  | other =>
    simp only [step, Ev.isSocket, if_true, hh, Bool.false_eq_true, if_false, onEvent]
    exact ⟨hk, .inr (.inr (.inr ⟨by simp, by simp, by simp [Ev.responds], trivial, rfl⟩))⟩
  | close => exact ⟨hk, .inr (.inr (.inr ⟨by simp, by simp, by simp [Ev.responds], rfl, rfl⟩))⟩
  | getChannel n => exact ⟨hk, .inr (.inr (.inr ⟨by simp, by simp, by simp [Ev.responds], rfl, rfl⟩))⟩
  | chanOp n op =>
    simp only [step, Ev.isSocket, Bool.false_eq_true, if_false]
    split
    · split
      · exact ⟨hk, .inr (.inr (.inr ⟨by simp, by simp, by simp [Ev.responds], rfl, rfl⟩))⟩
      · exact ⟨hk, .inr (.inr (.inr ⟨by simp, by simp, by simp [Ev.responds], rfl, callsOf_chan _ _ _⟩))⟩
    · exact ⟨hk, .inr (.inr (.inr ⟨by simp, by simp, by simp [Ev.responds], rfl, rfl⟩))⟩

theorem run_CbOk (s hist) (hh : s.hung = false) (hk : CbOk s) (hf : Fair hist) : CbOk (run s hist).1 := by
  induction hist generalizing s with
  | nil => exact hk
  | cons x hist ih =>
    refine ih _ ?_ (step_calls x.1 s x.2 0 hh hk (fun data hd => (hf.head data hd).2)).1 hf.tail
    rw [step_hung _ _ _ (fun data hd => (hf.head data hd).1)]; exact hh

theorem replicate_perm_nil {n : Nat} {id : Int} {l : List Int} (h : ([] : List Int).Perm (List.replicate n id ++ l)) : n = 0 ∧ l = [] := by
  have := h.nil_eq
  cases n with
  | zero => exact ⟨rfl, by simpa using this.symm⟩
  | succ n => simp [List.replicate_succ] at this

/-- A callback that is not registered is not called. -/
theorem run_calls_none (s hist cb) (hh : s.hung = false) (hk : CbOk s) (hf : Fair hist) (hr : registered cb s.callbacks = [])
    (ha : ∀ x ∈ hist, ∀ id, x.2 ≠ .addCallback id cb) : callsOf cb (run s hist).2 = [] ∧ registered cb (run s hist).1.callbacks = [] := by
  induction hist generalizing s with
  | nil => exact ⟨rfl, hr⟩
  | cons x hist ih =>
    have hx := step_calls x.1 s x.2 cb hh hk (fun data hd => (hf.head data hd).2)
    have hh' : (step x.1 s x.2).1.hung = false := by rw [step_hung _ _ _ (fun data hd => (hf.head data hd).1)]; exact hh
    have key : registered cb (step x.1 s x.2).1.callbacks = [] ∧ callsOf cb (step x.1 s x.2).2 = [] := by
      rcases hx.2 with ⟨id, c, he, h1, h2⟩ | ⟨_, h1, h2⟩ | ⟨id, r, _, h1, h2⟩ | ⟨_, _, _, h1, h2⟩
      · have hc : c ≠ cb := by rintro rfl; exact ha x (by simp) id he
        rw [h1, addCb_other _ _ _ _ hc]; exact ⟨hr, h2⟩
      · rw [h1, h2, hr]; exact ⟨rfl, rfl⟩
      · obtain ⟨_, hp⟩ := take_registered cb id s.callbacks hk
        rw [hr] at hp
        obtain ⟨h3, h4⟩ := replicate_perm_nil hp
        rw [h1, h2, h3, h4]; exact ⟨rfl, rfl⟩
      · rw [h1]; exact ⟨hr, h2⟩
    have := ih _ hh' hx.1 hf.tail key.1 (fun x hx => ha x (by simp [hx]))
    simp only [run, callsOf_append, key.2, this.1]
    exact ⟨rfl, this.2⟩

/-- The calls of a callback registered once. -/
theorem run_calls (s hist cb id) (hh : s.hung = false) (hk : CbOk s) (hf : Fair hist) (hr : registered cb s.callbacks = [id])
    (ha : ∀ x ∈ hist, ∀ id, x.2 ≠ .addCallback id cb) : callsOf cb (run s hist).2 = callsMade id (hist.map (·.2)) := by
  induction hist generalizing s with
  | nil => rfl
  | cons x hist ih =>
    obtain ⟨env, e⟩ := x
    have hx := step_calls env s e cb hh hk (fun data hd => (hf.head data hd).2)
    have hh' : (step env s e).1.hung = false := by rw [step_hung _ _ _ (fun data hd => (hf.head data hd).1)]; exact hh
    have ha' : ∀ x ∈ hist, ∀ id, x.2 ≠ .addCallback id cb := fun x hx => ha x (by simp [hx])
    simp only [run, callsOf_append, List.map_cons]
    rcases hx.2 with ⟨i, c, he, h1, h2⟩ | ⟨he, h1, h2⟩ | ⟨i, r, he, h1, h2⟩ | ⟨hn1, hn2, hn3, h1, h2⟩
    · have hc : c ≠ cb := by rintro rfl; exact ha (env, e) (by simp) i he
      rw [h2, ih _ hh' hx.1 hf.tail (by rw [h1, addCb_other _ _ _ _ hc]; exact hr) ha', he]
      rfl
    · rw [h2, ih _ hh' hx.1 hf.tail (by rw [h1]; exact hr) ha', he, hr]
      rfl
    · obtain ⟨hni, hp⟩ := take_registered cb i s.callbacks hk
      obtain ⟨data, he, hresp⟩ := he
      subst he
      rw [hr] at hp
      by_cases hi : i = id
      · subst hi
        have hcount : (takeCallbacks i s.callbacks).1.count cb = 1 ∧ registered cb (takeCallbacks i s.callbacks).2 = [] := by
          cases hreg : registered cb (takeCallbacks i s.callbacks).2 with
          | nil =>
            rw [hreg, List.append_nil] at hp
            have := hp.length_eq
            simpa using this.symm
          | cons a l =>
            exfalso
            have hm : a ∈ [i] := hp.mem_iff.2 (by simp [hreg])
            simp only [List.mem_singleton] at hm
            subst hm
            rw [hreg] at hni
            simp at hni
        rw [h2, hcount.1, (run_calls_none _ _ _ hh' hx.1 hf.tail (by rw [h1]; exact hcount.2) ha').1]
        simp [callsMade, hresp]
      · have hcount : (takeCallbacks i s.callbacks).1.count cb = 0 := by
          cases hc : (takeCallbacks i s.callbacks).1.count cb with
          | zero => rfl
          | succ k =>
            rw [hc] at hp
            have hm : i ∈ [id] := hp.mem_iff.2 (by simp [List.replicate_succ])
            simp only [List.mem_singleton] at hm
            exact absurd hm hi
        rw [hcount] at hp
        simp only [List.replicate_zero, List.nil_append] at hp
        rw [h2, hcount, ih _ hh' hx.1 hf.tail (by rw [h1]; exact (List.singleton_perm.1 hp).symm) ha']
        simp [callsMade, hresp, hi]
    · rw [h2, ih _ hh' hx.1 hf.tail (by rw [h1]; exact hr) ha']
      cases e with
      | addCallback i c => exact absurd rfl (hn1 i c)
      | disconnected => exact absurd rfl hn2
      | binary data =>
        have : response data = none := by
          cases hresp : response data with
          | none => rfl
          | some p => exact absurd ⟨data, rfl, hresp⟩ (hn3 p.1 p.2)
        simp [callsMade, this]
      | _ => rfl

theorem callsMade_nil (id es) (hd : .disconnected ∉ es) (hr : ∀ e ∈ es, ∀ r, ¬ Ev.responds e id r) : callsMade id es = [] := by
  induction es with
  | nil => rfl
  | cons e es ih =>
    have ih := ih (fun h => hd (by simp [h])) (fun e he => hr e (by simp [he]))
    cases e with
    | disconnected => simp at hd
    | binary data =>
      simp only [callsMade]
      split
      · rename_i i r hi
        split
        · rename_i he; subst he; exact absurd ⟨data, rfl, hi⟩ (hr (.binary data) (by simp) r)
        · exact ih
      · exact ih
    | _ => exact ih

end Verif.WSClient
