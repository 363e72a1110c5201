import Verif.Props.WSClient
import Verif.Spec.OpenChannels
/-!
C175: `open_channels`.
-/
namespace Verif.WSClient
open Verif Packets Dispatcher

/-! ### Helper lemmas -/

theorem mem_lookup {n : Int} {c : Channel.Ch} {chs : List (Int × Channel.Ch)} (h : (keys chs).Nodup) : (n, c) ∈ chs ↔ lookup n chs = some c := by
  induction chs with
  | nil => simp [lookup]
  | cons x chs ih =>
    obtain ⟨m, d⟩ := x
    simp only [keys, List.map_cons, List.nodup_cons] at h
    simp only [List.mem_cons, Prod.mk.injEq, lookup]
    by_cases hm : m = n
    · subst hm
      rw [if_pos rfl]
      constructor
      · rintro (⟨-, rfl⟩ | hx)
        · rfl
        · exact absurd (List.mem_map.2 ⟨_, hx, rfl⟩) h.1
      · intro hx; injection hx with hx; exact .inl ⟨rfl, hx.symm⟩
    · rw [if_neg hm, ← ih h.2]
      constructor
      · rintro (⟨rfl, -⟩ | hx)
        · exact absurd rfl hm
        · exact hx
      · exact .inr

theorem mem_open {n : Int} {s : St} : n ∈ openChannels s ↔ ∃ c, lookup n s.channels = some c := by
  have := lookup_none_iff n s.channels
  cases h : lookup n s.channels with
  | none =>
    rw [h] at this
    simp only [reduceCtorEq, exists_false, iff_false]
    exact this.1 rfl
  | some c =>
    simp only [Option.some.injEq, exists_eq', iff_true]
    refine Classical.byContradiction fun hn => ?_
    rw [this.2 hn] at h
    exact nomatch h

theorem channel_closed (c : Channel.Ch) (op : Channel.Op) : (Channel.step c op).1.closed = true ↔ c.closed = true ∨ op = .onClose := by
  cases op <;> simp only [Channel.step, reduceCtorEq, or_false, or_true, iff_true] <;> (repeat' split) <;> simp_all [Channel.readNow]

theorem ops_closed (n : Int) (e : Ev) (c : Channel.Ch) : (Channel.run c (opsFor n e)).1.closed = true ↔ c.closed = true ∨ e = .disconnected := by
  have none_ : opsFor n e = [] → e ≠ .disconnected → ((Channel.run c (opsFor n e)).1.closed = true ↔ c.closed = true ∨ e = .disconnected) := by
    intro h he; rw [h]; simp [Channel.run, he]
  have one : ∀ op, opsFor n e = [op] → op ≠ .onClose → e ≠ .disconnected →
      ((Channel.run c (opsFor n e)).1.closed = true ↔ c.closed = true ∨ e = .disconnected) := by
    intro op h ho he; rw [h]; simp [Channel.run, he, channel_closed, ho]
  cases e with
  | disconnected => simp [opsFor, Channel.run, channel_closed]
  | binary data =>
    by_cases h : opsFor n (.binary data) = []
    · exact none_ h (fun h => nomatch h)
    · simp only [opsFor] at h
      split at h
      · rename_i hd
        split at h
        · rename_i hm
          exact one (.data _) (by rw [opsFor_6 hd, if_pos hm]) (fun h => nomatch h) (fun h => nomatch h)
        · exact absurd rfl h
      · rename_i hd
        split at h
        · rename_i hm
          exact one (.control _) (by rw [opsFor_21 hd, if_pos hm]) (fun h => nomatch h) (fun h => nomatch h)
        · exact absurd rfl h
      · exact absurd rfl h
  | chanOp m op =>
    by_cases hm : m = n ∧ serviceOp op = true
    · exact one op (by simp [opsFor, hm]) (by rintro rfl; exact nomatch hm.2) (fun h => nomatch h)
    · exact none_ (by simp only [opsFor, if_neg hm]) (fun h => nomatch h)
  | _ => exact none_ rfl (fun h => nomatch h)

theorem step_closes {env : Env} {s : St} {n : Int} {data : Bytes} (hh : s.hung = false) (hk : (keys s.channels).Nodup) (hl : data.length ≤ maxSize)
    (h : closes n data) : lookup n (step env s (.binary data)).1.channels = none := by
  simp only [step, Ev.isSocket, if_true, hh, Bool.false_eq_true, if_false, onEvent, (closes_call hl n).1 h, handle]
  split
  · assumption
  · exact lookup_remove_self _ _ hk

theorem step_mentions {env : Env} {s : St} {n : Int} {e : Ev} (hh : s.hung = false) (hc : lookup n s.channels = none)
    (hl : ∀ data, e = .binary data → data.length ≤ maxSize) (hm : mentions n e) :
    ∃ c, lookup n (step env s e).1.channels = some c ∧ c.closed = false := by
  have hg : getChannel n s.channels = (s.channels ++ [(n, ({} : Channel.Ch))], ({} : Channel.Ch)) := by simp [getChannel, hc]
  have hself : lookup n (getChannel n s.channels).1 = some ({} : Channel.Ch) := by rw [lookup_getChannel_self, hg]
  cases e with
  | getChannel m =>
    have hm : m = n := hm
    subst hm
    exact ⟨({} : Channel.Ch), hself, rfl⟩
  | binary data =>
    have hl := hl data rfl
    rcases hm with hm | hm
    · simp only [opsFor] at hm
      split at hm
      · rename_i m d r hd
        by_cases hmn : m = n
        · subst hmn
          have hb := chan_call hl (.inl rfl) hd
          simp only [step, Ev.isSocket, if_true, hh, Bool.false_eq_true, if_false, onEvent, hb, handle, lookup_update, hself]
          refine ⟨_, rfl, ?_⟩
          rw [hg]
          rfl
        · rw [if_neg hmn] at hm; exact absurd rfl hm
      · rename_i m d r hd
        by_cases hmn : m = n
        · subst hmn
          have hb := chan_call hl (.inr rfl) hd
          simp only [step, Ev.isSocket, if_true, hh, Bool.false_eq_true, if_false, onEvent, hb, handle, lookup_update, hself]
          refine ⟨_, rfl, ?_⟩
          rw [hg]
          rfl
        · rw [if_neg hmn] at hm; exact absurd rfl hm
      · exact absurd rfl hm
    · simp only [step, Ev.isSocket, if_true, hh, Bool.false_eq_true, if_false, onEvent, (opens_call hl n).1 hm, handle]
      exact ⟨({} : Channel.Ch), hself, rfl⟩
  | _ => exact absurd hm (fun h => h)

theorem mentions_not_closes {n : Int} {data : Bytes} (hl : data.length ≤ maxSize) (hm : mentions n (.binary data)) : ¬ closes n data := by
  intro hc
  have hc := (closes_call hl n).1 hc
  rcases hm with hm | hm
  · simp only [opsFor] at hm
    split at hm
    · rename_i hd
      rw [chan_call hl (.inl rfl) hd] at hc
      injection hc with hc
      exact nomatch hc
    · rename_i hd
      rw [chan_call hl (.inr rfl) hd] at hc
      injection hc with hc
      exact nomatch hc
    · exact hm rfl
  · rw [(opens_call hl n).1 hm] at hc
    injection hc with hc
    exact nomatch hc

/-- One event: whether the channel is listed, and whether it is closed, afterwards. -/
theorem step_phase (env : Env) (s : St) (e : Ev) (n : Int) (hh : s.hung = false) (hk : (keys s.channels).Nodup)
    (hl : ∀ data, e = .binary data → data.length ≤ maxSize) :
    ((∃ c, lookup n (step env s e).1.channels = some c) ↔
      (∃ c, lookup n s.channels = some c) ∧ (∀ data, e = .binary data → ¬ closes n data) ∨ mentions n e) ∧
    ((∃ c, lookup n (step env s e).1.channels = some c ∧ c.closed = true) ↔
      (∃ c, lookup n s.channels = some c ∧ (c.closed = true ∨ e = .disconnected)) ∧ (∀ data, e = .binary data → ¬ closes n data)) := by
  by_cases hcl : ∀ data, e = .binary data → ¬ closes n data
  · cases hc : lookup n s.channels with
    | some c =>
      have h1 := (step_channel env s e n c hh hk hc hl hcl).1
      rw [h1]
      simp only [Option.some.injEq, exists_eq', true_and, exists_eq_left', ops_closed]
      exact ⟨⟨fun _ => .inl hcl, fun _ => trivial⟩, ⟨fun h => ⟨h, hcl⟩, fun h => h.1⟩⟩
    | none =>
      simp only [reduceCtorEq, false_and, exists_false, false_or, iff_false, not_exists]
      by_cases hm : mentions n e
      · obtain ⟨c, h1, h2⟩ := step_mentions (env := env) hh hc hl hm
        refine ⟨⟨fun _ => hm, fun _ => ⟨c, h1⟩⟩, ?_⟩
        rintro c' ⟨h3, h4⟩
        rw [h1] at h3
        injection h3 with h3
        subst h3
        rw [h2] at h4
        exact nomatch h4
      · have := (step_absent env s e n hc hl hm).1
        rw [this]
        refine ⟨⟨fun ⟨_, h⟩ => (nomatch h), fun h => absurd h hm⟩, ?_⟩
        rintro c' ⟨h3, h4⟩
        exact nomatch h3
  · have ⟨data, hcl'⟩ := Classical.not_forall.1 hcl
    have ⟨he, hx⟩ := Classical.not_imp.1 hcl'
    have hx := Classical.not_not.1 hx
    subst he
    rw [step_closes hh hk (hl data rfl) hx]
    refine ⟨⟨fun ⟨_, h⟩ => (nomatch h), ?_⟩, ⟨fun ⟨_, h, _⟩ => (nomatch h), fun h => absurd h.2 hcl⟩⟩
    rintro (h | h)
    · exact absurd h.2 hcl
    · exact absurd hx (mentions_not_closes (hl data rfl) h)

theorem kept_cons {n : Int} {x : Env × Ev} {hist : List (Env × Ev)} :
    Kept n (x :: hist) ↔ (∀ data, x.2 = .binary data → ¬ closes n data) ∧ Kept n hist := by
  constructor
  · exact fun h => ⟨h x List.mem_cons_self, fun y hy => h y (List.mem_cons_of_mem _ hy)⟩
  · rintro ⟨h1, h2⟩ y hy
    rcases List.mem_cons.1 hy with rfl | hy
    · exact h1
    · exact h2 y hy

theorem kept_append {n : Int} {a b : List (Env × Ev)} : Kept n (a ++ b) ↔ Kept n a ∧ Kept n b := by
  constructor
  · exact fun h => ⟨fun y hy => h y (List.mem_append_left _ hy), fun y hy => h y (List.mem_append_right _ hy)⟩
  · rintro ⟨h1, h2⟩ y hy
    rcases List.mem_append.1 hy with hy | hy
    · exact h1 y hy
    · exact h2 y hy

theorem namedIn_cons {n : Int} {x : Env × Ev} {hist : List (Env × Ev)} :
    NamedIn n (x :: hist) ↔ mentions n x.2 ∧ Kept n hist ∨ NamedIn n hist := by
  constructor
  · rintro ⟨h1, y, h2, e, hm, hk⟩
    cases h1 with
    | nil =>
      simp only [List.nil_append, List.cons.injEq] at e
      obtain ⟨rfl, rfl⟩ := e
      exact .inl ⟨hm, hk⟩
    | cons z h1 =>
      simp only [List.cons_append, List.cons.injEq] at e
      exact .inr ⟨h1, y, h2, e.2, hm, hk⟩
  · rintro (⟨hm, hk⟩ | ⟨h1, y, h2, e, hm, hk⟩)
    · exact ⟨[], x, hist, rfl, hm, hk⟩
    · exact ⟨x :: h1, y, h2, by rw [e]; rfl, hm, hk⟩

theorem not_namedIn_nil {n : Int} : ¬ NamedIn n [] := by
  rintro ⟨h1, x, h2, e, -⟩
  cases h1 <;> exact nomatch e

theorem lostIn_cons {n : Int} {x : Env × Ev} {hist : List (Env × Ev)} :
    LostIn n (x :: hist) ↔ (mentions n x.2 ∧ Kept n hist ∧ ∃ env, (env, Ev.disconnected) ∈ hist) ∨ LostIn n hist := by
  constructor
  · rintro ⟨h1, env, h2, e, hm, hk⟩
    cases h1 with
    | nil => exact absurd hm not_namedIn_nil
    | cons z h1 =>
      simp only [List.cons_append, List.cons.injEq] at e
      obtain ⟨rfl, rfl⟩ := e
      rcases namedIn_cons.1 hm with ⟨hm, hk1⟩ | hm
      · refine .inl ⟨hm, kept_append.2 ⟨hk1, kept_cons.2 ⟨fun _ h => (nomatch h), hk⟩⟩, env, ?_⟩
        simp
      · exact .inr ⟨h1, env, h2, rfl, hm, hk⟩
  · rintro (⟨hm, hk, env, he⟩ | ⟨h1, env, h2, e, hm, hk⟩)
    · obtain ⟨h1, h2, rfl⟩ := List.append_of_mem he
      have := kept_append.1 hk
      exact ⟨x :: h1, env, h2, rfl, namedIn_cons.2 (.inl ⟨hm, this.1⟩), (kept_cons.1 this.2).2⟩
    · exact ⟨x :: h1, env, h2, by rw [e]; rfl, namedIn_cons.2 (.inr hm), hk⟩

theorem run_phase (hist : List (Env × Ev)) (hf : Fair hist) (s : St) (n : Int) (hh : s.hung = false) (hk : (keys s.channels).Nodup) :
    ((∃ c, lookup n (run s hist).1.channels = some c) ↔ (∃ c, lookup n s.channels = some c) ∧ Kept n hist ∨ NamedIn n hist) ∧
    ((∃ c, lookup n (run s hist).1.channels = some c ∧ c.closed = true) ↔
      (∃ c, lookup n s.channels = some c ∧ (c.closed = true ∨ ∃ env, (env, Ev.disconnected) ∈ hist)) ∧ Kept n hist ∨ LostIn n hist) := by
  induction hist generalizing s with
  | nil =>
    have hkn : Kept n [] := fun _ h => nomatch h
    have hln : ¬ LostIn n [] := by rintro ⟨h1, env, h2, e, -⟩; cases h1 <;> exact nomatch e
    simp [run, hkn, hln, not_namedIn_nil]
  | cons x hist ih =>
    obtain ⟨env, e⟩ := x
    have hl : ∀ data, e = .binary data → data.length ≤ maxSize := fun data hd => (hf.head data hd).2
    obtain ⟨p1, p2⟩ := step_phase env s e n hh hk hl
    obtain ⟨q1, q2⟩ := ih hf.tail (step env s e).1 (by rw [step_hung _ _ _ (fun data hd => (hf.head data hd).1)]; exact hh) (step_keys _ _ _ hk hl)
    simp only [run]
    refine ⟨?_, ?_⟩
    · rw [q1, p1, namedIn_cons, kept_cons]
      constructor
      · rintro (⟨⟨h1, h2⟩ | h1, h3⟩ | h1)
        · exact .inl ⟨h1, h2, h3⟩
        · exact .inr (.inl ⟨h1, h3⟩)
        · exact .inr (.inr h1)
      · rintro (⟨h1, h2, h3⟩ | ⟨h1, h3⟩ | h1)
        · exact .inl ⟨.inl ⟨h1, h2⟩, h3⟩
        · exact .inl ⟨.inr h1, h3⟩
        · exact .inr h1
    · rw [q2, lostIn_cons, kept_cons]
      have key : (∃ c, lookup n (step env s e).1.channels = some c ∧ (c.closed = true ∨ ∃ env, (env, Ev.disconnected) ∈ hist)) ↔
          (∃ c, lookup n s.channels = some c ∧ (c.closed = true ∨ ∃ env', (env', Ev.disconnected) ∈ (env, e) :: hist)) ∧
            (∀ data, e = .binary data → ¬ closes n data) ∨ mentions n e ∧ ∃ env, (env, Ev.disconnected) ∈ hist := by
        constructor
        · rintro ⟨c, h1, h2 | h2⟩
          · obtain ⟨⟨c', h3, h4⟩, h5⟩ := p2.1 ⟨c, h1, h2⟩
            refine .inl ⟨⟨c', h3, h4.imp id ?_⟩, h5⟩
            rintro rfl
            exact ⟨env, List.mem_cons_self⟩
          · rcases p1.1 ⟨c, h1⟩ with ⟨⟨c', h3⟩, h4⟩ | h3
            · exact .inl ⟨⟨c', h3, .inr (h2.imp fun _ h => List.mem_cons_of_mem _ h)⟩, h4⟩
            · exact .inr ⟨h3, h2⟩
        · rintro (⟨⟨c, h1, h2⟩, h3⟩ | ⟨h1, h2⟩)
          · have hq : c.closed = true ∨ e = .disconnected ∨ ∃ env, (env, Ev.disconnected) ∈ hist := by
              rcases h2 with h2 | ⟨env', h2⟩
              · exact .inl h2
              · rcases List.mem_cons.1 h2 with h2 | h2
                · injection h2 with _ h2
                  exact .inr (.inl h2.symm)
                · exact .inr (.inr ⟨env', h2⟩)
            rcases hq with h2 | h2 | h2
            · obtain ⟨c', h4, h5⟩ := p2.2 ⟨⟨c, h1, .inl h2⟩, h3⟩
              exact ⟨c', h4, .inl h5⟩
            · obtain ⟨c', h4, h5⟩ := p2.2 ⟨⟨c, h1, .inr h2⟩, h3⟩
              exact ⟨c', h4, .inl h5⟩
            · obtain ⟨c', h4⟩ := p1.2 (.inl ⟨⟨c, h1⟩, h3⟩)
              exact ⟨c', h4, .inr h2⟩
          · obtain ⟨c', h4⟩ := p1.2 (.inr h1)
            exact ⟨c', h4, .inr h2⟩
      rw [key]
      constructor
      · rintro (⟨⟨h1, h2⟩ | ⟨h1, h2⟩, h3⟩ | h1)
        · exact .inl ⟨h1, h2, h3⟩
        · exact .inr (.inl ⟨h1, h3, h2⟩)
        · exact .inr (.inr h1)
      · rintro (⟨h1, h2, h3⟩ | ⟨h1, h3, h2⟩ | h1)
        · exact .inl ⟨.inl ⟨h1, h2⟩, h3⟩
        · exact .inl ⟨.inr ⟨h1, h2⟩, h3⟩
        · exact .inr h1

/-! ### C175 -/

/-- C175: the numbers in `open_channels` are those that a message or a service named after the server last said that the channel is closed. -/
theorem c175_listed (hist : List (Env × Ev)) (hf : Fair hist) (n : Int) : n ∈ openChannels (run {} hist).1 ↔ NamedIn n hist := by
  rw [mem_open, (run_phase hist hf {} n rfl (by simp [keys])).1]
  simp [lookup]

/-- C175, exactly which of the listed channels are closed: those that were there when a connection ended, and that the server has not closed since. -/
theorem c175_iff (hist : List (Env × Ev)) (hf : Fair hist) (n : Int) : isClosed n (run {} hist).1 ↔ LostIn n hist := by
  have hk : (keys (run {} hist).1.channels).Nodup := run_keys {} hist (by simp [keys]) hf
  have : isClosed n (run {} hist).1 ↔ ∃ c, lookup n (run {} hist).1.channels = some c ∧ c.closed = true :=
    exists_congr fun c => and_congr_left' (mem_lookup hk)
  rw [this, (run_phase hist hf {} n rfl (by simp [keys])).2]
  simp [lookup]

/-- C175, the part that holds: as long as the connection has not ended, all channels in `open_channels` are open.  Missing for the full property: the end of
a connection (`c175_iff`, `c175_counterexample`). -/
theorem c175_partial (hist : List (Env × Ev)) (hf : Fair hist) (hd : ∀ x ∈ hist, x.2 ≠ .disconnected) (n : Int) : ¬ isClosed n (run {} hist).1 := by
  rw [c175_iff hist hf]
  rintro ⟨h1, env, h2, rfl, -⟩
  exact hd _ (List.mem_append_right _ List.mem_cons_self) rfl

/-- C175: the end of a connection removes no number from `open_channels` and none of the data that waits there, whether anybody will read it or not. -/
theorem c175_disconnect (env : Env) (s : St) : openChannels (step env s .disconnected).1 = openChannels s ∧ waiting (step env s .disconnected).1 = waiting s := by
  simp only [step, Ev.isSocket, if_true]
  split
  · exact ⟨rfl, rfl⟩
  · simp only [onEvent]
    refine ⟨hardClose_keys s.channels, ?_⟩
    simp only [waiting]
    generalize s.channels = chs
    induction chs with
    | nil => rfl
    | cons x chs ih =>
      obtain ⟨n, c⟩ := x
      simp only [hardClose, List.map_cons, List.sum_cons, ih]
      congr 1
      simp only [Channel.step]
      split <;> rfl

theorem ab_call : onBinary (asc "li6ei1e2:abe") = .call 6 [.int 1, .bytes (asc "ab")] := by decide +kernel

theorem run_ab (k : Nat) (ds : List Bytes) : ∃ ds', (run { channels := [(1, { deque := ds, event := true })] } (List.replicate k ({}, .binary (asc "li6ei1e2:abe")))).1 =
    { channels := [(1, { deque := ds', event := true })] } ∧ ds'.flatten.length = ds.flatten.length + 2 * k := by
  induction k generalizing ds with
  | zero => exact ⟨ds, rfl, rfl⟩
  | succ k ih =>
    obtain ⟨ds', h1, h2⟩ := ih (ds ++ [asc "ab"])
    refine ⟨ds', ?_, ?_⟩
    · rw [← h1]
      simp only [List.replicate_succ, run, step, Ev.isSocket, if_true, Bool.false_eq_true, if_false, onEvent, ab_call, handle, getChannel, lookup,
        Channel.step, update]
    · rw [h2]
      have : (asc "ab").length = 2 := by decide +kernel
      simp only [List.flatten_append, List.length_append, List.flatten_cons, List.flatten_nil, List.append_nil, this]
      omega

/-- C175 fails without bound: the data that the client keeps for connections that have ended grows with every one of them, and no number of bytes is the
limit. -/
theorem c175_unbounded (limit : Nat) : ∃ hist : List (Env × Ev), Fair (hist ++ [(({} : Env), Ev.disconnected)]) ∧ limit ≤ waiting (run {} (hist ++ [(({} : Env), Ev.disconnected)])).1 := by
  refine ⟨List.replicate (limit + 1) ({}, .binary (asc "li6ei1e2:abe")), ?_, ?_⟩
  · intro x hx data hd
    rcases List.mem_append.1 hx with hx | hx
    · rw [List.eq_of_mem_replicate hx] at hd
      injection hd with hd
      subst hd
      exact ⟨by unfold Hangs; decide +kernel, by decide +kernel⟩
    · rw [List.mem_singleton.1 hx] at hd
      exact nomatch hd
  · rw [run_append]
    simp only [run]
    rw [(c175_disconnect _ _).2]
    have h0 : (run {} (List.replicate (limit + 1) ({}, .binary (asc "li6ei1e2:abe")))).1 =
        (run { channels := [(1, { deque := [asc "ab"], event := true })] } (List.replicate limit ({}, .binary (asc "li6ei1e2:abe")))).1 := by
      simp only [List.replicate_succ, run, step, Ev.isSocket, if_true, Bool.false_eq_true, if_false, onEvent, ab_call, handle, getChannel, lookup,
        Channel.step, update, List.nil_append]
    obtain ⟨ds', h1, h2⟩ := run_ab limit [asc "ab"]
    rw [h0, h1]
    simp only [waiting, List.map_cons, List.map_nil, List.sum_cons, List.sum_nil, h2]
    omega

/-- C175 fails: a message for channel 1 and the loss of the connection leave channel 1 in `open_channels`, closed, with its data, also when a new
connection was made. -/
theorem c175_counterexample :
    let s := (run {} [({}, .binary (asc "li6ei1e2:abe")), ({}, .disconnected), ({}, .ready)]).1
    openChannels s = [1] ∧ (lookup 1 s.channels).map (·.closed) = some true ∧ waiting s = 2 := by decide +kernel

end Verif.WSClient
