import Verif.Spec.Slots
import Verif.Proofs.Opening
/-! Lemmas for C145. -/
namespace Verif.Slots
open Verif WSClient
open _root_.Verif.Instructions (World Op Done perform instruct react Asks BytesKeys requestOf requestIn passedOn isRequest)
open _root_.Verif.Opening (localServices Sent)

theorem usable_iff (p : PyVal) : Usable p ↔ Bencode.hashable p = true := by
  cases p <;> simp [Usable, Bencode.hashable]

theorem fourth_iff (r p : PyVal) : Fourth r p ↔ fourth r = some p := by
  constructor
  · rintro (_ | _ | _ | _ | _) <;> rfl
  · intro h
    unfold fourth at h
    split at h <;> first | (injection h with h; subst h; constructor) | exact nomatch h

theorem known_iff (v : PyVal) : known v = true ↔ ∃ name port, (name, port) ∈ localServices ∧ v = .text name.toList := by
  constructor
  · intro h
    cases v with
    | text name =>
      apply Classical.byContradiction
      intro hn
      have : PortForward.getService Opening.services name = none := by
        refine Opening.services_unknown fun x hx he => hn ⟨x.1, x.2, hx, by rw [he]⟩
      simp only [known, this] at h
      exact nomatch h
    | _ => exact nomatch h
  · rintro ⟨name, port, hm, rfl⟩
    obtain ⟨svc, h, _⟩ := Opening.services_known hm
    simp only [known, h]; rfl

/-- The operations that start a thread are those whose effect needs a slot. -/
theorem starts_iff (w : World) (op : Op) (k : Kind) : Starts w op k ↔ ∃ x, perform w op = .ok [x] ∧ need x = some k := by
  constructor
  · intro h
    cases h with
    | terminal hn hp =>
      rename_i name port size
      refine ⟨.launched name port size, ?_, rfl⟩
      have := (usable_iff _).1 hp
      have h0 : Bencode.hashable (.text name) = true := rfl
      simp only [perform, h0, if_true, if_pos hn, Instructions.channelFor, this]
      rfl
    | forward hw hm hf hp =>
      rename_i name l route p
      refine ⟨.forwarded (.text name.toList) route, ?_, ?_⟩
      · simp only [perform, hw, if_true]
      · simp only [need, (fourth_iff _ _).1 hf, (known_iff _).2 ⟨_, _, hm, rfl⟩, (usable_iff _).1 hp]; rfl
    | redirect hw hp =>
      rename_i p d
      refine ⟨.redirected p d, ?_, ?_⟩
      · simp only [perform, hw, if_true]
      · simp only [need, (usable_iff _).1 hp]; rfl
    | file hp =>
      rename_i p d
      refine ⟨.fileSent p d, ?_, rfl⟩
      simp only [perform, Instructions.channelFor, (usable_iff _).1 hp, if_true]; rfl
    | command hp =>
      rename_i p d
      refine ⟨.commandRun p d, ?_, rfl⟩
      simp only [perform, Instructions.channelFor, (usable_iff _).1 hp, if_true]; rfl
  · rintro ⟨x, hx, hk⟩
    have chan : ∀ {port : PyVal} {y : Done}, (Instructions.channelFor port >>= fun _ => pure [y] : Except Instructions.Err (List Done)) = .ok [x] →
        Usable port ∧ x = y := by
      intro port y h
      obtain ⟨_, h1, h2⟩ := Instructions.bind_ok h
      injection h2 with h2
      injection h2 with h2
      refine ⟨(usable_iff _).2 ?_, h2.symm⟩
      unfold Instructions.channelFor at h1
      split at h1
      · assumption
      · exact nomatch h1
    cases op with
    | openTerminal name port size =>
      simp only [perform] at hx
      split at hx
      · split at hx
        · split at hx
          · rename_i hn
            obtain ⟨h1, rfl⟩ := chan hx
            injection hk with hk; subst hk
            exact .terminal hn h1
          · injection hx with hx; exact nomatch hx
        · injection hx with hx; exact nomatch hx
      · exact nomatch hx
    | openPortforward service route =>
      simp only [perform] at hx
      split at hx
      · rename_i hw
        injection hx with hx; injection hx with hx; subst hx
        simp only [need] at hk
        split at hk
        · rename_i p hp
          split at hk
          · rename_i hh
            rw [Bool.and_eq_true] at hh
            injection hk with hk; subst hk
            obtain ⟨name, l, hm, rfl⟩ := (known_iff _).1 hh.1
            exact .forward hw hm ((fourth_iff _ _).2 hp) ((usable_iff _).2 hh.2)
          · exact nomatch hk
        · exact nomatch hk
      · exact nomatch hx
    | openPortredirect p d =>
      simp only [perform] at hx
      split at hx
      · rename_i hw
        injection hx with hx; injection hx with hx; subst hx
        simp only [need] at hk
        split at hk
        · rename_i hh
          injection hk with hk; subst hk
          exact .redirect hw ((usable_iff _).2 hh)
        · exact nomatch hk
      · exact nomatch hx
    | readFile port path =>
      obtain ⟨h1, rfl⟩ := chan hx
      injection hk with hk; subst hk
      exact .file h1
    | runCommand port path =>
      obtain ⟨h1, rfl⟩ := chan hx
      injection hk with hk; subst hk
      exact .command h1
    | openEcho port =>
      obtain ⟨h1, rfl⟩ := chan hx
      exact nomatch hk
    | sync | reboot | scanDirectory =>
      injection hx with hx; injection hx with hx; subst hx
      exact nomatch hk

/-- The effects of an operation: none, one, or an exception. -/
theorem perform_cases (w : World) (op : Op) : (∃ x, perform w op = .ok [x]) ∨ perform w op = .ok [] ∨ ∃ e, perform w op = .error e := by
  have chan : ∀ {port : PyVal} {y : Done}, (∃ x, (Instructions.channelFor port >>= fun _ => pure [y] : Except Instructions.Err (List Done)) = .ok [x]) ∨
      (Instructions.channelFor port >>= fun _ => pure [y] : Except Instructions.Err (List Done)) = .ok [] ∨
      ∃ e, (Instructions.channelFor port >>= fun _ => pure [y] : Except Instructions.Err (List Done)) = .error e := by
    intro port y
    unfold Instructions.channelFor
    split
    · exact .inl ⟨y, rfl⟩
    · exact .inr (.inr ⟨_, rfl⟩)
  cases op with
  | openTerminal name port size =>
    simp only [perform]
    split
    · split
      · split
        · exact chan
        · exact .inr (.inl rfl)
      · exact .inr (.inl rfl)
    · exact .inr (.inr ⟨_, rfl⟩)
  | openPortforward service route =>
    simp only [perform]
    split
    · exact .inl ⟨_, rfl⟩
    · exact .inr (.inr ⟨_, rfl⟩)
  | openPortredirect p d =>
    simp only [perform]
    split
    · exact .inl ⟨_, rfl⟩
    · exact .inr (.inr ⟨_, rfl⟩)
  | readFile port path => exact chan
  | runCommand port path => exact chan
  | openEcho port => exact chan
  | sync | reboot | scanDirectory => exact .inl ⟨_, rfl⟩

theorem instruct_asks {w : World} {d : List (PyVal × PyVal)} (hk : BytesKeys d) {op : Op} (h : Asks d op) : instruct w d = perform w op := by
  obtain ⟨data, r⟩ := Instructions.reads hk
  unfold instruct
  rw [r.ok]
  show (Instructions.choose data >>= _) = _
  rw [(Instructions.choose_iff r op).2 h]
  rfl

/-- A message that asks for something: what is done for it. -/
theorem sent_done {w env} {c : WSClient.St} {m op} (hh : c.hung = false) (hm : Sent m op) :
    (step env c (.binary m)).1 = c ∧ (step env c (.binary m)).2.flatMap (react w) = (match perform w op with | .ok done => done | .error _ => []) := by
  obtain ⟨hl, sender, d, surplus, hd, hkeys, ha⟩ := hm
  have hr : requestOf m = some (.instruction sender d) := Instructions.requestOf_list m (.instruction sender d) surplus hd
  have ho := Instructions.call_of_request hl hr
  constructor
  · simp only [step, Ev.isSocket, if_true, hh, Bool.false_eq_true, if_false, onEvent, ho, Instructions.Request.packet, handle]
  · simp only [step, Ev.isSocket, if_true, hh, Bool.false_eq_true, if_false, onEvent, ho, Instructions.Request.packet, handle]
    simp only [List.append_nil, List.flatMap_cons, List.flatMap_nil, react, instruct_asks hkeys ha]
    cases perform w op <;> rfl

/-- Something is done only for a message that asks for it. -/
theorem done_sent {w env} {c : WSClient.St} {e : Ev} (hh : c.hung = false) (hf : ∀ data, e = .binary data → ¬ Hangs data ∧ data.length ≤ maxSize)
    {x : Done} (hx : x ∈ (step env c e).2.flatMap (react w)) : ∃ m op, e = .binary m ∧ Sent m op := by
  obtain ⟨o, ho, hxo⟩ := List.mem_flatMap.1 hx
  unfold react at hxo
  split at hxo
  · rename_i sender d
    split at hxo
    · rename_i done hd
      obtain ⟨op, y, ha, rfl, hp⟩ := Instructions.c87_nothing_else d w hd (List.ne_nil_of_mem hxo)
      have hin : some (Instructions.Request.instruction sender d) ∈ ((step env c e).2.filter isRequest).map passedOn :=
        List.mem_map.2 ⟨_, List.mem_filter.2 ⟨ho, rfl⟩, rfl⟩
      rw [Instructions.step_requests env c hh e hf] at hin
      obtain ⟨r, hr, hrr⟩ := List.mem_map.1 hin
      injection hrr with hrr; subst hrr
      cases e with
      | binary m =>
        have hq : requestOf m = some (.instruction sender d) := by simpa [requestIn] using hr
        refine ⟨m, op, rfl, (hf m rfl).2, sender, d, ?_⟩
        rcases Instructions.requestOf_some hq with ⟨surplus, hs⟩ | ⟨h, _⟩
        · refine ⟨surplus, hs, ?_, ha⟩
          unfold instruct at hd
          obtain ⟨data, h1, _⟩ := Instructions.bind_ok hd
          exact Instructions.decodeItems_keys d [] data h1
        · exact nomatch h
      | _ => exact absurd hr (by simp [requestIn])
    · exact absurd hxo (by simp)
  · exact absurd hxo (by simp)

/-- The limiters count the threads that run. -/
structure Inv (a b : Nat) (s : St) : Prop where
  terminals : s.terminals = ⟨a, s.running.count .terminal⟩
  services : s.services = ⟨b, s.running.count .service⟩
  atMost : ∀ k, s.running.count k ≤ limitOf a b k

theorem Inv.lim {a b s} (h : Inv a b s) (k : Kind) : s.lim k = ⟨limitOf a b k, s.running.count k⟩ := by
  cases k with
  | terminal => exact h.terminals
  | service => exact h.services

theorem launch_no {l : Limiter.Lim} {ok} (hv : 0 ≤ l.value) (h : ¬ (l.value < l.limit ∧ ok = true)) : Limiter.launch l ok = (l, false) := by
  rcases Agent.launch_cases l ok hv with h1 | ⟨h1, h2⟩
  · exact h1
  · have h3 := Opening.launch_refuses (l := l) (ok := ok) h
    rw [h1] at h3
    exact nomatch h3

/-- What needs no slot changes nothing. -/
theorem begin_none {ok s d} (h : need d = none) : begin ok s d = s := by simp only [begin, h]

/-- What needs a slot gets it if there is one. -/
theorem begin_some {a b ok s d k} (h : need d = some k) (hi : Inv a b s) :
    begin ok s d = if s.running.count k < limitOf a b k ∧ ok = true
      then { (s.setLim ⟨limitOf a b k, s.running.count k + 1⟩ k) with running := s.running ++ [k] } else s := by
  have hl := hi.lim k
  simp only [begin, h]
  by_cases hc : s.running.count k < limitOf a b k ∧ ok = true
  · obtain ⟨h1, rfl⟩ := hc
    have : Limiter.launch (s.lim k) true = (⟨limitOf a b k, s.running.count k + 1⟩, true) := by
      rw [hl, Agent.launch_ok (by show ((s.running.count k : Nat) : Int) < ((limitOf a b k : Nat) : Int); omega)]
    have hp : s.running.count k < limitOf a b k ∧ true = true := ⟨h1, rfl⟩
    rw [this, if_pos hp]
    cases k <;> rfl
  · have : Limiter.launch (s.lim k) ok = (s.lim k, false) := by
      refine launch_no (by rw [hl]; exact Int.natCast_nonneg _) fun hx => hc ⟨?_, hx.2⟩
      have h1 := hx.1
      rw [hl] at h1
      exact Int.ofNat_lt.1 h1
    rw [this, if_neg hc]
    simp only [Bool.false_eq_true, if_false]
    cases k <;> rfl

theorem begin_inv {a b ok s d} (hi : Inv a b s) : Inv a b (begin ok s d) := by
  cases hn : need d with
  | none => rw [begin_none hn]; exact hi
  | some k =>
    rw [begin_some hn hi]
    split
    · rename_i hc
      have hadd : ∀ k', (s.running ++ [k]).count k' = s.running.count k' + if k = k' then 1 else 0 := by
        intro k'; rw [List.count_append, List.count_singleton]
        simp only [beq_iff_eq]
      cases k with
      | terminal =>
        refine ⟨?_, ?_, ?_⟩
        · show (⟨_, _⟩ : Limiter.Lim) = ⟨a, ((s.running ++ [Kind.terminal]).count .terminal : Nat)⟩
          rw [hadd]; simp [limitOf]
        · show s.services = ⟨b, ((s.running ++ [Kind.terminal]).count .service : Nat)⟩
          rw [hadd, hi.services]; simp
        · intro k'
          show (s.running ++ [Kind.terminal]).count k' ≤ _
          rw [hadd]
          have := hi.atMost k'
          split
          · rename_i he; subst he; have := hc.1; omega
          · omega
      | service =>
        refine ⟨?_, ?_, ?_⟩
        · show s.terminals = ⟨a, ((s.running ++ [Kind.service]).count .terminal : Nat)⟩
          rw [hadd, hi.terminals]; simp
        · show (⟨_, _⟩ : Limiter.Lim) = ⟨b, ((s.running ++ [Kind.service]).count .service : Nat)⟩
          rw [hadd]; simp [limitOf]
        · intro k'
          show (s.running ++ [Kind.service]).count k' ≤ _
          rw [hadd]
          have := hi.atMost k'
          split
          · rename_i he; subst he; have := hc.1; omega
          · omega
    · exact hi

theorem foldl_inv {a b ok} : ∀ (l : List Done) {s}, Inv a b s → Inv a b (l.foldl (begin ok) s)
  | [], _, h => h
  | _ :: l, _, h => foldl_inv l (begin_inv h)

/-- The end of a thread. -/
theorem ended_eq {a b s i k} (hi : Inv a b s) (hk : s.running[i]? = some k) :
    move s (.ended i) = { (s.setLim ⟨limitOf a b k, (s.running.count k : Int) - 1⟩ k) with running := s.running.eraseIdx i } := by
  have hpos : 0 < s.running.count k := List.count_pos_iff.2 (List.mem_of_getElem? hk)
  have : Limiter.decrement (s.lim k) = .ok ⟨limitOf a b k, (s.running.count k : Int) - 1⟩ := by
    rw [hi.lim k]
    have hn : ¬ ((s.running.count k : Nat) : Int) ≤ 0 := by omega
    simp only [Limiter.decrement, if_neg hn]
  simp only [move, hk, this]

theorem count_erase {l : List Kind} {i : Nat} {k k' : Kind} (hk : l[i]? = some k) : l.count k' = (l.eraseIdx i).count k' + if k = k' then 1 else 0 := by
  induction l generalizing i with
  | nil => simp at hk
  | cons x l ih =>
    cases i with
    | zero =>
      have : x = k := by simpa using hk
      subst this
      simp only [List.eraseIdx_cons_zero, List.count_cons, beq_iff_eq]
    | succ i =>
      have h' := ih (i := i) (by simpa using hk)
      simp only [List.eraseIdx_cons_succ, List.count_cons, beq_iff_eq]
      omega

theorem move_inv {a b s} (m : Move) (hi : Inv a b s) : Inv a b (move s m) := by
  cases m with
  | event w env e ok =>
    refine foldl_inv _ ?_
    exact ⟨hi.terminals, hi.services, hi.atMost⟩
  | ended i =>
    cases hk : s.running[i]? with
    | none =>
      simp only [move, hk]; exact hi
    | some k =>
      rw [ended_eq hi hk]
      have hc := fun k' => count_erase (k' := k') hk
      cases k with
      | terminal =>
        refine ⟨?_, ?_, ?_⟩
        · show (⟨_, _⟩ : Limiter.Lim) = ⟨a, ((s.running.eraseIdx i).count .terminal : Nat)⟩
          have := hc .terminal
          simp only [if_true] at this
          simp only [limitOf, Limiter.Lim.mk.injEq, true_and]; omega
        · show s.services = ⟨b, ((s.running.eraseIdx i).count .service : Nat)⟩
          have := hc .service
          rw [if_neg (by decide)] at this
          rw [hi.services, this]; rfl
        · intro k'
          have h1 := hi.atMost k'
          have h2 := hc k'
          show (s.running.eraseIdx i).count k' ≤ _
          omega
      | service =>
        refine ⟨?_, ?_, ?_⟩
        · show s.terminals = ⟨a, ((s.running.eraseIdx i).count .terminal : Nat)⟩
          have := hc .terminal
          rw [if_neg (by decide)] at this
          rw [hi.terminals, this]; rfl
        · show (⟨_, _⟩ : Limiter.Lim) = ⟨b, ((s.running.eraseIdx i).count .service : Nat)⟩
          have := hc .service
          simp only [if_true] at this
          simp only [limitOf, Limiter.Lim.mk.injEq, true_and]; omega
        · intro k'
          have h1 := hi.atMost k'
          have h2 := hc k'
          show (s.running.eraseIdx i).count k' ≤ _
          omega

theorem run_inv {a b} : ∀ (ms : List Move) {s}, Inv a b s → Inv a b (run s ms)
  | [], _, h => h
  | m :: ms, _, h => run_inv ms (move_inv m h)

theorem init_inv (a b : Nat) : Inv a b (init a b) := ⟨rfl, rfl, fun k => by simp [init]⟩

theorem begin_client {ok s d} : (begin ok s d).client = s.client := by
  unfold begin
  split
  · rfl
  · rename_i k _
    dsimp only
    split <;> cases k <;> rfl

theorem foldl_client {ok} : ∀ (l : List Done) (s : St), (l.foldl (begin ok) s).client = s.client
  | [], _ => rfl
  | _ :: l, s => (foldl_client l _).trans begin_client

theorem run_client (ms : List Move) (s : St) : (run s ms).client = (WSClient.run s.client (ms.filterMap Move.client)).1 := by
  induction ms generalizing s with
  | nil => rfl
  | cons m ms ih =>
    show (run (move s m) ms).client = _
    rw [ih]
    cases m with
    | event w env e ok =>
      simp only [List.filterMap_cons, Move.client, WSClient.run]
      congr 2
      exact foldl_client _ _
    | ended i =>
      simp only [List.filterMap_cons, Move.client]
      congr 2
      simp only [move]
      split
      · rfl
      · rename_i k _
        split <;> cases k <;> rfl

end Verif.Slots
