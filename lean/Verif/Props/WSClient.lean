import Verif.Proofs.WSRace
import Verif.Proofs.WSClient3
/-!
C14-C21, C26-C28, C90: the websocket client (`dataplicity/m2m/wsclient.py`, `dataplicity/m2m/dispatcher.py`).
-/
namespace Verif.Props
open Verif Packets Dispatcher WSClient

/-! ### C14 -/

/-- C14 as stated is false: the byte string `b"\x13\x05"`, which is not a list, calls the handler of `notify_close` with 5. -/
theorem c14_counterexample :
    Bencode.decode (asc "2:" ++ [19, 5]) = .ok (.bytes [19, 5]) ∧ onBinary (asc "2:" ++ [19, 5]) = .call 19 [.int 5] := by decide +kernel

/-- C14, what the code does: a message leads to a handler call exactly if it decodes to the number of a handled packet type followed by
values of the declared types (and possibly more), either as a list or as a byte string read as a list of integers; the handler is the
one for that number and gets these values. -/
theorem c14_dispatch_iff_partial (data : Bytes) (hl : data.length ≤ maxSize) (n : Nat) (args : List PyVal) :
    onBinary data = .call n args ↔
      n ∈ handledTypes ∧ ∃ v c, Bencode.decode data = .ok v ∧ c.num = n ∧ (ListMessage v c args ∨ ByteMessage v c args) :=
  onBinary_call_iff data hl n args

/-- C14 for messages that decode to a list. -/
theorem c14_lists_partial (data : Bytes) (hl : data.length ≤ maxSize) (xs : List PyVal) (hd : Bencode.decode data = .ok (.list xs))
    (n : Nat) (args : List PyVal) :
    onBinary data = .call n args ↔
      n ∈ handledTypes ∧ ∃ c ∈ classes, c.num = n ∧ Typed c.attrs args ∧ ∃ surplus, xs = .int n :: args ++ surplus := by
  rw [onBinary_call_iff data hl, hd]
  constructor
  · rintro ⟨hh, v, c, hv, rfl, ⟨hc, ht, surplus, he⟩ | ⟨_, _, _, _, _, he, _⟩⟩
    · simp only [Bencode.Outcome.ok.injEq] at hv
      subst hv
      simp only [PyVal.list.injEq] at he
      exact ⟨hh, c, hc, rfl, ht, surplus, he⟩
    · simp only [Bencode.Outcome.ok.injEq] at hv
      subst hv
      simp at he
  · rintro ⟨hh, c, hc, rfl, ht, surplus, rfl⟩
    exact ⟨hh, _, c, rfl, rfl, .inl ⟨hc, ht, surplus, rfl⟩⟩

/-- C14: a byte string can only reach a handler all of whose attributes are integers. -/
theorem c14_bytes_partial (data : Bytes) (hl : data.length ≤ maxSize) (b : Bytes) (hd : Bencode.decode data = .ok (.bytes b))
    (n : Nat) (args : List PyVal) (h : onBinary data = .call n args) : n ∈ [0, 3, 14, 19, 29] ∧ ∀ v ∈ args, ∃ k : Nat, v = .int k ∧ k < 256 := by
  obtain ⟨hh, v, c, hv, rfl, ⟨_, _, _, he⟩ | ⟨hc, ht, t, bs, surplus, he, hn, hbs⟩⟩ := (onBinary_call_iff data hl n args).1 h
  · rw [hd] at hv
    simp only [Bencode.Outcome.ok.injEq] at hv
    subst hv
    simp at he
  · have hints : ∀ v ∈ args, ∃ k : Nat, v = .int k ∧ k < 256 := by
      intro v hv
      have : v ∈ bs.map (fun b => PyVal.int b.toNat) := by rw [hbs]; simp [hv]
      obtain ⟨b, _, rfl⟩ := List.mem_map.1 this
      exact ⟨b.toNat, rfl, b.toNat_lt⟩
    refine ⟨?_, hints⟩
    have htab : ∀ c ∈ classes, c.num ∈ handledTypes → (∀ a ∈ c.attrs, a.2 = .int) → c.num ∈ [0, 3, 14, 19, 29] := by decide +kernel
    refine htab c hc hh ?_
    generalize c.attrs = as at ht
    induction as generalizing args with
    | nil => simp
    | cons a as ih =>
      obtain ⟨nm, ty⟩ := a
      cases args with
      | nil => exact absurd ht (by simp [Typed])
      | cons v args =>
        obtain ⟨h1, h2⟩ := ht
        intro a ha
        rcases List.mem_cons.1 ha with rfl | ha
        · obtain ⟨k, rfl, _⟩ := hints v (by simp)
          cases ty <;> simp_all [AType.has]
        · exact (ih_aux as args h2 (fun v hv => hints v (by simp [hv]))) a ha
where
  ih_aux : ∀ (as : List (String × AType)) (args : List PyVal), Typed as args → (∀ v ∈ args, ∃ k : Nat, v = .int k ∧ k < 256) → ∀ a ∈ as, a.2 = .int := by
    intro as
    induction as with
    | nil => simp
    | cons a as ih =>
      obtain ⟨nm, ty⟩ := a
      intro args ht hints
      cases args with
      | nil => exact absurd ht (by simp [Typed])
      | cons v args =>
        obtain ⟨h1, h2⟩ := ht
        intro a ha
        rcases List.mem_cons.1 ha with rfl | ha
        · obtain ⟨k, rfl, _⟩ := hints v (by simp)
          cases ty <;> simp_all [AType.has]
        · exact ih args h2 (fun v hv => hints v (by simp [hv])) a ha

/-- A routed message with a surplus element; a wrong type; an unhandled type. -/
example : onBinary (asc "li6ei7e2:abi1ee") = .call 6 [.int 7, .bytes (asc "ab")] := by decide +kernel
example : onBinary (asc "li6e2:abi7ee") = .raised := by decide +kernel
example : onBinary (asc "li8e2:abe") = .dropped := by decide +kernel

/-! ### C15 -/

/-- C15 as stated is false: the message `5` makes the decoder read for ever (C05), after which nothing is handled any more, not even
a ping. -/
theorem c15_counterexample (env : Env) (s : St) (e : Ev) (he : e.isSocket = true) :
    step env (step env s (.binary (asc "5"))).1 e = ((step env s (.binary (asc "5"))).1, []) := by
  have h : onBinary (asc "5") = .hang := by decide +kernel
  have hx : (step env s (.binary (asc "5"))).1.hung = true := by
    cases hh : s.hung <;> simp [step, Ev.isSocket, hh, onEvent, h]
  generalize (step env s (.binary (asc "5"))).1 = s at hx
  simp only [step, he, if_true, hx]

/-- C15 for histories without such messages: whatever happened before (including errors in handlers, services and callbacks), the next
websocket event is handled. -/
theorem c15_loop_goes_on_partial (s : St) (hs : s.hung = false) (hist : List (Env × Ev)) (hf : Fair hist) (env : Env) (e : Ev)
    (he : e.isSocket = true) : step env (run s hist).1 e = onEvent env (run s hist).1 e := by
  simp [step, he, run_hung s hist hf, hs]

/-- C15: exactly when events are no longer handled: after a message on which the decoder hangs (`c05_hang_iff`), and then none is. -/
theorem c15_iff (hist : List (Env × Ev)) : (∃ x ∈ hist, ∃ data, x.2 = .binary data ∧ Hangs data) ↔
    ∀ env e, e.isSocket = true → step env (run {} hist).1 e = ((run {} hist).1, []) := by
  have hung_iff : ∀ (hist : List (Env × Ev)) (s : St), (run s hist).1.hung = true ↔
      s.hung = true ∨ ∃ x ∈ hist, ∃ data, x.2 = .binary data ∧ Hangs data := by
    intro hist
    induction hist with
    | nil => intro s; exact ⟨.inl, fun h => by rcases h with h | ⟨_, h, _⟩; exact h; nomatch h⟩
    | cons x hist ih =>
      intro s
      obtain ⟨env, e⟩ := x
      have hrun : (run s ((env, e) :: hist)).1 = (run (step env s e).1 hist).1 := rfl
      rw [hrun, ih]
      have hstep : (step env s e).1.hung = true ↔ s.hung = true ∨ ∃ data, e = .binary data ∧ Hangs data := by
        by_cases hx : ∃ data, e = .binary data ∧ Hangs data
        · obtain ⟨data, rfl, hx⟩ := hx
          have h := (onBinary_hang_iff data).2 hx
          refine ⟨fun _ => .inr ⟨data, rfl, hx⟩, fun _ => ?_⟩
          cases hh : s.hung <;> simp [step, Ev.isSocket, hh, onEvent, h]
        · rw [step_hung env s e (fun data he hd => hx ⟨data, he, hd⟩)]
          exact ⟨.inl, fun h => h.elim id (fun h => absurd h hx)⟩
      rw [hstep]
      constructor
      · rintro ((h | h) | ⟨x, hx, h⟩)
        · exact .inl h
        · exact .inr ⟨_, List.mem_cons_self .., h⟩
        · exact .inr ⟨x, List.mem_cons_of_mem _ hx, h⟩
      · rintro (h | ⟨x, hx, h⟩)
        · exact .inl (.inl h)
        · rcases List.mem_cons.1 hx with rfl | hx
          · exact .inl (.inr h)
          · exact .inr ⟨x, hx, h⟩
  have h0 := (hung_iff hist {}).trans ⟨fun h => h.elim (fun h => nomatch h) id, .inr⟩
  rw [← h0]
  constructor
  · intro h env e he
    simp only [step, he, if_true, h]
  · intro h
    have h1 := h {} .ready rfl
    cases hh : (run {} hist).1.hung with
    | true => rfl
    | false =>
      exfalso
      have h2 := congrArg Prod.snd h1
      simp only [step, Ev.isSocket, if_true, hh, Bool.false_eq_true, if_false, onEvent] at h2
      split at h2 <;> split at h2 <;> nomatch h2

/-- C15: an exception that leaves a handler is logged: the outputs end with `logged`. -/
theorem c15_errors_logged_partial (env : Env) (s : St) (hs : s.hung = false) (data : Bytes) (n : Nat) (args : List PyVal)
    (h : onBinary data = .call n args) (hr : (handle env s n args).2.2 = true) :
    (step env s (.binary data)).2.getLast? = some .logged := by
  simp [step, Ev.isSocket, hs, onEvent, h, hr]

theorem chanOut_not_logged (n o) : Out.logged ∉ chanOut n o := by
  cases o <;> simp [chanOut]

/-- C15: nothing is logged for a message that has a handler, unless a service, a callback or the remote directory raises. -/
theorem c15_no_error (env : Env) (s : St) (hr : env.raises = false) (hsc : env.scanError = none) (data : Bytes) (n : Nat)
    (args : List PyVal) (h : onBinary data = .call n args) : Out.logged ∉ (step env s (.binary data)).2 := by
  cases hs : s.hung with
  | true => simp [step, Ev.isSocket, hs]
  | false =>
    have hp : ∀ d : Bytes, args = [.bytes d] → n = 7 → ∃ m, send 8 [("data", .bytes (d.take 1024))] = some m := by
      intro d _ _
      obtain ⟨m, hm, _⟩ := send_pong (d.take 1024) (Nat.le_trans (List.length_take_le _ _) (by decide))
      exact ⟨m, hm⟩
    have hflat : ∀ (k : Int) (os : List Channel.Out), Out.logged ∉ os.flatMap (chanOut k) := by
      intro k os hmem
      obtain ⟨o, _, ho⟩ := List.mem_flatMap.1 hmem
      exact chanOut_not_logged k o ho
    have hsync : ∀ s, Out.logged ∉ (syncIdentity env s).2 := by
      intro s
      simp only [syncIdentity]
      split
      · simp
      · split <;> simp
    simp only [step, Ev.isSocket, if_true, hs, Bool.false_eq_true, if_false, onEvent, h]
    suffices hh : Out.logged ∉ (handle env s n args).2.1 ∧ (handle env s n args).2.2 = false by
      rw [hh.2]; simpa using hh.1
    unfold handle
    split
    · split
      · simp
      · exact ⟨hsync _, rfl⟩
    · rename_i d
      obtain ⟨m, hm⟩ := hp d rfl rfl
      simp [hm]
    · exact ⟨hflat _ _, by simp [hr]⟩
    · exact ⟨hflat _ _, by simp [hr]⟩
    · simp
    · split
      · simp
      · exact ⟨hflat _ _, rfl⟩
    · simp
    · simp
    · simp
    · simp [hsc]
    · simp [hr]
    · simp [hr]
    · simp [hr]
    · simp [hr]
    · simp

/-- C15: an error is logged for data or a control message of a channel only if a callback of that channel was called, for what it did. -/
theorem c15_blamed (env : Env) (s : St) (data : Bytes) (n : Nat) (ch : Int) (d : Bytes) (hn : n = 6 ∨ n = 21)
    (h : onBinary data = .call n [.int ch, .bytes d]) (hl : Out.logged ∈ (step env s (.binary data)).2) :
    env.raises = true ∧ ∃ cb, Out.chan ch (.dataCall cb d) ∈ (step env s (.binary data)).2 ∨
      Out.chan ch (.ctrlCall cb d) ∈ (step env s (.binary data)).2 := by
  have hflat : ∀ (k : Int) (os : List Channel.Out), Out.logged ∉ os.flatMap (chanOut k) := by
    intro k os hmem
    obtain ⟨o, _, ho⟩ := List.mem_flatMap.1 hmem
    exact chanOut_not_logged k o ho
  cases hs : s.hung with
  | true => simp [step, Ev.isSocket, hs] at hl
  | false =>
    rcases hn with rfl | rfl
    · simp only [step, Ev.isSocket, if_true, hs, Bool.false_eq_true, if_false, onEvent, h, handle] at hl ⊢
      cases hc : called (Channel.step (getChannel ch s.channels).2 (.data d)).2 with
      | false => simp only [hc, Bool.false_and, Bool.false_eq_true, if_false, List.append_nil] at hl; exact absurd hl (hflat _ _)
      | true =>
        cases hr : env.raises with
        | false => simp only [hc, hr, Bool.true_and, Bool.false_eq_true, if_false, List.append_nil] at hl; exact absurd hl (hflat _ _)
        | true =>
          refine ⟨rfl, ?_⟩
          clear hl h hflat
          simp only [Bool.true_and, if_true]
          generalize (getChannel ch s.channels).2 = c at hc ⊢
          revert hc
          simp only [Channel.step]
          split
          · simp [called]
          · cases c.dataCb <;> simp [called, chanOut]
    · simp only [step, Ev.isSocket, if_true, hs, Bool.false_eq_true, if_false, onEvent, h, handle] at hl ⊢
      cases hc : called (Channel.step (getChannel ch s.channels).2 (.control d)).2 with
      | false => simp only [hc, Bool.false_and, Bool.false_eq_true, if_false, List.append_nil] at hl; exact absurd hl (hflat _ _)
      | true =>
        cases hr : env.raises with
        | false => simp only [hc, hr, Bool.true_and, Bool.false_eq_true, if_false, List.append_nil] at hl; exact absurd hl (hflat _ _)
        | true =>
          refine ⟨rfl, ?_⟩
          clear hl h hflat
          simp only [Bool.true_and, if_true]
          generalize (getChannel ch s.channels).2 = c at hc ⊢
          revert hc
          simp only [Channel.step]
          split
          · simp [called]
          · cases c.ctrlCb <;> simp [called, chanOut]

/-- A service that raises while it is given data; the ping afterwards is answered. -/
example : (run {} [({}, .binary (asc "li14ei1ee")), ({}, .chanOp 1 (.setCallbacks (some 4) none none)),
    ({ raises := true }, .binary (asc "li6ei1e2:abe")), ({}, .binary (asc "li7e1:xe"))]).2 =
    [.chan 1 (.dataCall 4 (asc "ab")), .logged, .sent (asc "li8e1:xe")] := by
  have h1 : onBinary (asc "li14ei1ee") = .call 14 [.int 1] := by decide +kernel
  have h2 : onBinary (asc "li6ei1e2:abe") = .call 6 [.int 1, .bytes (asc "ab")] := by decide +kernel
  have h3 : onBinary (asc "li7e1:xe") = .call 7 [.bytes (asc "x")] := by decide +kernel
  have h4 : send 8 [("data", .bytes (asc "x"))] = some (asc "li8e1:xe") := by decide +kernel
  have h5 : (asc "x").take 1024 = asc "x" := by decide +kernel
  simp [run, step, Ev.isSocket, onEvent, h1, h2, h3, h4, h5, handle, getChannel, WSClient.lookup, serviceOp, Channel.step, update, chanOut, called]

/-! ### C16 -/

/-- C16: a ping is answered by exactly one message, the pong with the first 1024 bytes; nothing else changes. -/
theorem c16_ping_pong (env : Env) (s : St) (hs : s.hung = false) (data d : Bytes) (surplus : List PyVal) (hl : data.length ≤ maxSize)
    (hd : Bencode.decode data = .ok (.list (.int 7 :: .bytes d :: surplus))) :
    ∃ m, step env s (.binary data) = (s, [.sent m]) ∧ IsMessage m 8 [.bytes (d.take 1024)] := by
  have hb : onBinary data = .call 7 [.bytes d] := bytes_call hl (.inl rfl) (surplus := surplus) (by simp [decoded, hd])
  obtain ⟨m, h1, h2⟩ := send_pong (d.take 1024) (by simp [maxSize]; omega)
  refine ⟨m, ?_, h2⟩
  simp [step, Ev.isSocket, hs, onEvent, hb, handle, h1]

/-- C16 together with C15: also after any history. -/
theorem c16_after_any_history (hist : List (Env × Ev)) (hf : Fair hist) (env : Env) (data d : Bytes) (surplus : List PyVal)
    (hl : data.length ≤ maxSize) (hd : Bencode.decode data = .ok (.list (.int 7 :: .bytes d :: surplus))) :
    ∃ m, step env (run {} hist).1 (.binary data) = ((run {} hist).1, [.sent m]) ∧ IsMessage m 8 [.bytes (d.take 1024)] :=
  c16_ping_pong env _ (run_hung {} hist hf) data d surplus hl hd

example : Bencode.decode (asc "li7e3:abci1ee") = .ok (.list (.int 7 :: .bytes (asc "abc") :: [.int 1])) := by decide +kernel

/-! ### C17 -/

/-- C17: a message that does not start with a handled type changes nothing and sends nothing; at most an exception is logged. -/
theorem c17_unknown_no_effect (env : Env) (s : St) (data : Bytes) (hl : data.length ≤ maxSize) (hh : ¬ Hangs data)
    (h1 : ∀ k ∈ handledTypes, (decoded data).head? ≠ some (.int k))
    (h2 : ∀ b ∈ (decodedBytes data).head?, b.toNat ∉ handledTypes) :
    (step env s (.binary data)).1 = s ∧ ((step env s (.binary data)).2 = [] ∨ (step env s (.binary data)).2 = [.logged]) := by
  have hno : ∀ n args, onBinary data ≠ .call n args := by
    intro n args h
    have hn := ((onBinary_call_iff data hl n args).1 h).1
    obtain ⟨c, _, rfl, _, _, ⟨surplus, hd⟩ | ⟨t, bs, surplus, hd, ht, _⟩⟩ := call_inv hl h
    · exact h1 _ hn (by rw [hd]; rfl)
    · exact h2 t (by rw [hd]; rfl) (ht ▸ hn)
  simp only [step, Ev.isSocket, if_true]
  split
  · exact ⟨rfl, .inl rfl⟩
  · simp only [onEvent]
    split
    · rename_i hb; exact absurd ((onBinary_hang_iff data).1 hb) hh
    · exact ⟨rfl, .inl rfl⟩
    · exact ⟨rfl, .inr rfl⟩
    · rename_i hb; exact absurd hb (hno _ _)

/-- C17: every message, also of a handled type, either calls a handler or has no effect. -/
theorem c17_no_call_no_effect (env : Env) (s : St) (data : Bytes) (hh : ¬ Hangs data) (h : ∀ n args, onBinary data ≠ .call n args) :
    (step env s (.binary data)).1 = s ∧ ((step env s (.binary data)).2 = [] ∨ (step env s (.binary data)).2 = [.logged]) := by
  simp only [step, Ev.isSocket, if_true]
  split
  · exact ⟨rfl, .inl rfl⟩
  · simp only [onEvent]
    split
    · rename_i hb; exact absurd ((onBinary_hang_iff data).1 hb) hh
    · exact ⟨rfl, .inl rfl⟩
    · exact ⟨rfl, .inr rfl⟩
    · rename_i hb; exact absurd hb (h _ _)

/-- A pong (known, not handled), an unknown number, a member of the enumeration without a class, junk. -/
example : decoded (asc "li8e1:xe") = [.int 8, .bytes (asc "x")] ∧ onBinary (asc "li8e1:xe") = .dropped ∧ onBinary (asc "li999ee") = .dropped ∧
    onBinary (asc "li12ee") = .raised ∧ onBinary (asc "i12") = .dropped := by decide +kernel

/-! ### C18 -/

/-- C18: when the websocket becomes ready exactly one message is sent: a join request without an identity, an identify request with the
current identity otherwise. -/
theorem c18_one_handshake (env : Env) (s : St) (hs : s.hung = false) :
    (s.identity = none → ∃ m, step env s .ready = (s, [.sent m]) ∧ IsMessage m 1 []) ∧
    (∀ id, s.identity = some id → id.length ≤ maxSize → ∃ m, step env s .ready = (s, [.sent m]) ∧ IsMessage m 2 [.bytes id]) := by
  constructor
  · intro hi
    obtain ⟨m, h1, h2⟩ := send_join
    exact ⟨m, by simp [step, Ev.isSocket, hs, onEvent, hi, h1], h2⟩
  · intro id hi hl
    obtain ⟨m, h1, h2⟩ := send_identify id hl
    exact ⟨m, by simp [step, Ev.isSocket, hs, onEvent, hi, h1], h2⟩

/-- C18: after a disconnect, until the server assigns an identity again, the client only asks to join. -/
theorem c18_only_join (env0 : Env) (s : St) (hs : s.hung = false) (hist : List (Env × Ev)) (hf : Fair hist)
    (hn : ∀ x ∈ hist, ∀ id, ¬ x.2.assigns id) (env : Env) :
    ∃ m, step env (run (step env0 s .disconnected).1 hist).1 .ready = ((run (step env0 s .disconnected).1 hist).1, [.sent m]) ∧ IsMessage m 1 [] := by
  have hinv : ∀ (s : St) (hist : List (Env × Ev)), Fair hist → (∀ x ∈ hist, ∀ id, ¬ x.2.assigns id) → s.identity = none → (run s hist).1.identity = none := by
    intro s hist
    induction hist generalizing s with
    | nil => intro _ _ h; exact h
    | cons x hist ih =>
      intro hf hn h
      refine ih _ hf.tail (fun x hx => hn x (by simp [hx])) ?_
      rcases (step_identity x.1 s x.2 (fun data hd => (hf.head data hd).2) (hn x (by simp))).1 with h' | h'
      · rw [h', h]
      · exact h'
  refine (c18_one_handshake env _ ?_).1 (hinv _ hist hf hn ?_)
  · rw [run_hung _ _ hf, step_hung _ _ _ (by simp), hs]
  · simp [step, Ev.isSocket, hs, onEvent]

/-- The identity in use before the disconnect is not used after it; a later assignment is. -/
example : (run {} [({}, .binary (asc "li9e1:ae")), ({}, .ready), ({}, .disconnected), ({}, .ready), ({}, .binary (asc "li9e1:be")), ({}, .ready)]).2 =
    [.announce (asc "a") true, .sent (asc "li2e1:ae"), .sent (asc "li1ee"), .announce (asc "b") true, .sent (asc "li2e1:be")] := by
  have h1 : onBinary (asc "li9e1:ae") = .call 9 [.bytes (asc "a")] := by decide +kernel
  have h2 : onBinary (asc "li9e1:be") = .call 9 [.bytes (asc "b")] := by decide +kernel
  have h3 : send 1 [] = some (asc "li1ee") := by decide +kernel
  have h4 : send 2 [("uuid", .bytes (asc "a"))] = some (asc "li2e1:ae") := by decide +kernel
  have h5 : send 2 [("uuid", .bytes (asc "b"))] = some (asc "li2e1:be") := by decide +kernel
  have h6 : (asc "a").isEmpty = false := by decide +kernel
  have h7 : (asc "b").isEmpty = false := by decide +kernel
  have h8 : (asc "a" == asc "b") = false := by decide +kernel
  simp [run, step, Ev.isSocket, onEvent, h1, h2, h3, h4, h5, h6, h7, h8, handle, syncIdentity, hardClose]

/-! ### C19 -/

/-- C19: at a poll the current identity is announced unless it is the one acknowledged last. -/
theorem c19_poll_announces (hist : List (Env × Ev)) (hf : Fair hist) (id : Bytes) (hi : (run {} hist).1.identity = some id) (hne : id ≠ [])
    (ha : lastAck (run {} hist).2 ≠ some id) (env : Env) : (step env (run {} hist).1 .poll).2 = [.announce id env.rpcOk] := by
  have hn : (run {} hist).1.notified ≠ some id := by
    intro h
    have := run_ack {} hist hf id h
    simp only [Option.or_none] at this
    exact ha this
  simp [step, Ev.isSocket, run_hung _ _ hf, onEvent, syncIdentity, hi, hne, hn]

/-- C19: once acknowledged, the identity is not announced again as long as no other one is assigned. -/
theorem c19_not_again (s : St) (env : Env) (e : Ev) (hl : ∀ data, e = .binary data → data.length ≤ maxSize) (id : Bytes)
    (hack : .announce id true ∈ (step env s e).2) (hist : List (Env × Ev)) (hf : Fair hist)
    (hsame : ∀ x ∈ hist, ∀ id', x.2.assigns id' → id' = id) : ∀ o ∈ (run (step env s e).1 hist).2, o.isAnnounce = false := by
  have hsync : ∀ s : St, .announce id true ∈ (syncIdentity env s).2 → (syncIdentity env s).1.notified = some id ∧ (syncIdentity env s).1.identity = some id := by
    intro s h
    unfold syncIdentity at h ⊢
    split at h
    · simp at h
    · rename_i i hi
      split at h
      · simp at h
      · rename_i hc
        rw [if_neg hc]
        simp only [List.mem_singleton, Out.announce.injEq] at h
        obtain ⟨rfl, hr⟩ := h
        simp [← hr, hi]
  have h0 : (step env s e).1.notified = some id ∧ (step env s e).1.identity = some id := by
    by_cases h : ∃ id', e.assigns id'
    · obtain ⟨id', h⟩ := h
      rw [step_assigns env s e id' hl h] at hack ⊢
      split at hack
      · simp at hack
      · rename_i hc; rw [if_neg hc]; exact hsync _ hack
    · rcases (step_identity env s e hl (fun i hi => h ⟨i, hi⟩)).2 with ⟨_, h2⟩ | ⟨_, h2⟩
      · exact absurd (h2 _ hack) (by simp [Out.isAnnounce])
      · rw [h2] at hack ⊢; exact hsync _ hack
  generalize (step env s e).1 = s at h0
  have hinv : s.notified = some id ∧ (s.identity = some id ∨ s.identity = none) := ⟨h0.1, .inl h0.2⟩
  clear h0
  induction hist generalizing s with
  | nil => simp [run]
  | cons x hist ih =>
    obtain ⟨env, e⟩ := x
    have hl := fun data hd => (hf.head data hd).2
    have hsync' : ∀ s : St, s.notified = some id → (s.identity = some id ∨ s.identity = none) → syncIdentity env s = (s, []) := by
      rintro s h1 (h2 | h2) <;> simp [syncIdentity, h1, h2]
    have key : ((step env s e).1.notified = some id ∧ ((step env s e).1.identity = some id ∨ (step env s e).1.identity = none)) ∧
        ∀ o ∈ (step env s e).2, o.isAnnounce = false := by
      by_cases h : ∃ id', e.assigns id'
      · obtain ⟨id', h⟩ := h
        have := hsame (env, e) (by simp) id' h
        subst this
        rw [step_assigns env s e id' hl h]
        split
        · exact ⟨hinv, by simp⟩
        · rw [hsync' { s with identity := some id' } hinv.1 (.inl rfl)]
          exact ⟨⟨hinv.1, .inl rfl⟩, by simp⟩
      · obtain ⟨hi, hn⟩ := step_identity env s e hl (fun i hi => h ⟨i, hi⟩)
        rcases hn with ⟨h1, h2⟩ | ⟨_, h2⟩
        · refine ⟨⟨by rw [h1]; exact hinv.1, ?_⟩, h2⟩
          rcases hi with hi | hi
          · rw [hi]; exact hinv.2
          · exact .inr hi
        · rw [h2, hsync' _ hinv.1 hinv.2]
          exact ⟨hinv, by simp⟩
    intro o ho
    simp only [run] at ho
    rcases List.mem_append.1 ho with ho | ho
    · exact key.2 o ho
    · exact ih hf.tail (fun x hx => hsame x (by simp [hx])) _ key.1 o ho

/-- Two failures, then success, then silence. -/
example : (run {} [({ rpcOk := false }, .binary (asc "li9e1:ae")), ({ rpcOk := false }, .poll), ({}, .poll), ({}, .poll), ({}, .poll)]).2 =
    [.announce (asc "a") false, .announce (asc "a") false, .announce (asc "a") true] := by
  have h1 : onBinary (asc "li9e1:ae") = .call 9 [.bytes (asc "a")] := by decide +kernel
  have h6 : (asc "a").isEmpty = false := by decide +kernel
  simp [run, step, Ev.isSocket, onEvent, h1, h6, handle, syncIdentity]

/-! ### C20 -/

/-- C20 as stated is false when `close` runs between the check and the assignment of `handle_set_identity`: the identity stays set and
is announced at that point and at later polls. -/
theorem c20_race_counterexample :
    let moves : List Move := [.receive, .setClosed, .clearIdentity, .receive, .receive, .poll]
    let r := moves.foldl (raceStep [1]) {}
    r.closed = true ∧ r.identity = some [1] ∧ r.announced = [[1], [1]] := by decide

/-- C20 when events and calls are atomic: after `close` no identity is accepted and nothing is announced, whatever follows.
Missing for the full property: the race above. -/
theorem c20_closed_silent_partial (env : Env) (s : St) (hist : List (Env × Ev)) (hf : Fair hist) :
    (run (step env s .close).1 hist).1.identity = none ∧ ∀ o ∈ (run (step env s .close).1 hist).2, o.isAnnounce = false := by
  have h0 : (step env s .close).1.closed = true ∧ (step env s .close).1.identity = none := ⟨rfl, rfl⟩
  generalize (step env s .close).1 = s at h0
  induction hist generalizing s with
  | nil => exact ⟨h0.2, by simp [run]⟩
  | cons x hist ih =>
    obtain ⟨env, e⟩ := x
    have hl := fun data hd => (hf.head data hd).2
    have key : (step env s e).1.identity = none ∧ ∀ o ∈ (step env s e).2, o.isAnnounce = false := by
      by_cases h : ∃ id', e.assigns id'
      · obtain ⟨id', h⟩ := h
        rw [step_assigns env s e id' hl h, if_pos (by simp [h0.1])]
        exact ⟨h0.2, by simp⟩
      · obtain ⟨hi, hn⟩ := step_identity env s e hl (fun i hi => h ⟨i, hi⟩)
        refine ⟨?_, ?_⟩
        · rcases hi with hi | hi
          · rw [hi, h0.2]
          · exact hi
        · rcases hn with ⟨_, h2⟩ | ⟨_, h2⟩
          · exact h2
          · rw [h2]; simp [syncIdentity, h0.2]
    have := ih hf.tail _ ⟨WSClient.step_closed env s e h0.1, key.1⟩
    refine ⟨this.1, fun o ho => ?_⟩
    simp only [run] at ho
    rcases List.mem_append.1 ho with ho | ho
    · exact key.2 o ho
    · exact this.2 o ho

/-- C20, statement by statement: if `close` has run completely before the handler looks at `is_closed`, then no order of moves leads to
an announcement. -/
theorem c20_check_after_close_partial (id : Bytes) (r : Race) (h1 : r.closed = true) (h2 : r.identity = none)
    (h3 : r.pc = .check ∨ r.pc = .done) (moves : List Move) : (moves.foldl (raceStep id) r).announced = r.announced := by
  induction moves generalizing r with
  | nil => rfl
  | cons m moves ih =>
    rw [List.foldl_cons, ih]
    · cases m with
      | receive => rcases h3 with h3 | h3 <;> simp [raceStep, h1, h3]
      | poll => by_cases hp : r.pc = .done <;> simp [raceStep, h2, hp]
      | _ => rfl
    · cases m with
      | receive => rcases h3 with h3 | h3 <;> simp [raceStep, h1, h3]
      | poll => by_cases hp : r.pc = .done <;> simp [raceStep, h1, hp]
      | setClosed => rfl
      | clearIdentity => exact h1
    · cases m with
      | receive => rcases h3 with h3 | h3 <;> simp [raceStep, h1, h2, h3]
      | poll => by_cases hp : r.pc = .done <;> simp [raceStep, h2, hp]
      | setClosed => exact h2
      | clearIdentity => rfl
    · cases m with
      | receive => rcases h3 with h3 | h3 <;> simp [raceStep, h1, h3]
      | poll => by_cases hp : r.pc = .done <;> simp [raceStep, hp]; rcases h3 with h3 | h3; exact h3; exact absurd h3 hp
      | setClosed => exact h3
      | clearIdentity => exact h3

/-- C20, exact, statement by statement: one identity arrives and the client is closed once, the statements of the two threads and polls in any
order.  An identity is set in the closed client, and announced at every poll from then on, precisely if `close` is run between the look at `is_closed`
and the assignment. -/
theorem c20_iff (id : Bytes) (moves : List Move)
    (hclose : moves.filter (fun m => m = .setClosed ∨ m = .clearIdentity) = [.setClosed, .clearIdentity]) :
    (moves.foldl (raceStep id) {}).identity = some id ↔
      [.receive, .setClosed, .clearIdentity, .receive] <+: moves.filter (· ≠ .poll) := by
  have hcore := race_polls id moves {} {} rfl
  have hf : (moves.filter (· ≠ .poll)).filter (fun m => m = .setClosed ∨ m = .clearIdentity) = [.setClosed, .clearIdentity] := by
    rw [List.filter_filter, ← hclose]
    apply List.filter_congr
    intro m _
    cases m <;> rfl
  have hnp : Move.poll ∉ moves.filter (· ≠ .poll) := by simp
  have hid : (moves.foldl (raceStep id) {}).identity = ((moves.filter (· ≠ .poll)).foldl (raceStep id) {}).identity :=
    congrArg (fun x => x.2.1) hcore
  rw [hid]
  generalize moves.filter (· ≠ .poll) = l at *
  obtain ⟨a, l, rfl, h1, h2⟩ := race_split hnp hf
  obtain ⟨b, l, rfl, h3, h4⟩ := race_split h1 h2
  obtain ⟨d, rfl⟩ := race_receives h3 h4
  simp only [List.foldl_append, List.foldl_cons]
  have late : ∀ r : Race, (r.pc = .sync ∨ r.pc = .done) → ∀ b d : Nat,
      ((List.replicate d Move.receive).foldl (raceStep id)
        (raceStep id ((List.replicate b Move.receive).foldl (raceStep id) (raceStep id r .setClosed)) .clearIdentity)).identity = none := by
    intro r hr b d
    obtain ⟨-, -, h⟩ := race_sync id b (raceStep id r .setClosed) hr
    exact (race_sync id d (raceStep id _ .clearIdentity) h).1
  match a with
  | 0 =>
    refine iff_of_false ?_ (by simp)
    have closed : ∀ n (r : Race), r.closed = true → r.identity = none → (r.pc = .check ∨ r.pc = .done) →
        let r' := (List.replicate n Move.receive).foldl (raceStep id) r
        r'.closed = true ∧ r'.identity = none ∧ (r'.pc = .check ∨ r'.pc = .done) := by
      intro n
      induction n with
      | zero => exact fun r h1 h2 h3 => ⟨h1, h2, h3⟩
      | succ n ih =>
        intro r h1 h2 h3
        rw [List.replicate_succ, List.foldl_cons]
        apply ih <;> rcases h3 with h3 | h3 <;> simp [raceStep, h1, h2, h3]
    obtain ⟨e1, -, e3⟩ := closed b (raceStep id {} .setClosed) rfl rfl (.inl rfl)
    rw [List.replicate_zero, List.foldl_nil, (closed d (raceStep id _ .clearIdentity) e1 rfl e3).2.1]
    simp
  | 1 =>
    match b with
    | 0 =>
      cases d with
      | zero => exact iff_of_false (by simp [raceStep]) (by simp)
      | succ d =>
        refine iff_of_true ?_ (by simp [List.replicate_succ, List.replicate_zero])
        rw [List.replicate_succ, List.foldl_cons]
        exact (race_sync id d _ (.inl rfl)).1
    | b + 1 =>
      refine iff_of_false ?_ (by simp [List.replicate_succ])
      have h := (race_sync id b (⟨true, some id, .sync, []⟩ : Race) (.inl rfl)).2.2
      show ¬ ((List.replicate d Move.receive).foldl (raceStep id) (raceStep id ((List.replicate b Move.receive).foldl (raceStep id)
        ⟨true, some id, .sync, []⟩) .clearIdentity)).identity = some id
      rw [(race_sync id d (raceStep id _ .clearIdentity) h).1]
      simp [raceStep]
  | a + 2 =>
    refine iff_of_false ?_ (by simp [List.replicate_succ])
    rw [List.replicate_succ, List.replicate_succ, List.foldl_cons, List.foldl_cons]
    have h := (race_sync id a (⟨false, some id, .sync, []⟩ : Race) (.inl rfl)).2.2
    rw [show (raceStep id (raceStep id ({} : Race) Move.receive) Move.receive) = ⟨false, some id, .sync, []⟩ from rfl, late _ h]
    simp

/-- The close falls into the gap, or not. -/
example : ([.poll, .receive, .setClosed, .poll, .clearIdentity, .receive, .receive] : List Move).foldl (raceStep [1]) {} =
      ⟨true, some [1], .done, [[1]]⟩ ∧
    ([.receive, .setClosed, .receive, .clearIdentity, .receive, .poll] : List Move).foldl (raceStep [1]) {} = ⟨true, none, .done, []⟩ := by decide

example : (run {} [({}, .binary (asc "li9e1:ae")), ({}, .close), ({}, .binary (asc "li9e1:be")), ({}, .poll)]).2 = [.announce (asc "a") true] := by
  have h1 : onBinary (asc "li9e1:ae") = .call 9 [.bytes (asc "a")] := by decide +kernel
  have h2 : onBinary (asc "li9e1:be") = .call 9 [.bytes (asc "b")] := by decide +kernel
  have h6 : (asc "a").isEmpty = false := by decide +kernel
  simp [run, step, Ev.isSocket, onEvent, h1, h2, h6, handle, syncIdentity]

/-! ### C21 -/

/-- C21 as stated is false: a callback is called at every disconnect, and again when the response arrives after all. -/
theorem c21_counterexample :
    callsOf 7 (run {} [({}, .addCallback 1 7), ({}, .disconnected), ({}, .disconnected), ({}, .binary (asc "li100ei1edee"))]).2 =
      [none, none, some (.dict [])] := by
  have h1 : onBinary (asc "li100ei1edee") = .call 100 [.int 1, .dict []] := by decide +kernel
  simp [run, step, Ev.isSocket, onEvent, h1, handle, takeCallbacks, addCb, hardClose, callsOf]

/-- C21, what the code does, for every history: `None` at every disconnect until the response, then the result, then nothing. -/
theorem c21_exact_calls_partial (before after : List (Env × Ev)) (hb : Fair before) (ha : Fair after) (env : Env) (id : Int) (cb : Nat)
    (h1 : ∀ x ∈ before, ∀ i, x.2 ≠ .addCallback i cb) (h2 : ∀ x ∈ after, ∀ i, x.2 ≠ .addCallback i cb) :
    callsOf cb (run {} (before ++ (env, .addCallback id cb) :: after)).2 = callsMade id (after.map (·.2)) := by
  have hok : CbOk ({} : St) := by simp [CbOk]
  obtain ⟨c1, c2⟩ := run_calls_none {} before cb rfl hok hb rfl h1
  rw [run_append, callsOf_append, c1, List.nil_append]
  simp only [run, callsOf_append]
  have hh : (run {} before).1.hung = false := run_hung {} before hb
  have hk := run_CbOk {} before rfl hok hb
  have hstep := step_calls env (run {} before).1 (.addCallback id cb) cb hh hk (by simp)
  rw [run_calls (step env (run {} before).1 (.addCallback id cb)).1 after cb id hh hstep.1 ha (addCb_fresh id cb _ c2) h2]
  rfl

/-- C21 when there is no second call to make: the connection is lost at most once, and then no response comes any more. -/
theorem c21_once_partial (before after : List (Env × Ev)) (hb : Fair before) (ha : Fair after) (env : Env) (id : Int) (cb : Nat)
    (h1 : ∀ x ∈ before, ∀ i, x.2 ≠ .addCallback i cb) (h2 : ∀ x ∈ after, ∀ i, x.2 ≠ .addCallback i cb)
    (h3 : ∀ a b, after.map (·.2) = a ++ .disconnected :: b → .disconnected ∉ b ∧ ∀ e ∈ b, ∀ r, ¬ e.responds id r) :
    callsOf cb (run {} (before ++ (env, .addCallback id cb) :: after)).2 = callsWanted id (after.map (·.2)) := by
  rw [c21_exact_calls_partial before after hb ha env id cb h1 h2]
  generalize after.map (·.2) = es at h3
  induction es with
  | nil => rfl
  | cons e es ih =>
    have ih := ih (fun a b h => h3 (e :: a) b (by rw [h]; rfl))
    cases e with
    | disconnected =>
      obtain ⟨hd, hr⟩ := h3 [] es rfl
      simp only [callsMade, callsWanted]
      rw [callsMade_nil id es hd hr]
    | binary data =>
      simp only [callsMade, callsWanted]
      split
      · split
        · rfl
        · exact ih
      · exact ih
    | _ => exact ih

/-- C21: in every history the result of a response is delivered exactly once. -/
theorem c21_result_once_partial (id : Int) (es : List Ev) : ((callsMade id es).filter Option.isSome).length ≤ 1 ∧
    ((callsMade id es).filter Option.isSome = [] ↔ ∀ e ∈ es, ∀ r, ¬ e.responds id r) := by
  induction es with
  | nil => simp [callsMade]
  | cons e es ih =>
    cases e with
    | disconnected => simpa [callsMade, Ev.responds] using ih
    | binary data =>
      simp only [callsMade]
      split
      · rename_i i r hi
        split
        · rename_i he
          subst he
          refine ⟨by simp, ?_⟩
          simp only [List.filter_cons, Option.isSome_some, if_true, List.filter_nil, reduceCtorEq, List.mem_cons, false_iff]
          intro h
          exact h (.binary data) (.inl rfl) r ⟨data, rfl, hi⟩
        · rename_i he
          refine ⟨ih.1, ih.2.trans ?_⟩
          simp only [List.mem_cons, forall_eq_or_imp]
          refine ⟨fun h => ⟨?_, h⟩, fun h => h.2⟩
          rintro r' ⟨d', hd', hr'⟩
          simp only [Ev.binary.injEq] at hd'
          subst hd'
          rw [hi] at hr'
          simp only [Option.some.injEq, Prod.mk.injEq] at hr'
          exact he hr'.1
      · rename_i hi
        refine ⟨ih.1, ih.2.trans ?_⟩
        simp only [List.mem_cons, forall_eq_or_imp]
        refine ⟨fun h => ⟨?_, h⟩, fun h => h.2⟩
        rintro r' ⟨d', hd', hr'⟩
        simp only [Ev.binary.injEq] at hd'
        subst hd'
        rw [hi] at hr'
        simp at hr'
    | _ => simpa [callsMade, Ev.responds] using ih

/-! ### C26 -/

/-- C26 as stated is false: a channel that was open when the connection was lost stays in the table, closed; opening the number again
finds it, and data routed to it is lost. -/
theorem c26_counterexample :
    let hist : List (Env × Ev) := [({}, .binary (asc "li14ei1ee")), ({}, .disconnected), ({}, .ready), ({}, .binary (asc "li14ei1ee")),
      ({}, .chanOp 1 (.setCallbacks (some 4) none none)), ({}, .binary (asc "li6ei1e2:abe")), ({}, .chanOp 1 (.read 100))]
    seenBy 1 (run {} hist).2 = [.returned []] := by
  have h1 : onBinary (asc "li14ei1ee") = .call 14 [.int 1] := by decide +kernel
  have h2 : onBinary (asc "li6ei1e2:abe") = .call 6 [.int 1, .bytes (asc "ab")] := by decide +kernel
  have h3 : send 1 [] = some (asc "li1ee") := by decide +kernel
  simp [run, step, Ev.isSocket, onEvent, h1, h2, h3, handle, getChannel, WSClient.lookup, serviceOp, Channel.step, update, chanOut, hardClose, seenBy,
    Channel.readNow, Channel.readLoop]

/-- C26 for a number without a closed channel in the table (never used, closed by the server since, or still open): after the open, data routed
to the channel is delivered to its data callback or becomes readable, until the server closes it or the connection is lost. -/
theorem c26_delivers_partial (before : List (Env × Ev)) (hb : Fair before) (n : Int)
    (hn : ∀ c, WSClient.lookup n (run {} before).1.channels = some c → c.closed = false)
    (env0 : Env) (data0 : Bytes) (hl0 : data0.length ≤ maxSize) (ho : opens n data0)
    (hist : List (Env × Ev)) (hf : Fair hist) (hcl : ∀ x ∈ hist, ∀ data, x.2 = .binary data → ¬ closes n data)
    (hd : ∀ x ∈ hist, x.2 ≠ .disconnected)
    (env : Env) (data d : Bytes) (surplus : List PyVal) (hl : data.length ≤ maxSize)
    (hr : Bencode.decode data = .ok (.list (.int 6 :: .int n :: .bytes d :: surplus))) :
    let s' := (run (step env0 (run {} before).1 (.binary data0)).1 hist).1
    ∃ c c', WSClient.lookup n s'.channels = some c ∧ WSClient.lookup n (step env s' (.binary data)).1.channels = some c' ∧
      ((∃ cb, c.dataCb = some cb ∧ seenBy n (step env s' (.binary data)).2 = [.dataCall cb d]) ∨
       (c.dataCb = none ∧ c'.deque.flatten = c.deque.flatten ++ d)) := by
  have hs : (run {} before).1.hung = false := run_hung {} before hb
  have hk : (keys (run {} before).1.channels).Nodup := run_keys {} before (by simp [keys]) hb
  generalize (run {} before).1 = s at hn hs hk
  intro s'
  have h14 := (opens_call hl0 n).1 ho
  have hopen : WSClient.lookup n (step env0 s (.binary data0)).1.channels = some (getChannel n s.channels).2 := by
    simp only [step, Ev.isSocket, if_true, hs, Bool.false_eq_true, if_false, onEvent, h14, handle]
    rw [lookup_getChannel_self]
  have hopen' : (getChannel n s.channels).2.closed = false := by
    unfold getChannel
    split
    · rename_i hl; exact hn _ hl
    · rfl
  generalize (getChannel n s.channels).2 = c0 at hopen hopen'
  have hnh : ∀ data, Ev.binary data0 = .binary data → ¬ Hangs data := by
    intro data he
    simp only [Ev.binary.injEq] at he
    subst he
    intro h
    rw [(onBinary_hang_iff data0).2 h] at h14
    simp at h14
  have hs1 : (step env0 s (.binary data0)).1.hung = false := by rw [step_hung _ _ _ hnh]; exact hs
  have hk1 : (keys (step env0 s (.binary data0)).1.channels).Nodup := step_keys _ _ _ hk (by intro data he; simp only [Ev.binary.injEq] at he; subst he; exact hl0)
  obtain ⟨hrun, _⟩ := run_channel _ hist n c0 hs1 hk1 hopen hf hcl
  have hop : (Channel.run c0 (hist.flatMap fun x => opsFor n x.2)).1.closed = false := by
    have hno : ∀ op ∈ hist.flatMap (fun x => opsFor n x.2), op ≠ .onClose := by
      intro op ho
      obtain ⟨x, hx, hop⟩ := List.mem_flatMap.1 ho
      obtain ⟨env, e⟩ := x
      cases e with
      | disconnected => exact absurd rfl (hd _ hx)
      | binary data =>
        simp only [opsFor] at hop
        split at hop <;> (try split at hop) <;> simp_all
      | chanOp m o =>
        simp only [opsFor] at hop
        split at hop
        · rename_i hc
          simp only [List.mem_singleton] at hop
          subst hop
          rintro rfl
          simp [serviceOp] at hc
        · simp at hop
      | _ => simp [opsFor] at hop
    generalize hist.flatMap (fun x => opsFor n x.2) = ops at hno
    have : ∀ (c : Channel.Ch), c.closed = false → (Channel.run c ops).1.closed = false := by
      induction ops with
      | nil => intro c h; exact h
      | cons op ops ih =>
        intro c hc
        refine ih (fun o ho => hno o (by simp [ho])) _ ?_
        cases op with
        | onClose => exact absurd rfl (hno .onClose (by simp))
        | data d => cases hd : c.dataCb <;> simp [Channel.step, hc, hd]
        | control d => cases hd : c.ctrlCb <;> simp [Channel.step, hc, hd]
        | readBlocking k b => cases b <;> simp [Channel.step, Channel.readNow, hc]
        | finishWrite i => cases hd : c.pendingWrites[i]? <;> simp [Channel.step, hc, hd]
        | finishControl i => cases hd : c.pendingControl[i]? <;> simp [Channel.step, hc, hd]
        | finishClose => cases hd : c.pendingCloses <;> simp [Channel.step, hc, hd]
        | _ => simp [Channel.step, Channel.readNow, hc]
    exact this c0 hopen'
  have hs' : s'.hung = false := by rw [run_hung _ _ hf]; exact hs1
  have hk' : (keys s'.channels).Nodup := run_keys _ _ hk1 hf
  have hncl : ∀ data', Ev.binary data = .binary data' → ¬ closes n data' := by
    intro data' he
    simp only [Ev.binary.injEq] at he
    subst he
    rintro (⟨_, h⟩ | ⟨_, _, h, _⟩) <;> simp [decoded, decodedBytes, hr] at h
  obtain ⟨h1, h2⟩ := step_channel env s' (.binary data) n _ hs' hk' hrun (by intro data' he; simp only [Ev.binary.injEq] at he; subst he; exact hl) hncl
  have hops : opsFor n (.binary data) = [.data d] := by simp [opsFor, decoded, hr]
  rw [hops] at h1 h2
  refine ⟨_, _, hrun, h1, ?_⟩
  generalize (Channel.run c0 (hist.flatMap fun x => opsFor n x.2)).1 = c at hop h1 h2
  cases hcb : c.dataCb with
  | some cb =>
    left
    refine ⟨cb, rfl, ?_⟩
    rw [h2]
    simp [Channel.run, Channel.step, hop, hcb, local', Channel.isSend]
  | none =>
    right
    exact ⟨rfl, by simp [Channel.run, Channel.step, hop, hcb]⟩

/-- C26 fails in all other cases: if the table has a closed channel with this number, then after the open, and until the server closes it, data
routed to the channel calls no callback and is not stored either, whatever services do with the channel. -/
theorem c26_lost (before : List (Env × Ev)) (hb : Fair before) (n : Int) (c0 : Channel.Ch)
    (hn : WSClient.lookup n (run {} before).1.channels = some c0) (hc0 : c0.closed = true)
    (env0 : Env) (data0 : Bytes) (hl0 : data0.length ≤ maxSize) (ho : opens n data0)
    (hist : List (Env × Ev)) (hf : Fair hist) (hcl : ∀ x ∈ hist, ∀ data, x.2 = .binary data → ¬ closes n data)
    (env : Env) (data d : Bytes) (surplus : List PyVal) (hl : data.length ≤ maxSize)
    (hr : Bencode.decode data = .ok (.list (.int 6 :: .int n :: .bytes d :: surplus))) :
    let s' := (run (step env0 (run {} before).1 (.binary data0)).1 hist).1
    seenBy n (step env s' (.binary data)).2 = [] ∧
    WSClient.lookup n (step env s' (.binary data)).1.channels = WSClient.lookup n s'.channels := by
  have hs : (run {} before).1.hung = false := run_hung {} before hb
  have hk : (keys (run {} before).1.channels).Nodup := run_keys {} before (by simp [keys]) hb
  generalize (run {} before).1 = s at hn hs hk
  intro s'
  have h14 := (opens_call hl0 n).1 ho
  have hopen : WSClient.lookup n (step env0 s (.binary data0)).1.channels = some c0 := by
    simp only [step, Ev.isSocket, if_true, hs, Bool.false_eq_true, if_false, onEvent, h14, handle]
    rw [lookup_getChannel_self]
    simp [getChannel, hn]
  have hnh : ∀ data, Ev.binary data0 = .binary data → ¬ Hangs data := by
    intro data he
    simp only [Ev.binary.injEq] at he
    subst he
    intro h
    rw [(onBinary_hang_iff data0).2 h] at h14
    simp at h14
  have hs1 : (step env0 s (.binary data0)).1.hung = false := by rw [step_hung _ _ _ hnh]; exact hs
  have hk1 : (keys (step env0 s (.binary data0)).1.channels).Nodup := step_keys _ _ _ hk (by intro data he; simp only [Ev.binary.injEq] at he; subst he; exact hl0)
  obtain ⟨hrun, _⟩ := run_channel _ hist n c0 hs1 hk1 hopen hf hcl
  have hop : (Channel.run c0 (hist.flatMap fun x => opsFor n x.2)).1.closed = true := Channel.closed_run _ _ hc0
  have hs' : s'.hung = false := by rw [run_hung _ _ hf]; exact hs1
  have hk' : (keys s'.channels).Nodup := run_keys _ _ hk1 hf
  have hncl : ∀ data', Ev.binary data = .binary data' → ¬ closes n data' := by
    intro data' he
    simp only [Ev.binary.injEq] at he
    subst he
    rintro (⟨_, h⟩ | ⟨_, _, h, _⟩) <;> simp [decoded, decodedBytes, hr] at h
  obtain ⟨h1, h2⟩ := step_channel env s' (.binary data) n _ hs' hk' hrun (by intro data' he; simp only [Ev.binary.injEq] at he; subst he; exact hl) hncl
  have hops : opsFor n (.binary data) = [.data d] := by simp [opsFor, decoded, hr]
  rw [hops] at h1 h2
  rw [h1, h2]
  refine ⟨by simp [Channel.run, Channel.step, hop, local'], ?_⟩
  show _ = WSClient.lookup n s'.channels
  rw [show WSClient.lookup n s'.channels = _ from hrun]
  simp [Channel.run, Channel.step, hop]

/-- Data before the callback is set is readable, data after it is given to the callback. -/
example : seenBy 1 (run {} [({}, .binary (asc "li14ei1ee")), ({}, .binary (asc "li6ei1e2:abe")), ({}, .chanOp 1 (.read 100)),
    ({}, .chanOp 1 (.setCallbacks (some 4) none none)), ({}, .binary (asc "li6ei1e2:abe"))]).2 = [.returned (asc "ab"), .dataCall 4 (asc "ab")] := by
  have h1 : onBinary (asc "li14ei1ee") = .call 14 [.int 1] := by decide +kernel
  have h2 : onBinary (asc "li6ei1e2:abe") = .call 6 [.int 1, .bytes (asc "ab")] := by decide +kernel
  have h3 : Channel.readLoop [asc "ab"] 100 = ([asc "ab"], []) := by decide +kernel
  simp [run, step, Ev.isSocket, onEvent, h1, h2, h3, handle, getChannel, WSClient.lookup, serviceOp, Channel.step, update, chanOut, seenBy, Channel.readNow]

/-! ### C27 -/

/-- C27: an event that is not about channel `n` (not a message for it, not the loss of the connection, not a call on it) leaves it as
it was and calls none of its callbacks. -/
theorem c27_independent (hist : List (Env × Ev)) (hf : Fair hist) (env : Env) (e : Ev) (n : Int) (c : Channel.Ch)
    (hl : ∀ data, e = .binary data → data.length ≤ maxSize) (hc : WSClient.lookup n (run {} hist).1.channels = some c)
    (h1 : opsFor n e = []) (h2 : ∀ data, e = .binary data → ¬ closes n data) :
    WSClient.lookup n (step env (run {} hist).1 e).1.channels = some c ∧ seenBy n (step env (run {} hist).1 e).2 = [] := by
  have hs : (run {} hist).1.hung = false := run_hung {} hist hf
  have hk : (keys (run {} hist).1.channels).Nodup := run_keys {} hist (by simp [keys]) hf
  have := step_channel env _ e n c hs hk hc hl h2
  rw [h1] at this
  exact this

/-- C27: a message that routes data to, sends control data to, opens or closes channel `m` does not touch a different channel `n`, also
when `n` does not exist. -/
theorem c27_other_number (hist : List (Env × Ev)) (hf : Fair hist) (env : Env) (data : Bytes) (hl : data.length ≤ maxSize) (t m n : Int)
    (body : List PyVal) (hd : Bencode.decode data = .ok (.list (.int t :: .int m :: body))) (hmn : m ≠ n) :
    WSClient.lookup n (step env (run {} hist).1 (.binary data)).1.channels = WSClient.lookup n (run {} hist).1.channels ∧
    seenBy n (step env (run {} hist).1 (.binary data)).2 = [] := by
  have hl' : ∀ data', Ev.binary data = .binary data' → data'.length ≤ maxSize := by
    intro data' he; simp only [Ev.binary.injEq] at he; subst he; exact hl
  have hops : opsFor n (.binary data) = [] := by
    simp only [opsFor, decoded, hd]
    split
    · rename_i h; simp only [List.cons.injEq, PyVal.int.injEq] at h; rw [if_neg (h.2.1 ▸ hmn)]
    · rename_i h; simp only [List.cons.injEq, PyVal.int.injEq] at h; rw [if_neg (h.2.1 ▸ hmn)]
    · rfl
  have hcl : ∀ data', Ev.binary data = .binary data' → ¬ closes n data' := by
    intro data' he
    simp only [Ev.binary.injEq] at he
    subst he
    rintro (⟨_, h⟩ | ⟨_, _, h, _⟩)
    · simp only [decoded, hd, List.cons.injEq, PyVal.int.injEq] at h; exact hmn h.2.1
    · simp [decodedBytes, hd] at h
  cases hc : WSClient.lookup n (run {} hist).1.channels with
  | some c => exact c27_independent hist hf env _ n c hl' hc hops hcl
  | none =>
    refine step_absent env _ _ n hc hl' ?_
    rintro (h | ⟨_, h⟩ | ⟨_, _, h, _⟩)
    · exact h hops
    · simp only [decoded, hd, List.cons.injEq, PyVal.int.injEq] at h; exact hmn h.2.1
    · simp [decodedBytes, hd] at h

/-- Two channels: data for 1 leaves channel 2 and its buffer alone. -/
example : (run {} [({}, .binary (asc "li14ei2ee")), ({}, .binary (asc "li6ei1e2:abe"))]).1.channels =
    [(2, {}), (1, { deque := [asc "ab"], event := true })] := by
  have h1 : onBinary (asc "li14ei2ee") = .call 14 [.int 2] := by decide +kernel
  have h2 : onBinary (asc "li6ei1e2:abe") = .call 6 [.int 1, .bytes (asc "ab")] := by decide +kernel
  simp [run, step, Ev.isSocket, onEvent, h1, h2, handle, getChannel, WSClient.lookup, Channel.step, update]

/-! ### C28 -/

/-- C28: whatever happened before, after the server closed channel `n` and then opened it again, with anything in between that is not
about `n`, the channel is a new one: no data, no callbacks, not closed. -/
theorem c28_fresh (hist mid : List (Env × Ev)) (hf : Fair hist) (hm : Fair mid) (env1 env2 : Env) (data1 data2 : Bytes) (n : Int)
    (hl1 : data1.length ≤ maxSize) (hl2 : data2.length ≤ maxSize) (h1 : closes n data1) (h2 : opens n data2)
    (hmid : ∀ x ∈ mid, ¬ mentions n x.2) :
    WSClient.lookup n (step env2 (run (step env1 (run {} hist).1 (.binary data1)).1 mid).1 (.binary data2)).1.channels = some {} := by
  have hs : (run {} hist).1.hung = false := run_hung {} hist hf
  have hk : (keys (run {} hist).1.channels).Nodup := run_keys {} hist (by simp [keys]) hf
  have hc1 := (closes_call hl1 n).1 h1
  have hc2 := (opens_call hl2 n).1 h2
  have hgone : WSClient.lookup n (step env1 (run {} hist).1 (.binary data1)).1.channels = none := by
    simp only [step, Ev.isSocket, if_true, hs, Bool.false_eq_true, if_false, onEvent, hc1, handle]
    split
    · assumption
    · exact lookup_remove_self _ _ hk
  have hgone' := run_absent _ mid n hgone hm hmid
  have hnh : ∀ data, Ev.binary data1 = .binary data → ¬ Hangs data := by
    intro data he
    simp only [Ev.binary.injEq] at he
    subst he
    intro h
    rw [(onBinary_hang_iff data1).2 h] at hc1
    simp at hc1
  have hs' : (run (step env1 (run {} hist).1 (.binary data1)).1 mid).1.hung = false := by rw [run_hung _ _ hm, step_hung _ _ _ hnh]; exact hs
  generalize (run (step env1 (run {} hist).1 (.binary data1)).1 mid).1 = s at hgone' hs'
  simp only [step, Ev.isSocket, if_true, hs', Bool.false_eq_true, if_false, onEvent, hc2, handle]
  rw [lookup_getChannel_self]
  simp [getChannel, hgone']

/-- Data buffered before the close is gone, the callback too. -/
example : (WSClient.lookup 1 (run {} [({}, .binary (asc "li14ei1ee")), ({}, .binary (asc "li6ei1e2:abe")), ({}, .chanOp 1 (.setCallbacks (some 4) none none)),
    ({}, .binary (asc "li19ei1ee")), ({}, .binary (asc "li14ei1ee"))]).1.channels) = some {} := by
  have h1 : onBinary (asc "li14ei1ee") = .call 14 [.int 1] := by decide +kernel
  have h2 : onBinary (asc "li6ei1e2:abe") = .call 6 [.int 1, .bytes (asc "ab")] := by decide +kernel
  have h3 : onBinary (asc "li19ei1ee") = .call 19 [.int 1] := by decide +kernel
  simp [run, step, Ev.isSocket, onEvent, h1, h2, h3, handle, getChannel, WSClient.lookup, serviceOp, Channel.step, update, remove]

/-! ### C90 -/

/-- C90: over every history in which the server does not close channel `n`, the channel behaves as if only its own traffic existed: its
state and the callbacks it calls are those of the class `Channel` (C22-C25) run on exactly the data and control messages for `n`, the
losses of the connection and the calls of services on `n`. -/
theorem c90_own_traffic (before hist : List (Env × Ev)) (hb : Fair before) (hf : Fair hist) (n : Int) (c : Channel.Ch)
    (hc : WSClient.lookup n (run {} before).1.channels = some c)
    (hcl : ∀ x ∈ hist, ∀ data, x.2 = .binary data → ¬ closes n data) :
    let ops := hist.flatMap fun x => opsFor n x.2
    WSClient.lookup n (run (run {} before).1 hist).1.channels = some (Channel.run c ops).1 ∧
    seenBy n (run (run {} before).1 hist).2 = local' (Channel.run c ops).2 :=
  run_channel _ hist n c (run_hung {} before hb) (run_keys {} before (by simp [keys]) hb) hc hf hcl

/-- C90: what a service writes to a channel, its control messages and its request to close each become exactly one message with the
number of the channel. -/
theorem c90_sends (n : Int) (d : Bytes) (hd : d.length ≤ maxSize) :
    (∃ m, chanOut n (.sendData d) = [.sent m] ∧ IsMessage m 5 [.int n, .bytes d]) ∧
    (∃ m, chanOut n (.sendControl d) = [.sent m] ∧ IsMessage m 22 [.int n, .bytes d]) ∧
    (∃ m, chanOut n .requestClose = [.sent m] ∧ IsMessage m 11 [.int n]) := by
  obtain ⟨m1, h1, w1⟩ := send_data n d hd
  obtain ⟨m2, h2, w2⟩ := send_ctrl n d hd
  obtain ⟨m3, h3, w3⟩ := send_close n
  exact ⟨⟨m1, by simp [chanOut, h1], w1⟩, ⟨m2, by simp [chanOut, h2], w2⟩, ⟨m3, by simp [chanOut, h3], w3⟩⟩

example : chanOut 3 (.sendData (asc "hi")) = [.sent (asc "li5ei3e2:hie")] := by
  have h : send 5 [("channel", .int 3), ("data", .bytes (asc "hi"))] = some (asc "li5ei3e2:hie") := by decide +kernel
  simp [chanOut, h]

/-! ### C100 -/

/-- C100 fails: the receive thread ends because of an exception from the websocket (or on exit) while channel 1 has a service with a close
callback; the callback is never called and the channel is still open.  The line that was to close down raises itself. -/
theorem c100_counterexample (stop : Stop) :
    let hist : List (Env × Ev) := [({}, .ready), ({}, .binary (asc "li14ei1ee")), ({}, .chanOp 1 (.setCallbacks (some 4) (some 5) none)),
      ({}, .binary (asc "li6ei1e2:abe"))]
    (∃ c, WSClient.lookup 1 (thread {} hist stop).1.channels = some c ∧ c.closed = false ∧ c.closeCb = some 5) ∧
    seenBy 1 (thread {} hist stop).2.1 = [.dataCall 4 (asc "ab")] ∧ (thread {} hist stop).2.2 = .attributeError := by
  have h1 : onBinary (asc "li14ei1ee") = .call 14 [.int 1] := by decide +kernel
  have h2 : onBinary (asc "li6ei1e2:abe") = .call 6 [.int 1, .bytes (asc "ab")] := by decide +kernel
  have h3 : send 1 [] = some (asc "li1ee") := by decide +kernel
  simp [thread, run, step, Ev.isSocket, onEvent, h1, h2, h3, handle, getChannel, WSClient.lookup, serviceOp, Channel.step, update, chanOut, seenBy]

/-- C100: when the connection is lost, every channel of the client is closed at once, and the close callback of each one that was open is
called, exactly once. -/
theorem c100_disconnect (hist : List (Env × Ev)) (hf : Fair hist) (env : Env) (n : Int) (c : Channel.Ch)
    (hc : WSClient.lookup n (run {} hist).1.channels = some c) :
    WSClient.lookup n (step env (run {} hist).1 .disconnected).1.channels = some { c with closed := true } ∧
    seenBy n (step env (run {} hist).1 .disconnected).2 = (if c.closed then [] else (c.closeCb.map Channel.Out.closeCall).toList) := by
  have hs : (run {} hist).1.hung = false := run_hung {} hist hf
  have hk : (keys (run {} hist).1.channels).Nodup := run_keys {} hist (by simp [keys]) hf
  obtain ⟨h1, h2⟩ := step_channel env _ .disconnected n c hs hk hc (by intro data h; simp at h) (by intro data h; simp at h)
  have ho : opsFor n .disconnected = [.onClose] := rfl
  rw [ho] at h1 h2
  rw [h1, h2]
  obtain ⟨closed, _, closeCb, _, _, _, _, _, _⟩ := c
  cases closed <;> cases closeCb <;> simp [Channel.run, Channel.step, local', Channel.isSend]

/-- C100 where it holds: if the last thing the receive thread saw is the loss of the connection, then all channels are closed when it ends,
whatever services did since.  Missing for the full property: `c100_counterexample`. -/
theorem c100_end_partial (hist after : List (Env × Ev)) (hf : Fair hist) (env : Env) (stop : Stop)
    (ha : ∀ x ∈ after, x.2.isSocket = false ∧ ∀ m, x.2 ≠ .getChannel m) :
    ∀ x ∈ (thread {} (hist ++ (env, .disconnected) :: after) stop).1.channels, x.2.closed = true := by
  have hs : (run {} hist).1.hung = false := run_hung {} hist hf
  have h0 : ∀ x ∈ (step env (run {} hist).1 .disconnected).1.channels, x.2.closed = true := by
    simp only [step, Ev.isSocket, if_true, hs, Bool.false_eq_true, if_false, onEvent]
    generalize (run {} hist).1.channels = chs
    induction chs with
    | nil => simp [hardClose]
    | cons y chs ih =>
      intro x hx
      simp only [hardClose, List.mem_cons] at hx
      rcases hx with rfl | hx
      · simp only [Channel.step]; split <;> simp_all
      · exact ih x hx
  have hrun : (thread {} (hist ++ (env, .disconnected) :: after) stop).1 = (run (step env (run {} hist).1 .disconnected).1 after).1 := by
    simp only [thread, run_append, run]
  rw [hrun]
  clear hrun
  generalize (step env (run {} hist).1 .disconnected).1 = s at h0
  induction after generalizing s with
  | nil => exact h0
  | cons y after ih =>
    obtain ⟨e, ev⟩ := y
    obtain ⟨hy1, hy2⟩ := ha (e, ev) (by simp)
    refine ih (fun x hx => ha x (by simp [hx])) _ ?_
    simp only at hy1 hy2
    cases ev with
    | ready => simp [Ev.isSocket] at hy1
    | disconnected => simp [Ev.isSocket] at hy1
    | binary d => simp [Ev.isSocket] at hy1
    | poll => simp [Ev.isSocket] at hy1
    | other => simp [Ev.isSocket] at hy1
    | close => exact h0
    | addCallback i cb => exact h0
    | getChannel m => exact absurd rfl (hy2 m)
    | chanOp m op =>
      simp only [step, Ev.isSocket, Bool.false_eq_true, if_false]
      split
      · rename_i hop
        cases hl : WSClient.lookup m s.channels with
        | none => exact h0
        | some c =>
          have hcm : (m, c) ∈ s.channels := by
            clear h0 ih ha
            generalize s.channels = chs at hl
            induction chs with
            | nil => simp [WSClient.lookup] at hl
            | cons z chs ih =>
              obtain ⟨k, c'⟩ := z
              simp only [WSClient.lookup] at hl
              split at hl
              · rename_i hk; simp only [Option.some.injEq] at hl; subst hk hl; simp
              · simp [ih hl]
          have hcc := h0 _ hcm
          simp only at hcc
          have hcl : (Channel.step c op).1.closed = true := by
            cases op with
            | data d => simp [serviceOp] at hop
            | control d => simp [serviceOp] at hop
            | onClose => simp [serviceOp] at hop
            | readBlocking k b => cases b <;> simp [Channel.step, Channel.readNow, hcc]
            | finishWrite i => cases hd : c.pendingWrites[i]? <;> simp [Channel.step, hcc, hd]
            | finishControl i => cases hd : c.pendingControl[i]? <;> simp [Channel.step, hcc, hd]
            | finishClose => cases hd : c.pendingCloses <;> simp [Channel.step, hcc, hd]
            | _ => simp [Channel.step, Channel.readNow, hcc]
          have hup : ∀ x ∈ update m (Channel.step c op).1 s.channels, x.2.closed = true := by
            clear ih ha hl hcm
            generalize s.channels = chs at h0
            induction chs with
            | nil => simp [update]
            | cons z chs ih =>
              obtain ⟨k, c'⟩ := z
              intro x hx
              simp only [update] at hx
              split at hx
              · rcases List.mem_cons.1 hx with rfl | hx
                · exact hcl
                · exact h0 x (by simp [hx])
              · rcases List.mem_cons.1 hx with rfl | hx
                · exact h0 (k, c') (by simp)
                · exact ih (fun x hx => h0 x (by simp [hx])) x hx
          exact hup
      · exact h0

/-- Two channels, one with a close callback, one already closed for its service. -/
example : seenBy 1 (thread {} [({}, .binary (asc "li14ei1ee")), ({}, .chanOp 1 (.setCallbacks none (some 5) none)), ({}, .disconnected),
    ({}, .chanOp 1 (.beginWrite (asc "x")))] .exits).2.1 = [.closeCall 5] := by
  have h1 : onBinary (asc "li14ei1ee") = .call 14 [.int 1] := by decide +kernel
  simp [thread, run, step, Ev.isSocket, onEvent, h1, handle, getChannel, WSClient.lookup, serviceOp, Channel.step, update, chanOut, seenBy, hardClose]

end Verif.Props
