import Verif.Proofs.WSClient3
import Verif.Spec.Wire
/-! Lemmas about the messages that reach the server. -/
namespace Verif.WSClient
open Verif Packets Dispatcher Bencode

theorem sentOf_append (a b) : sentOf (a ++ b) = sentOf a ++ sentOf b := List.filterMap_append

theorem wire_append (n a b) : wire n (a ++ b) = wire n a ++ wire n b := by
  simp [wire, sentOf_append, List.filterMap_append]

theorem sized_append {a b} : Sized (a ++ b) ↔ Sized a ∧ Sized b := by
  simp only [Sized, sentOf_append, List.mem_append]
  exact ⟨fun h => ⟨fun m hm => h m (.inl hm), fun m hm => h m (.inr hm)⟩, fun h m hm => hm.elim (h.1 m) (h.2 m)⟩

/-! ### What a message decodes to -/

/-- The bencode view of text is its bytes. -/
def flatView : PyVal → PyVal
  | .text t => .bytes (utf8Encode t)
  | v => v

/-- Integers, byte strings and text. -/
def Flat (vals : List PyVal) : Prop := ∀ v ∈ vals, (∃ i, v = .int i) ∨ (∃ b, v = .bytes b) ∨ ∃ t, v = .text t

theorem flat_wf {vals : List PyVal} {m : Bytes} (hf : Flat vals) (h : addEncodeList vals = some m) (hm : m.length ≤ maxSize) : WFList vals := by
  induction vals generalizing m with
  | nil => exact .nil
  | cons v vs ih =>
    simp only [addEncodeList, Option.pure_def, Option.bind_eq_bind] at h
    cases ha : addEncode v with
    | none => simp [ha] at h
    | some a =>
      cases hb : addEncodeList vs with
      | none => simp [ha, hb] at h
      | some b =>
        simp only [ha, hb, Option.bind_some, Option.some.injEq] at h
        subst h
        simp only [List.length_append] at hm
        refine .cons ?_ (ih (fun x hx => hf x (List.mem_cons_of_mem _ hx)) hb (by omega))
        rcases hf v (by simp) with ⟨i, rfl⟩ | ⟨c, rfl⟩ | ⟨t, rfl⟩
        · exact .int _
        · simp only [addEncode, Option.some.injEq] at ha
          subst ha
          simp only [encBytes, List.length_append, List.length_cons] at hm
          exact .bytes (by omega)
        · simp only [addEncode, Option.some.injEq] at ha
          subst ha
          simp only [encBytes, List.length_append, List.length_cons] at hm
          exact .text (by omega)

theorem flat_view {vals vals' : List PyVal} (hf : Flat vals) (h : SameList vals vals') : vals' = vals.map flatView := by
  induction vals generalizing vals' with
  | nil => cases h; rfl
  | cons v vs ih =>
    cases h with
    | cons h1 h2 =>
      rw [ih (fun x hx => hf x (by simp [hx])) h2]
      rcases hf v (by simp) with ⟨i, rfl⟩ | ⟨b, rfl⟩ | ⟨t, rfl⟩ <;> cases h1 <;> rfl

theorem encode_addEncode {v : PyVal} {m : Bytes} (h : encode v = .ok m) : addEncode v = some m := by
  simp only [encode] at h
  split at h
  · exact (nomatch h)
  · rename_i d hd
    split at h
    · split at h
      · exact (nomatch h)
      · injection h with h; rw [hd, h]
    · exact (nomatch h)
    · exact (nomatch h)

theorem flat_list_wf {vals : List PyVal} {m : Bytes} (hf : Flat vals) (h : encode (.list vals) = .ok m) (hm : m.length ≤ maxSize) :
    WF (.list vals) := by
  have h := encode_addEncode h
  simp only [addEncode, Option.map_eq_some_iff] at h
  obtain ⟨b, hb, rfl⟩ := h
  simp only [List.length_append, List.length_cons] at hm
  exact .list (flat_wf hf hb (by omega))

/-- The decoder's view of a flat message. -/
theorem flat_decoded {vals : List PyVal} {m : Bytes} (hf : Flat vals) (h : encode (.list vals) = .ok m) (hm : m.length ≤ maxSize) :
    decoded m = vals.map flatView ∧ Wire (.list vals) m := by
  have hw := flat_list_wf hf h hm
  refine ⟨?_, Props.c89_wire_format _ _ hw h⟩
  obtain ⟨w, h1, h2⟩ := Props.c01_round_trip_any _ _ hw h
  cases h2 with
  | list h2 => rw [decoded, h1]; exact flat_view hf h2

/-! ### What `send` sends -/

theorem flat_supp {vals : List PyVal} (hf : Flat vals) : SupportedList vals := by
  induction vals with
  | nil => exact .nil
  | cons v vs ih =>
    refine .cons ?_ (ih (fun x hx => hf x (by simp [hx])))
    rcases hf v (by simp) with ⟨i, rfl⟩ | ⟨b, rfl⟩ | ⟨t, rfl⟩
    · exact .int _
    · exact .bytes _
    · exact .text _

theorem flat1 : Flat [] := by simp [Flat]

/-- What the message of a packet is: nothing, or the encoding of its number and values. -/
theorem send_some {n : Nat} {kwargs : List (String × PyVal)} {c : PClass} {vals m} (hc : lookupClass n = some c)
    (hk : construct (fun _ => "") c [] kwargs = .ok ⟨c, vals⟩) (h : send n kwargs = some m) : encode (.list (.int n :: vals)) = .ok m := by
  have hn : (c.num : Int) = n := by have := ((lookupClass_iff n c).1 hc).2; omega
  simp only [send, create, hc, hk, encodeBinary, encodeList, hn] at h
  split at h
  · rename_i d hd; injection h with h; rw [← h]; exact hd
  · exact (nomatch h)

theorem enc_join {m} (h : send 1 [] = some m) : encode (.list [.int 1]) = .ok m :=
  send_some (c := ⟨1, "RequestJoinPacket", []⟩) (by decide +kernel) (by simp [construct, checkAttrs]) h

theorem enc_identify {id m} (h : send 2 [("uuid", .bytes id)] = some m) : encode (.list [.int 2, .bytes id]) = .ok m :=
  send_some (c := ⟨2, "RequestIdentifyPacket", [("uuid", .bytes)]⟩) (by decide +kernel)
    (by simp [construct, collect, checkAttrs, setParam, getParam, convArg, AType.has]) h

theorem enc_pong {d m} (h : send 8 [("data", .bytes d)] = some m) : encode (.list [.int 8, .bytes d]) = .ok m :=
  send_some (c := ⟨8, "PongPacket", [("data", .bytes)]⟩) (by decide +kernel)
    (by simp [construct, collect, checkAttrs, setParam, getParam, convArg, AType.has]) h

theorem enc_data {n : Int} {d m} (h : send 5 [("channel", .int n), ("data", .bytes d)] = some m) :
    encode (.list [.int 5, .int n, .bytes d]) = .ok m :=
  send_some (c := ⟨5, "RequestSendPacket", [("channel", .int), ("data", .bytes)]⟩) (by decide +kernel)
    (by simp [construct, collect, checkAttrs, setParam, getParam, convArg, AType.has]) h

theorem enc_ctrl {n : Int} {d m} (h : send 22 [("channel", .int n), ("data", .bytes d)] = some m) :
    encode (.list [.int 22, .int n, .bytes d]) = .ok m :=
  send_some (c := ⟨22, "RequestSendControlPacket", [("channel", .int), ("data", .bytes)]⟩) (by decide +kernel)
    (by simp [construct, collect, checkAttrs, setParam, getParam, convArg, AType.has]) h

theorem enc_close {n : Int} {m} (h : send 11 [("port", .int n)] = some m) : encode (.list [.int 11, .int n]) = .ok m :=
  send_some (c := ⟨11, "RequestClosePacket", [("port", .int)]⟩) (by decide +kernel)
    (by simp [construct, collect, checkAttrs, setParam, getParam, convArg, AType.has]) h

theorem outgoing_flat {n vals} (h : Outgoing n vals) : Flat (.int n :: vals) := by
  cases h <;> simp [Flat]

/-- The message of an outgoing packet. -/
def IsOut (m : Bytes) : Prop := ∃ n vals, Outgoing n vals ∧ encode (.list (.int n :: vals)) = .ok m

/-- The same, and it is not for a channel. -/
def IsOwn (m : Bytes) : Prop := ∃ n vals, Outgoing n vals ∧ n ≠ 5 ∧ n ≠ 22 ∧ n ≠ 11 ∧ encode (.list (.int n :: vals)) = .ok m

theorem IsOwn.isOut {m} (h : IsOwn m) : IsOut m := by obtain ⟨n, v, h1, _, _, _, h2⟩ := h; exact ⟨n, v, h1, h2⟩

theorem own_toServer {k m} (h : IsOwn m) (hm : m.length ≤ maxSize) : toServer k m = none := by
  obtain ⟨n, vals, ho, h5, h22, h11, he⟩ := h
  have hd := (flat_decoded (outgoing_flat ho) he hm).1
  unfold toServer
  rw [hd]
  cases ho <;> simp_all [flatView]

theorem own_wire {k outs} (h : ∀ m ∈ sentOf outs, IsOwn m) (hs : Sized outs) : wire k outs = [] := by
  rw [wire, List.filterMap_eq_nil_iff]
  exact fun m hm => own_toServer (h m hm) (hs m hm)

/-- The data in an output of a channel fit a Python byte string. -/
def OutSized (o : Channel.Out) : Prop := ∀ d, o = .sendData d ∨ o = .sendControl d → d.length ≤ maxSize

theorem sent_wire (k : Int) (m : Bytes) : wire k [.sent m] = (toServer k m).toList := by
  simp only [wire, sentOf, List.filterMap_cons, List.filterMap_nil]
  cases toServer k m <;> rfl

theorem flat_decoded' {vals : List PyVal} {m : Bytes} (hf : Flat vals) (hw : WFList vals) (h : encode (.list vals) = .ok m) :
    decoded m = vals.map flatView := by
  obtain ⟨w, h1, h2⟩ := Props.c01_round_trip_any _ _ (.list hw) h
  cases h2 with
  | list h2 => rw [decoded, h1]; exact flat_view hf h2

/-- An output of channel `n` as the server sees it. -/
theorem chanOut_wire (k n : Int) (o : Channel.Out) (hs : OutSized o) :
    wire k (chanOut n o) = if n = k ∧ Channel.isSend o = true then [o] else [] := by
  cases o with
  | sendData d =>
    have hd := hs d (.inl rfl)
    obtain ⟨m, h1, _⟩ := send_data n d hd
    have h2 := flat_decoded' (by simp [Flat]) (.cons (.int _) (.cons (.int _) (.cons (.bytes hd) .nil))) (enc_data h1)
    simp only [chanOut, h1, Option.map_some, Option.toList_some, sent_wire, toServer, h2, List.map_cons, List.map_nil, flatView, Channel.isSend]
    split <;> simp_all
  | sendControl d =>
    have hd := hs d (.inr rfl)
    obtain ⟨m, h1, _⟩ := send_ctrl n d hd
    have h2 := flat_decoded' (by simp [Flat]) (.cons (.int _) (.cons (.int _) (.cons (.bytes hd) .nil))) (enc_ctrl h1)
    simp only [chanOut, h1, Option.map_some, Option.toList_some, sent_wire, toServer, h2, List.map_cons, List.map_nil, flatView, Channel.isSend]
    split <;> simp_all
  | requestClose =>
    obtain ⟨m, h1, _⟩ := send_close n
    have h2 := flat_decoded' (by simp [Flat]) (.cons (.int _) (.cons (.int _) .nil)) (enc_close h1)
    simp only [chanOut, h1, Option.map_some, Option.toList_some, sent_wire, toServer, h2, List.map_cons, List.map_nil, flatView, Channel.isSend]
    split <;> simp_all
  | dataCall _ _ => simp [chanOut, wire, sentOf, Channel.isSend]
  | closeCall _ => simp [chanOut, wire, sentOf, Channel.isSend]
  | ctrlCall _ _ => simp [chanOut, wire, sentOf, Channel.isSend]
  | returned _ => simp [chanOut, wire, sentOf, Channel.isSend]

theorem chanOuts_wire (k n : Int) (os : List Channel.Out) (hs : ∀ o ∈ os, OutSized o) :
    wire k (os.flatMap (chanOut n)) = if n = k then os.filter Channel.isSend else [] := by
  induction os with
  | nil => simp [wire, sentOf]
  | cons o os ih =>
    rw [List.flatMap_cons, wire_append, chanOut_wire _ _ _ (hs o (by simp)), ih (fun x hx => hs x (by simp [hx]))]
    by_cases h : n = k
    · cases ho : Channel.isSend o <;> simp [h, ho]
    · simp [h]

/-- Outputs that are not messages. -/
theorem chanOuts_own (n : Int) (os : List Channel.Out) (h : ∀ o ∈ os, Channel.isSend o = false) : sentOf (os.flatMap (chanOut n)) = [] := by
  induction os with
  | nil => rfl
  | cons o os ih =>
    rw [List.flatMap_cons, sentOf_append, ih (fun x hx => h x (by simp [hx]))]
    have := h o (by simp)
    cases o <;> simp_all [chanOut, sentOf, Channel.isSend]

/-- What the receive thread does to a channel sends nothing. -/
theorem receive_quiet (c : Channel.Ch) (op : Channel.Op) (h : serviceOp op = false) : ∀ o ∈ (Channel.step c op).2, Channel.isSend o = false := by
  intro o ho
  cases op <;> simp [serviceOp] at h <;> simp only [Channel.step] at ho
  · split at ho
    · simp at ho
    · split at ho <;> simp at ho; subst ho; rfl
  · split at ho
    · simp at ho
    · split at ho <;> simp at ho; subst ho; rfl
  · split at ho
    · simp at ho
    · simp only at ho
      split at ho <;> simp at ho; subst ho; rfl

theorem hardClose_own (chs) : sentOf (hardClose chs).2 = [] := by
  induction chs with
  | nil => rfl
  | cons y chs ih =>
    obtain ⟨k, d⟩ := y
    simp only [hardClose, sentOf_append, ih, List.append_nil]
    exact chanOuts_own _ _ (receive_quiet d .onClose rfl)

theorem syncIdentity_own (env s) : sentOf (syncIdentity env s).2 = [] := by
  unfold syncIdentity
  split
  · rfl
  · split <;> rfl

theorem sentOf_map {α} (l : List α) (f : α → Out) (h : ∀ x, ∀ m, f x ≠ .sent m) : sentOf (l.map f) = [] := by
  rw [sentOf, List.filterMap_eq_nil_iff]
  intro o ho
  obtain ⟨x, _, rfl⟩ := List.mem_map.1 ho
  split
  · rename_i m hm; exact absurd hm (h x m)
  · rfl

theorem scan_own {msg : Text} {p m} (h1 : create (fun _ => "") 30 [.text msg] [] = .ok p) (h2 : encodeBinary p = .ok m) : IsOwn m := by
  have hc : lookupClass 30 = some ⟨30, "ScanRemoteDirectoryResult", [("error", .bytes)]⟩ := by decide +kernel
  simp only [create, hc] at h1
  simp [construct, collect, checkAttrs, setParam, getParam, convArg, AType.has] at h1
  subst h1
  exact ⟨30, _, .scan _, by decide, by decide, by decide, h2⟩

theorem handle_own (env s num args) : ∀ m ∈ sentOf (handle env s num args).2.1, IsOwn m := by
  unfold handle
  split
  · split
    · simp [sentOf]
    · rw [syncIdentity_own]; simp
  · split
    · rename_i d m hm
      intro m' h'
      simp [sentOf] at h'
      subst h'
      exact ⟨8, _, .pong _, by decide, by decide, by decide, enc_pong hm⟩
    · simp [sentOf]
  · rw [chanOuts_own _ _ (receive_quiet _ _ rfl)]; simp
  · rw [chanOuts_own _ _ (receive_quiet _ _ rfl)]; simp
  · simp [sentOf]
  · split
    · simp [sentOf]
    · rw [chanOuts_own _ _ (receive_quiet _ _ rfl)]; simp
  · simp [sentOf]
  · rw [sentOf_map _ _ (by simp)]; simp
  · simp [sentOf]
  · split
    · simp [sentOf]
    · split
      · rename_i p hp
        split
        · rename_i m hm
          intro m' h'
          simp [sentOf] at h'
          subst h'
          exact scan_own hp hm
        · simp [sentOf]
      · simp [sentOf]
  all_goals simp [sentOf]

/-- What an event of the websocket makes the client send. -/
theorem socket_own (env s e) (he : e.isSocket = true) : ∀ m ∈ sentOf (step env s e).2, IsOwn m := by
  simp only [step, he, if_true]
  split
  · simp [sentOf]
  · cases e <;> simp [Ev.isSocket] at he <;> simp only [onEvent]
    · split
      · split
        · rename_i m hm
          intro m' h'
          simp [sentOf] at h'
          subst h'
          exact ⟨1, _, .join, by decide, by decide, by decide, enc_join hm⟩
        · simp [sentOf]
      · split
        · rename_i m hm
          intro m' h'
          simp [sentOf] at h'
          subst h'
          exact ⟨2, _, .identify _, by decide, by decide, by decide, enc_identify hm⟩
        · simp [sentOf]
    · rw [sentOf_append, hardClose_own]
      have : sentOf (s.callbacks.flatMap fun e => e.2.map fun cb => Out.cmdCall cb none) = [] := by
        rw [sentOf, List.filterMap_eq_nil_iff]
        intro o ho
        obtain ⟨a, _, ha⟩ := List.mem_flatMap.1 ho
        obtain ⟨cb, _, rfl⟩ := List.mem_map.1 ha
        rfl
      rw [this]; simp
    · split
      · simp [sentOf]
      · simp [sentOf]
      · simp [sentOf]
      · rename_i num args _
        rw [sentOf_append]
        have : ∀ b : Bool, sentOf (if b then [Out.logged] else []) = [] := by intro b; cases b <;> rfl
        rw [this, List.append_nil]
        exact handle_own env s num args
    · rw [syncIdentity_own]; simp
    · simp [sentOf]

theorem chanOut_kinds (n : Int) (o : Channel.Out) : ∀ m ∈ sentOf (chanOut n o), ∃ j vals, Outgoing j vals ∧ vals.head? = some (.int n) ∧
    encode (.list (.int j :: vals)) = .ok m := by
  intro m hm
  cases o with
  | sendData d =>
    simp only [chanOut] at hm
    cases h : send 5 [("channel", .int n), ("data", .bytes d)] with
    | none => rw [h] at hm; simp [sentOf] at hm
    | some x =>
      rw [h] at hm
      simp [sentOf] at hm
      subst hm
      exact ⟨5, _, .data n d, rfl, enc_data h⟩
  | sendControl d =>
    simp only [chanOut] at hm
    cases h : send 22 [("channel", .int n), ("data", .bytes d)] with
    | none => rw [h] at hm; simp [sentOf] at hm
    | some x =>
      rw [h] at hm
      simp [sentOf] at hm
      subst hm
      exact ⟨22, _, .control n d, rfl, enc_ctrl h⟩
  | requestClose =>
    simp only [chanOut] at hm
    cases h : send 11 [("port", .int n)] with
    | none => rw [h] at hm; simp [sentOf] at hm
    | some x =>
      rw [h] at hm
      simp [sentOf] at hm
      subst hm
      exact ⟨11, _, .close n, rfl, enc_close h⟩
  | dataCall _ _ => simp [chanOut, sentOf] at hm
  | closeCall _ => simp [chanOut, sentOf] at hm
  | ctrlCall _ _ => simp [chanOut, sentOf] at hm
  | returned _ => simp [chanOut, sentOf] at hm

theorem sentOf_flatMap (n : Int) (os : List Channel.Out) {m} (h : m ∈ sentOf (os.flatMap (chanOut n))) : ∃ o ∈ os, m ∈ sentOf (chanOut n o) := by
  induction os with
  | nil => simp [sentOf] at h
  | cons o os ih =>
    rw [List.flatMap_cons, sentOf_append, List.mem_append] at h
    rcases h with h | h
    · exact ⟨o, by simp, h⟩
    · obtain ⟨x, hx, h⟩ := ih h; exact ⟨x, by simp [hx], h⟩

/-- What one channel sends is not for another one. -/
theorem chanOuts_other (k n : Int) (hk : n ≠ k) (os : List Channel.Out) (hs : Sized (os.flatMap (chanOut n))) :
    wire k (os.flatMap (chanOut n)) = [] := by
  rw [wire, List.filterMap_eq_nil_iff]
  intro m hm
  obtain ⟨o, _, ho⟩ := sentOf_flatMap n os hm
  obtain ⟨j, vals, h1, h2, h3⟩ := chanOut_kinds n o m ho
  have hd := (flat_decoded (outgoing_flat h1) h3 (hs m hm)).1
  unfold toServer
  rw [hd]
  cases h1 <;> simp_all [flatView]

theorem step_own_none (env s e n) (he : ∀ op, e ≠ .chanOp n op) (hs : Sized (step env s e).2) : wire n (step env s e).2 = [] := by
  by_cases hso : e.isSocket = true
  · exact own_wire (socket_own env s e hso) hs
  · cases e <;> simp [Ev.isSocket] at hso
    · rfl
    · rfl
    · rfl
    · rename_i m op
      have hm : m ≠ n := by rintro rfl; exact he op rfl
      revert hs
      simp only [step, Ev.isSocket, Bool.false_eq_true, if_false]
      split
      · split
        · intro _; rfl
        · exact fun hs => chanOuts_other n m hm _ hs
      · intro _; rfl

theorem receive_filter (c : Channel.Ch) (op : Channel.Op) (h : serviceOp op = false) : (Channel.step c op).2.filter Channel.isSend = [] := by
  rw [List.filter_eq_nil_iff]
  intro o ho
  rw [receive_quiet c op h o ho]; simp

/-- One event and the messages for an existing channel. -/
theorem step_wire (env s e n c) (hc : lookup n s.channels = some c) (hs : Sized (step env s e).2)
    (ho : ∀ o ∈ (Channel.run c (opsFor n e)).2, OutSized o) :
    wire n (step env s e).2 = (Channel.run c (opsFor n e)).2.filter Channel.isSend := by
  by_cases he : ∃ op, e = .chanOp n op
  · obtain ⟨op, rfl⟩ := he
    revert ho
    simp only [step, Ev.isSocket, Bool.false_eq_true, if_false, opsFor, hc, true_and]
    by_cases hop : serviceOp op = true
    · simp only [hop, if_true, Channel.run, List.append_nil]
      intro ho
      rw [chanOuts_wire n n _ ho, if_pos rfl]
    · simp only [hop, Bool.false_eq_true, if_false, Channel.run]
      intro _; rfl
  · rw [step_own_none env s e n (fun op h => he ⟨op, h⟩) hs]
    symm
    have hops : opsFor n e = [] ∨ ∃ op, opsFor n e = [op] ∧ serviceOp op = false := by
      cases e with
      | binary data =>
        simp only [opsFor]
        split
        · split
          · exact .inr ⟨_, rfl, rfl⟩
          · exact .inl rfl
        · split
          · exact .inr ⟨_, rfl, rfl⟩
          · exact .inl rfl
        · exact .inl rfl
      | disconnected => exact .inr ⟨_, rfl, rfl⟩
      | chanOp m op =>
        have hm : m ≠ n := by rintro rfl; exact he ⟨op, rfl⟩
        simp [opsFor, hm]
      | _ => exact .inl rfl
    rcases hops with h | ⟨op, h, hop⟩
    · rw [h]; rfl
    · rw [h]; simp only [Channel.run, List.append_nil]; exact receive_filter c op hop

/-- A history and the messages for an existing channel. -/
theorem run_wire (s hist n c) (hh : s.hung = false) (hk : (keys s.channels).Nodup) (hc : lookup n s.channels = some c) (hf : Fair hist)
    (hcl : ∀ x ∈ hist, ∀ data, x.2 = .binary data → ¬ closes n data) (hs : Sized (run s hist).2)
    (ho : ∀ o ∈ (Channel.run c (hist.flatMap fun x => opsFor n x.2)).2, OutSized o) :
    wire n (run s hist).2 = (Channel.run c (hist.flatMap fun x => opsFor n x.2)).2.filter Channel.isSend := by
  induction hist generalizing s c with
  | nil => rfl
  | cons x hist ih =>
    obtain ⟨env, e⟩ := x
    have h1 := step_channel env s e n c hh hk hc (fun data hd => (hf.head data hd).2) (hcl (env, e) (by simp))
    simp only [List.flatMap_cons, Channel.run_append, List.filter_append] at ho ⊢
    simp only [run] at hs ⊢
    rw [sized_append] at hs
    rw [wire_append, step_wire env s e n c hc hs.1 (fun o h => ho o (by simp [h]))]
    congr 1
    refine ih _ _ ?_ (step_keys _ _ _ hk (fun data hd => (hf.head data hd).2)) h1.1 hf.tail (fun y hy => hcl y (by simp [hy])) hs.2 (fun o h => ho o (by simp [h]))
    rw [step_hung _ _ _ (fun data hd => (hf.head data hd).1)]; exact hh

theorem step_out (env s e) : ∀ m ∈ sentOf (step env s e).2, IsOut m := by
  by_cases hso : e.isSocket = true
  · exact fun m hm => (socket_own env s e hso m hm).isOut
  · cases e <;> simp [Ev.isSocket] at hso
    · simp [step, Ev.isSocket, sentOf]
    · simp [step, Ev.isSocket, sentOf]
    · simp [step, Ev.isSocket, sentOf]
    · rename_i m op
      simp only [step, Ev.isSocket, Bool.false_eq_true, if_false]
      split
      · split
        · simp [sentOf]
        · intro x hx
          obtain ⟨o, _, ho⟩ := sentOf_flatMap m _ hx
          obtain ⟨j, vals, h1, _, h3⟩ := chanOut_kinds m o x ho
          exact ⟨j, vals, h1, h3⟩
      · simp [sentOf]

theorem run_out (s hist) : ∀ m ∈ sentOf (run s hist).2, IsOut m := by
  induction hist generalizing s with
  | nil => simp [run, sentOf]
  | cons x hist ih =>
    intro m hm
    simp only [run, sentOf_append, List.mem_append] at hm
    rcases hm with hm | hm
    · exact step_out _ _ _ m hm
    · exact ih _ m hm

end Verif.WSClient
