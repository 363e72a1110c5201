import Verif.Proofs.Dispatcher
import Verif.Props.Packets
import Verif.Props.Bencode
import Verif.Proofs.Channel
/-! Lemmas about the websocket client. -/
namespace Verif.WSClient
open Verif Packets Dispatcher

theorem attrs_of : ∀ c ∈ classes,
    (c.num = 6 → c.attrs = [("channel", .int), ("data", .bytes)]) ∧ (c.num = 21 → c.attrs = [("channel", .int), ("data", .bytes)]) ∧
    (c.num = 7 → c.attrs = [("data", .bytes)]) ∧ (c.num = 9 → c.attrs = [("uuid", .bytes)]) ∧
    (c.num = 14 → c.attrs = [("channel", .int)]) ∧ (c.num = 19 → c.attrs = [("port", .int)]) ∧
    (c.num = 100 → c.attrs = [("command_id", .int), ("result", .dict)]) := by decide +kernel

theorem class_exists : (∃ c ∈ classes, c.num = 6) ∧ (∃ c ∈ classes, c.num = 21) ∧ (∃ c ∈ classes, c.num = 7) ∧ (∃ c ∈ classes, c.num = 9) ∧
    (∃ c ∈ classes, c.num = 14) ∧ (∃ c ∈ classes, c.num = 19) ∧ (∃ c ∈ classes, c.num = 100) := by decide +kernel

theorem decoded_eq {data x xs} (h : decoded data = x :: xs) : Bencode.decode data = .ok (.list (x :: xs)) := by
  unfold decoded at h
  split at h
  · rename_i hd; rw [hd, h]
  · simp at h

theorem decodedBytes_eq {data x xs} (h : decodedBytes data = x :: xs) : Bencode.decode data = .ok (.bytes (x :: xs)) := by
  unfold decodedBytes at h
  split at h
  · rename_i hd; rw [hd, h]
  · simp at h

theorem clean_notBool {xs} (h : CleanList xs) : ∀ b, .bool b ∉ xs := by
  induction xs with
  | nil => simp
  | cons x xs ih =>
    cases h with
    | cons hx _ hxs =>
      intro b hb
      rcases List.mem_cons.1 hb with he | hb
      · subst he; cases hx
      · exact ih hxs b hb

theorem call_inv {data : Bytes} (hl : data.length ≤ maxSize) {m args} (h : onBinary data = .call m args) :
    ∃ c ∈ classes, c.num = m ∧ Typed c.attrs args ∧ (∀ b, .bool b ∉ args) ∧
      ((∃ surplus, decoded data = .int m :: (args ++ surplus)) ∨
        ∃ t bs surplus, decodedBytes data = t :: bs ∧ t.toNat = m ∧ bs.map (fun b => PyVal.int b.toNat) = args ++ surplus) := by
  obtain ⟨_, v, c, hd, rfl, ⟨hc, ht, surplus, rfl⟩ | ⟨hc, ht, t, bs, surplus, rfl, hn, hbs⟩⟩ := (onBinary_call_iff data hl m args).1 h
  · refine ⟨c, hc, rfl, ht, ?_, .inl ⟨surplus, by simp [decoded, hd]⟩⟩
    intro b hb
    exact clean_notBool (decode_list_clean hl hd) b (by simp [hb])
  · refine ⟨c, hc, rfl, ht, ?_, .inr ⟨t, bs, surplus, by simp [decodedBytes, hd], hn, hbs⟩⟩
    intro b hb
    have : PyVal.bool b ∈ bs.map (fun b => PyVal.int b.toNat) := by rw [hbs]; simp [hb]
    simp at this

theorem typed_one {a : String} {t : AType} {args} (h : Typed [(a, t)] args) : ∃ v, args = [v] ∧ t.has v = true := by
  match args, h with
  | [v], h => exact ⟨v, rfl, h.1⟩

theorem typed_two {a b : String} {t u : AType} {args} (h : Typed [(a, t), (b, u)] args) :
    ∃ v w, args = [v, w] ∧ t.has v = true ∧ u.has w = true := by
  match args, h with
  | [v, w], h => exact ⟨v, w, rfl, h.1, h.2.1⟩

theorem has_int {v} (h : AType.int.has v = true) (hb : ∀ b, v ≠ .bool b) : ∃ i, v = .int i := by
  cases v <;> simp_all [AType.has]

theorem has_bytes {v} (h : AType.bytes.has v = true) : ∃ b, v = .bytes b := by
  cases v <;> simp_all [AType.has]

theorem has_dict {v} (h : AType.dict.has v = true) : ∃ b, v = .dict b := by
  cases v <;> simp_all [AType.has]

/-- A message of class `c` is dispatched. -/
theorem call_intro {data : Bytes} (hl : data.length ≤ maxSize) {c : PClass} (hc : c ∈ classes) (hh : c.num ∈ handledTypes) {args surplus}
    (ht : Typed c.attrs args) (hd : decoded data = .int c.num :: (args ++ surplus)) : onBinary data = .call c.num args :=
  (onBinary_call_iff data hl _ _).2 ⟨hh, _, c, decoded_eq hd, rfl, .inl ⟨hc, ht, surplus, rfl⟩⟩

/-- Two attributes, the second one of a type that is not `int`: only lists are dispatched. -/
theorem call_chan {data : Bytes} (hl : data.length ≤ maxSize) {m args} (hm : m = 6 ∨ m = 21) (h : onBinary data = .call m args) :
    ∃ n d surplus, args = [.int n, .bytes d] ∧ decoded data = .int m :: .int n :: .bytes d :: surplus := by
  obtain ⟨c, hc, hn, ht, hb, hr⟩ := call_inv hl h
  have ha : c.attrs = [("channel", .int), ("data", .bytes)] := by
    rcases hm with rfl | rfl
    · exact (attrs_of c hc).1 hn
    · exact (attrs_of c hc).2.1 hn
  rw [ha] at ht
  obtain ⟨v, w, rfl, hv, hw⟩ := typed_two ht
  obtain ⟨i, rfl⟩ := has_int hv (fun b he => hb b (by simp [he]))
  obtain ⟨d, rfl⟩ := has_bytes hw
  rcases hr with ⟨surplus, hd⟩ | ⟨t, bs, surplus, _, _, hbs⟩
  · exact ⟨i, d, surplus, rfl, hd⟩
  · exfalso
    have : PyVal.bytes d ∈ bs.map (fun b => PyVal.int b.toNat) := by rw [hbs]; simp
    simp at this

theorem chan_call {data : Bytes} (hl : data.length ≤ maxSize) {m : Nat} (hm : m = 6 ∨ m = 21) {n d surplus}
    (hd : decoded data = .int m :: .int n :: .bytes d :: surplus) : onBinary data = .call m [.int n, .bytes d] := by
  rcases hm with rfl | rfl
  · obtain ⟨c, hc, hn⟩ := class_exists.1
    have := call_intro hl (args := [.int n, .bytes d]) (surplus := surplus) hc (by rw [hn]; decide) (by rw [(attrs_of c hc).1 hn]; simp [Typed, AType.has]) (by rw [hn]; exact hd)
    rwa [hn] at this
  · obtain ⟨c, hc, hn⟩ := class_exists.2.1
    have := call_intro hl (args := [.int n, .bytes d]) (surplus := surplus) hc (by rw [hn]; decide) (by rw [(attrs_of c hc).2.1 hn]; simp [Typed, AType.has]) (by rw [hn]; exact hd)
    rwa [hn] at this

theorem call_bytes {data : Bytes} (hl : data.length ≤ maxSize) {m args} (hm : m = 7 ∨ m = 9) (h : onBinary data = .call m args) :
    ∃ d surplus, args = [.bytes d] ∧ decoded data = .int m :: .bytes d :: surplus := by
  obtain ⟨c, hc, hn, ht, hb, hr⟩ := call_inv hl h
  obtain ⟨d, rfl⟩ : ∃ d, args = [.bytes d] := by
    rcases hm with rfl | rfl
    · rw [(attrs_of c hc).2.2.1 hn] at ht
      obtain ⟨v, rfl, hv⟩ := typed_one ht
      obtain ⟨d, rfl⟩ := has_bytes hv
      exact ⟨d, rfl⟩
    · rw [(attrs_of c hc).2.2.2.1 hn] at ht
      obtain ⟨v, rfl, hv⟩ := typed_one ht
      obtain ⟨d, rfl⟩ := has_bytes hv
      exact ⟨d, rfl⟩
  rcases hr with ⟨surplus, hd⟩ | ⟨t, bs, surplus, _, _, hbs⟩
  · exact ⟨d, surplus, rfl, hd⟩
  · exfalso
    have : PyVal.bytes d ∈ bs.map (fun b => PyVal.int b.toNat) := by rw [hbs]; simp
    simp at this

theorem bytes_call {data : Bytes} (hl : data.length ≤ maxSize) {m : Nat} (hm : m = 7 ∨ m = 9) {d surplus}
    (hd : decoded data = .int m :: .bytes d :: surplus) : onBinary data = .call m [.bytes d] := by
  rcases hm with rfl | rfl
  · obtain ⟨c, hc, hn⟩ := class_exists.2.2.1
    have := call_intro hl (args := [.bytes d]) (surplus := surplus) hc (by rw [hn]; decide) (by rw [(attrs_of c hc).2.2.1 hn]; simp [Typed, AType.has]) (by rw [hn]; exact hd)
    rwa [hn] at this
  · obtain ⟨c, hc, hn⟩ := class_exists.2.2.2.1
    have := call_intro hl (args := [.bytes d]) (surplus := surplus) hc (by rw [hn]; decide) (by rw [(attrs_of c hc).2.2.2.1 hn]; simp [Typed, AType.has]) (by rw [hn]; exact hd)
    rwa [hn] at this

theorem call_response {data : Bytes} (hl : data.length ≤ maxSize) {args} (h : onBinary data = .call 100 args) :
    ∃ id r, args = [.int id, .dict r] ∧ response data = some (id, .dict r) := by
  obtain ⟨c, hc, hn, ht, hb, hr⟩ := call_inv hl h
  rw [(attrs_of c hc).2.2.2.2.2.2 hn] at ht
  obtain ⟨v, w, rfl, hv, hw⟩ := typed_two ht
  obtain ⟨i, rfl⟩ := has_int hv (fun b he => hb b (by simp [he]))
  obtain ⟨d, rfl⟩ := has_dict hw
  rcases hr with ⟨surplus, hd⟩ | ⟨t, bs, surplus, _, _, hbs⟩
  · exact ⟨i, d, rfl, by simp [response, hd]⟩
  · exfalso
    have : PyVal.dict d ∈ bs.map (fun b => PyVal.int b.toNat) := by rw [hbs]; simp
    simp at this

theorem response_eq {data id r} (h : response data = some (id, r)) : ∃ kvs surplus, r = .dict kvs ∧ decoded data = .int 100 :: .int id :: .dict kvs :: surplus := by
  unfold response at h
  split at h
  · rename_i i kvs surplus hd
    simp only [Option.some.injEq, Prod.mk.injEq] at h
    exact ⟨kvs, surplus, h.2.symm, by rw [hd, h.1]⟩
  · simp at h

theorem response_call {data : Bytes} (hl : data.length ≤ maxSize) {id r} (h : response data = some (id, r)) :
    onBinary data = .call 100 [.int id, r] := by
  obtain ⟨kvs, surplus, rfl, hd⟩ := response_eq h
  obtain ⟨c, hc, hn⟩ := class_exists.2.2.2.2.2.2
  have := call_intro hl (args := [.int id, .dict kvs]) (surplus := surplus) hc (by rw [hn]; decide) (by rw [(attrs_of c hc).2.2.2.2.2.2 hn]; simp [Typed, AType.has]) (by rw [hn]; exact hd)
  rwa [hn] at this

theorem call_int {data : Bytes} (hl : data.length ≤ maxSize) {m args} (hm : m = 14 ∨ m = 19) (h : onBinary data = .call m args) :
    ∃ n, args = [.int n] ∧ ((∃ surplus, decoded data = .int m :: .int n :: surplus) ∨ ∃ t b r, decodedBytes data = t :: b :: r ∧ t.toNat = m ∧ (b.toNat : Int) = n) := by
  obtain ⟨c, hc, hn, ht, hb, hr⟩ := call_inv hl h
  obtain ⟨v, rfl, hv⟩ : ∃ v, args = [v] ∧ AType.int.has v = true := by
    rcases hm with rfl | rfl
    · rw [(attrs_of c hc).2.2.2.2.1 hn] at ht
      exact typed_one ht
    · rw [(attrs_of c hc).2.2.2.2.2.1 hn] at ht
      exact typed_one ht
  obtain ⟨i, rfl⟩ := has_int hv (fun b he => hb b (by simp [he]))
  refine ⟨i, rfl, ?_⟩
  rcases hr with ⟨surplus, hd⟩ | ⟨t, bs, surplus, hd, ht', hbs⟩
  · exact .inl ⟨surplus, hd⟩
  · right
    cases bs with
    | nil => simp at hbs
    | cons b r =>
      simp only [List.map_cons, List.cons_append, List.nil_append, List.cons.injEq, PyVal.int.injEq] at hbs
      exact ⟨t, b, r, hd, ht', hbs.1⟩

theorem int_call {data : Bytes} (hl : data.length ≤ maxSize) {m : Nat} (hm : m = 14 ∨ m = 19) {n}
    (hd : (∃ surplus, decoded data = .int m :: .int n :: surplus) ∨ ∃ t b r, decodedBytes data = t :: b :: r ∧ t.toNat = m ∧ (b.toNat : Int) = n) :
    onBinary data = .call m [.int n] := by
  obtain ⟨c, hc, hn, a, ha⟩ : ∃ c ∈ classes, c.num = m ∧ ∃ a, c.attrs = [(a, .int)] := by
    rcases hm with rfl | rfl
    · obtain ⟨c, hc, hn⟩ := class_exists.2.2.2.2.1
      exact ⟨c, hc, hn, _, (attrs_of c hc).2.2.2.2.1 hn⟩
    · obtain ⟨c, hc, hn⟩ := class_exists.2.2.2.2.2.1
      exact ⟨c, hc, hn, _, (attrs_of c hc).2.2.2.2.2.1 hn⟩
  have hh : m ∈ handledTypes := by rcases hm with rfl | rfl <;> decide
  have ht : Typed c.attrs [.int n] := by rw [ha]; simp [Typed, AType.has]
  rcases hd with ⟨surplus, hd⟩ | ⟨t, b, r, hd, ht', hb⟩
  · have := call_intro hl (args := [.int n]) (surplus := surplus) hc (hn ▸ hh) ht (by rw [hn]; exact hd)
    rwa [hn] at this
  · refine (onBinary_call_iff data hl _ _).2 ⟨hh, _, c, decodedBytes_eq hd, hn, .inr ⟨hc, ht, t, b :: r, r.map (fun b => .int b.toNat), rfl, by omega, by simp [hb]⟩⟩

theorem opens_call {data : Bytes} (hl : data.length ≤ maxSize) (n : Int) : opens n data ↔ onBinary data = .call 14 [.int n] := by
  constructor
  · rintro (h | ⟨b, r, h, hb⟩)
    · exact int_call hl (.inl rfl) (.inl h)
    · exact int_call hl (.inl rfl) (.inr ⟨14, b, r, h, by decide, hb⟩)
  · intro h
    obtain ⟨n', he, h'⟩ := call_int hl (.inl rfl) h
    simp only [List.cons.injEq, PyVal.int.injEq, and_true] at he
    subst he
    rcases h' with h' | ⟨t, b, r, hd, ht, hb⟩
    · exact .inl h'
    · exact .inr ⟨b, r, by rw [hd]; congr 1; exact UInt8.toNat_inj.1 ht, hb⟩

theorem closes_call {data : Bytes} (hl : data.length ≤ maxSize) (n : Int) : closes n data ↔ onBinary data = .call 19 [.int n] := by
  constructor
  · rintro (h | ⟨b, r, h, hb⟩)
    · exact int_call hl (.inr rfl) (.inl h)
    · exact int_call hl (.inr rfl) (.inr ⟨19, b, r, h, by decide, hb⟩)
  · intro h
    obtain ⟨n', he, h'⟩ := call_int hl (.inr rfl) h
    simp only [List.cons.injEq, PyVal.int.injEq, and_true] at he
    subst he
    rcases h' with h' | ⟨t, b, r, hd, ht, hb⟩
    · exact .inl h'
    · exact .inr ⟨b, r, by rw [hd]; congr 1; exact UInt8.toNat_inj.1 ht, hb⟩

theorem assigned_call {data : Bytes} (hl : data.length ≤ maxSize) (id : Bytes) : assigned data = some id ↔ onBinary data = .call 9 [.bytes id] := by
  constructor
  · intro h
    unfold assigned at h
    split at h
    · rename_i i surplus hd
      simp only [Option.some.injEq] at h
      subst h
      exact bytes_call hl (.inr rfl) hd
    · simp at h
  · intro h
    obtain ⟨d, surplus, he, hd⟩ := call_bytes hl (.inr rfl) h
    simp only [List.cons.injEq, PyVal.bytes.injEq, and_true] at he
    subst he
    unfold assigned
    rw [hd]
    rfl

/-! ### Sending -/

theorem encode_message {n : Nat} {vals : List PyVal} (hw : WFList vals) (hs : SupportedList vals) {c : PClass} (hc : c.num = n) :
    ∃ m, encodeBinary ⟨c, vals⟩ = .ok m ∧ IsMessage m n vals := by
  obtain ⟨m, h1, h2⟩ := Props.c89_wire_total (.list (.int n :: vals)) (.list (.cons (.int _) hw)) (.list (.cons (.int _) hs))
  exact ⟨m, by rw [encodeBinary, encodeList, hc]; exact h1, h2⟩

theorem send_of {n : Nat} {kwargs : List (String × PyVal)} {c : PClass} {vals} (hc : lookupClass n = some c)
    (hk : construct (fun _ => "") c [] kwargs = .ok ⟨c, vals⟩) (hw : WFList vals) (hs : SupportedList vals) :
    ∃ m, send n kwargs = some m ∧ IsMessage m n vals := by
  obtain ⟨m, h1, h2⟩ := encode_message (n := n) hw hs (c := c) (by have := ((lookupClass_iff n c).1 hc).2; omega)
  refine ⟨m, ?_, h2⟩
  simp only [send, create, hc, hk, h1]

theorem send_join : ∃ m, send 1 [] = some m ∧ IsMessage m 1 [] :=
  send_of (c := ⟨1, "RequestJoinPacket", []⟩) (by decide +kernel) (by simp [construct, checkAttrs]) .nil .nil

theorem send_identify (id : Bytes) (h : id.length ≤ maxSize) : ∃ m, send 2 [("uuid", .bytes id)] = some m ∧ IsMessage m 2 [.bytes id] :=
  send_of (c := ⟨2, "RequestIdentifyPacket", [("uuid", .bytes)]⟩) (by decide +kernel)
    (by simp [construct, collect, checkAttrs, setParam, getParam, convArg, AType.has]) (.cons (.bytes h) .nil) (.cons (.bytes _) .nil)

theorem send_pong (d : Bytes) (h : d.length ≤ maxSize) : ∃ m, send 8 [("data", .bytes d)] = some m ∧ IsMessage m 8 [.bytes d] :=
  send_of (c := ⟨8, "PongPacket", [("data", .bytes)]⟩) (by decide +kernel)
    (by simp [construct, collect, checkAttrs, setParam, getParam, convArg, AType.has]) (.cons (.bytes h) .nil) (.cons (.bytes _) .nil)

theorem send_data (n : Int) (d : Bytes) (h : d.length ≤ maxSize) :
    ∃ m, send 5 [("channel", .int n), ("data", .bytes d)] = some m ∧ IsMessage m 5 [.int n, .bytes d] :=
  send_of (c := ⟨5, "RequestSendPacket", [("channel", .int), ("data", .bytes)]⟩) (by decide +kernel)
    (by simp [construct, collect, checkAttrs, setParam, getParam, convArg, AType.has]) (.cons (.int _) (.cons (.bytes h) .nil)) (.cons (.int _) (.cons (.bytes _) .nil))

theorem send_ctrl (n : Int) (d : Bytes) (h : d.length ≤ maxSize) :
    ∃ m, send 22 [("channel", .int n), ("data", .bytes d)] = some m ∧ IsMessage m 22 [.int n, .bytes d] :=
  send_of (c := ⟨22, "RequestSendControlPacket", [("channel", .int), ("data", .bytes)]⟩) (by decide +kernel)
    (by simp [construct, collect, checkAttrs, setParam, getParam, convArg, AType.has]) (.cons (.int _) (.cons (.bytes h) .nil)) (.cons (.int _) (.cons (.bytes _) .nil))

theorem send_close (n : Int) : ∃ m, send 11 [("port", .int n)] = some m ∧ IsMessage m 11 [.int n] :=
  send_of (c := ⟨11, "RequestClosePacket", [("port", .int)]⟩) (by decide +kernel)
    (by simp [construct, collect, checkAttrs, setParam, getParam, convArg, AType.has]) (.cons (.int _) .nil) (.cons (.int _) .nil)

end Verif.WSClient
