import Verif.Spec.Instructions
import Verif.Proofs.WSClient
import Verif.Proofs.WSClient2
/-! Lemmas about instructions and requests. -/
namespace Verif.Instructions
open Verif Packets Dispatcher WSClient

/-! ### The entries of a message -/

theorem get_setKey (k k' : Text) (v : PyVal) (acc : List (Text × PyVal)) :
    get k (setKey k' v acc) = if k' = k then some v else get k acc := by
  induction acc with
  | nil => simp [setKey, get]
  | cons x acc ih =>
    obtain ⟨a, b⟩ := x
    simp only [setKey]
    split
    · rename_i h
      subst h
      simp only [get]
      split <;> rfl
    · rename_i h
      simp only [get, ih]
      split
      · rename_i h2
        subst h2
        simp [Ne.symm h]
      · rfl

theorem decodeString_eq (v : PyVal) : decodeString v = readable v := by cases v <;> rfl

theorem decodeItems_ok {d : List (PyVal × PyVal)} (hk : BytesKeys d) (acc : List (Text × PyVal)) : ∃ data, decodeItems acc d = .ok data ∧
    ∀ k : String, (∀ v, Has d k v → get k.toList data = some v) ∧ (Lacks d k → get k.toList data = get k.toList acc) := by
  induction d generalizing acc with
  | nil =>
    refine ⟨acc, rfl, fun k => ⟨?_, fun _ => rfl⟩⟩
    rintro v ⟨pre, key, w, post, h, _⟩
    cases pre <;> exact nomatch h
  | cons x d ih =>
    obtain ⟨a, w0⟩ := x
    obtain ⟨key0, ha⟩ := hk _ (List.mem_cons_self ..)
    simp only at ha
    subst ha
    obtain ⟨data, h1, h2⟩ := ih (fun x hx => hk x (List.mem_cons_of_mem _ hx)) (setKey (utf8DecodeIgnore key0) (decodeString w0) acc)
    refine ⟨data, by simp only [decodeItems, decodeItem]; exact h1, fun k => ⟨?_, ?_⟩⟩
    · rintro v ⟨pre, key, w, post, h, g1, g2, rfl⟩
      cases pre with
      | nil =>
        simp only [List.nil_append, List.cons.injEq, Prod.mk.injEq, PyVal.bytes.injEq] at h
        obtain ⟨⟨rfl, rfl⟩, rfl⟩ := h
        rw [(h2 k).2 g2, get_setKey, if_pos g1, decodeString_eq]
      | cons y pre =>
        simp only [List.cons_append, List.cons.injEq] at h
        exact (h2 k).1 _ ⟨pre, key, w, post, h.2, g1, g2, rfl⟩
    · intro hl
      rw [(h2 k).2 (fun key w hm => hl key w (List.mem_cons_of_mem _ hm)), get_setKey, if_neg (hl key0 w0 (List.mem_cons_self ..))]

theorem has_or_lacks {d : List (PyVal × PyVal)} (hk : BytesKeys d) (k : String) : (∃ v, Has d k v) ∨ Lacks d k := by
  induction d with
  | nil => exact .inr (fun key w h => nomatch h)
  | cons x d ih =>
    obtain ⟨a, w0⟩ := x
    obtain ⟨key0, ha⟩ := hk _ (List.mem_cons_self ..)
    simp only at ha
    subst ha
    rcases ih (fun x hx => hk x (List.mem_cons_of_mem _ hx)) with ⟨v, pre, key, w, post, h1, h2, h3, h4⟩ | hl
    · exact .inl ⟨v, (.bytes key0, w0) :: pre, key, w, post, by rw [h1]; rfl, h2, h3, h4⟩
    · by_cases he : utf8DecodeIgnore key0 = k.toList
      · exact .inl ⟨readable w0, [], key0, w0, d, rfl, he, hl, rfl⟩
      · refine .inr (fun key w hm => ?_)
        rcases List.mem_cons.1 hm with h | h
        · simp only [Prod.mk.injEq, PyVal.bytes.injEq] at h
          rw [h.1]
          exact he
        · exact hl key w h

/-- The dict that is made of a message. -/
structure Reads (d : List (PyVal × PyVal)) (data : List (Text × PyVal)) : Prop where
  ok : decodeItems [] d = .ok data
  some : ∀ (k : String) v, get k.toList data = some v ↔ Has d k v
  none : ∀ k : String, get k.toList data = none ↔ Lacks d k

theorem reads {d : List (PyVal × PyVal)} (hk : BytesKeys d) : ∃ data, Reads d data := by
  obtain ⟨data, h1, h2⟩ := decodeItems_ok hk []
  refine ⟨data, h1, fun k v => ⟨fun hg => ?_, (h2 k).1 v⟩, fun k => ⟨fun hg => ?_, fun hl => (h2 k).2 hl⟩⟩
  · rcases has_or_lacks hk k with ⟨v', h⟩ | h
    · rw [(h2 k).1 v' h] at hg
      injection hg with hg
      exact hg ▸ h
    · rw [(h2 k).2 h] at hg
      exact nomatch hg
  · rcases has_or_lacks hk k with ⟨v', h⟩ | h
    · rw [(h2 k).1 v' h] at hg
      exact nomatch hg
    · exact h

theorem item_ok {data : List (Text × PyVal)} {k : Text} {v : PyVal} : item data k = .ok v ↔ get k data = some v := by
  unfold item
  split
  · rename_i h; rw [h]; exact ⟨(fun h => nomatch h), (fun h => nomatch h)⟩
  · rename_i h; rw [h]; simp

theorem actions_distinct : [aSync, aOpenTerminal, aOpenEcho, aOpenPortforward, aOpenPortredirect, aReboot, aReadFile, aRunCommand, aScan].Nodup := by
  decide +kernel

theorem bind_ok {α β : Type} {x : Except Err α} {f : α → Except Err β} {b : β} (h : (x >>= f) = .ok b) : ∃ a, x = .ok a ∧ f a = .ok b := by
  cases x with
  | error e => exact nomatch h
  | ok a => exact ⟨a, rfl, h⟩

theorem pure_ok {α : Type} {a b : α} (h : (pure a : Except Err α) = .ok b) : a = b := by
  injection h

/-- The operation is chosen exactly if it is asked for. -/
theorem choose_iff {d : List (PyVal × PyVal)} {data : List (Text × PyVal)} (r : Reads d data) (op : Op) : choose data = .ok (some op) ↔ Asks d op := by
  constructor
  · intro h
    unfold choose at h
    obtain ⟨action, h1, h⟩ := bind_ok h
    rw [item_ok] at h1
    have ha : Has d "action" action := (r.some "action" action).1 h1
    split at h
    · rename_i e; subst e; injection h with h; injection h with h; subst h; exact .sync ha
    split at h
    · rename_i e
      subst e
      obtain ⟨p, h2, h⟩ := bind_ok h
      obtain ⟨n, h3, h⟩ := bind_ok h
      injection h with h; injection h with h; subst h
      rw [item_ok] at h2 h3
      cases hs : get sSize data with
      | none => exact .terminalPlain ha ((r.some "name" n).1 h3) ((r.some "port" p).1 h2) ((r.none "size").1 hs)
      | some s => exact .terminal ha ((r.some "name" n).1 h3) ((r.some "port" p).1 h2) ((r.some "size" s).1 hs)
    split at h
    · rename_i e
      subst e
      obtain ⟨p, h2, h⟩ := bind_ok h
      injection h with h; injection h with h; subst h
      rw [item_ok] at h2
      exact .echo ha ((r.some "port" p).1 h2)
    split at h
    · rename_i e
      subst e
      obtain ⟨p, h2, h⟩ := bind_ok h
      obtain ⟨n, h3, h⟩ := bind_ok h
      injection h with h; injection h with h; subst h
      rw [item_ok] at h2 h3
      exact .portforward ha ((r.some "service" p).1 h2) ((r.some "route" n).1 h3)
    split at h
    · rename_i e
      subst e
      obtain ⟨p, h2, h⟩ := bind_ok h
      obtain ⟨n, h3, h⟩ := bind_ok h
      injection h with h; injection h with h; subst h
      rw [item_ok] at h2 h3
      exact .portredirect ha ((r.some "m2m_port" n).1 h3) ((r.some "device_port" p).1 h2)
    split at h
    · rename_i e; subst e; injection h with h; injection h with h; subst h; exact .reboot ha
    split at h
    · rename_i e
      subst e
      obtain ⟨p, h2, h⟩ := bind_ok h
      obtain ⟨n, h3, h⟩ := bind_ok h
      injection h with h; injection h with h; subst h
      rw [item_ok] at h2 h3
      exact .readFile ha ((r.some "port" p).1 h2) ((r.some "path" n).1 h3)
    split at h
    · rename_i e
      subst e
      obtain ⟨p, h2, h⟩ := bind_ok h
      obtain ⟨n, h3, h⟩ := bind_ok h
      injection h with h; injection h with h; subst h
      rw [item_ok] at h2 h3
      exact .runCommand ha ((r.some "port" p).1 h2) ((r.some "command" n).1 h3)
    split at h
    · rename_i e; subst e; injection h with h; injection h with h; subst h; exact .scan ha
    · injection h with h; exact nomatch h
  · intro h
    have g : ∀ {k : String} {v}, Has d k v → item data k.toList = .ok v := fun h => item_ok.2 ((r.some _ _).2 h)
    have ga : ∀ {a : String}, Action d a → item data sAction = .ok (.text a.toList) := fun h => g h
    have dist := actions_distinct
    simp only [List.nodup_cons, List.mem_cons, List.not_mem_nil, or_false, not_or] at dist
    obtain ⟨d1, d2, d3, d4, d5, d6, d7, d8, -⟩ := dist
    unfold choose
    cases h with
    | sync h => rw [ga h]; rfl
    | terminal h h1 h2 h3 =>
      have e1 : item data sPort = _ := g h2
      have e2 : item data sName = _ := g h1
      have e3 : get sSize data = _ := (r.some _ _).2 h3
      rw [ga h, e1, e2, e3]; rfl
    | terminalPlain h h1 h2 h3 =>
      have e1 : item data sPort = _ := g h2
      have e2 : item data sName = _ := g h1
      have e3 : get sSize data = _ := (r.none _).2 h3
      rw [ga h, e1, e2, e3]; rfl
    | echo h h1 =>
      have e1 : item data sPort = _ := g h1
      rw [ga h, e1]; rfl
    | portforward h h1 h2 =>
      have e1 : item data sService = _ := g h1
      have e2 : item data sRoute = _ := g h2
      rw [ga h, e1, e2]; rfl
    | portredirect h h1 h2 =>
      have e1 : item data sM2mPort = _ := g h1
      have e2 : item data sDevicePort = _ := g h2
      rw [ga h, e1, e2]; rfl
    | reboot h => rw [ga h]; rfl
    | readFile h h1 h2 =>
      have e1 : item data sPort = _ := g h1
      have e2 : item data sPath = _ := g h2
      rw [ga h, e1, e2]; rfl
    | runCommand h h1 h2 =>
      have e1 : item data sPort = _ := g h1
      have e2 : item data sCommand = _ := g h2
      rw [ga h, e1, e2]; rfl
    | scan h => rw [ga h]; rfl

theorem perform_meant {w : World} {op : Op} {done : List Done} (h : Meant w op done) : perform w op = .ok done := by
  cases h with
  | terminal h => simp only [perform, Bencode.hashable, if_true, if_pos h, channelFor]; rfl
  | noTerminal h => simp only [perform, Bencode.hashable, if_true, if_neg h]
  | portforward h => simp only [perform, h, if_true]
  | portredirect h => simp only [perform, h, if_true]
  | _ => rfl

/-! ### Requests -/

/-- The packet that carries a request. -/
def Request.packet : Request → Nat × List PyVal
  | .instruction sender d => (16, [.bytes sender, .dict d])
  | .openFile id path => (24, [.bytes id, .bytes path])
  | .closeFile id => (26, [.bytes id])
  | .readFile id offset size => (27, [.bytes id, .int offset, .int size])
  | .scan => (29, [])
  | .writeFile id path devicePath offset data final => (31, [.bytes id, .bytes path, .bytes devicePath, .int offset, .bytes data, .int final])

def requestTypes : List Nat := [16, 24, 26, 27, 29, 31]

theorem request_attrs : ∀ c ∈ classes,
    (c.num = 16 → c.attrs = [("sender", .bytes), ("data", .dict)]) ∧ (c.num = 24 → c.attrs = [("upload_id", .bytes), ("path", .bytes)]) ∧
    (c.num = 26 → c.attrs = [("upload_id", .bytes)]) ∧ (c.num = 27 → c.attrs = [("upload_id", .bytes), ("offset", .int), ("size", .int)]) ∧
    (c.num = 29 → c.attrs = []) ∧
    (c.num = 31 → c.attrs = [("id", .bytes), ("path", .bytes), ("device_path", .bytes), ("offset", .int), ("data", .bytes), ("final", .int)]) := by
  decide +kernel

theorem request_classes : ∀ n ∈ requestTypes, ∃ c ∈ classes, c.num = n := by decide +kernel

theorem request_typed (r : Request) {c : PClass} (hc : c ∈ classes) (hn : c.num = r.packet.1) : Typed c.attrs r.packet.2 := by
  cases r with
  | instruction s d => rw [(request_attrs c hc).1 hn]; simp [Request.packet, Typed, AType.has]
  | openFile a b => rw [(request_attrs c hc).2.1 hn]; simp [Request.packet, Typed, AType.has]
  | closeFile a => rw [(request_attrs c hc).2.2.1 hn]; simp [Request.packet, Typed, AType.has]
  | readFile a b d => rw [(request_attrs c hc).2.2.2.1 hn]; simp [Request.packet, Typed, AType.has]
  | scan => rw [(request_attrs c hc).2.2.2.2.1 hn]; simp [Request.packet, Typed]
  | writeFile a b d e f g => rw [(request_attrs c hc).2.2.2.2.2 hn]; simp [Request.packet, Typed, AType.has]

theorem packet_type (r : Request) : r.packet.1 ∈ requestTypes := by cases r <;> simp [Request.packet, requestTypes]

theorem requestOf_list (data : Bytes) (r : Request) (surplus : List PyVal) (h : decoded data = .int r.packet.1 :: (r.packet.2 ++ surplus)) :
    requestOf data = some r := by
  unfold requestOf
  rw [h]
  cases r <;> rfl

theorem requestOf_some {data : Bytes} {r : Request} (h : requestOf data = some r) :
    (∃ surplus, decoded data = .int r.packet.1 :: (r.packet.2 ++ surplus)) ∨ (r = .scan ∧ ∃ bs, decodedBytes data = 29 :: bs) := by
  unfold requestOf at h
  split at h
  · injection h with h; subst h; exact .inl ⟨_, by assumption⟩
  · injection h with h; subst h; exact .inl ⟨_, by assumption⟩
  · injection h with h; subst h; exact .inl ⟨_, by assumption⟩
  · injection h with h; subst h; exact .inl ⟨_, by assumption⟩
  · injection h with h; subst h; exact .inl ⟨_, by assumption⟩
  · injection h with h; subst h; exact .inl ⟨_, by assumption⟩
  · split at h
    · injection h with h; subst h; exact .inr ⟨rfl, _, by assumption⟩
    · exact nomatch h

theorem call_of_request {data : Bytes} (hl : data.length ≤ maxSize) {r : Request} (h : requestOf data = some r) :
    onBinary data = .call r.packet.1 r.packet.2 := by
  obtain ⟨c, hc, hn⟩ := request_classes _ (packet_type r)
  have ht := request_typed r hc hn
  have hh : r.packet.1 ∈ handledTypes := by cases r <;> simp [Request.packet, handledTypes]
  rcases requestOf_some h with ⟨surplus, hd⟩ | ⟨rfl, bs, hb⟩
  · rw [← hn] at hd hh ⊢
    exact call_intro hl hc hh ht hd
  · refine (onBinary_call_iff data hl _ _).2 ⟨hh, _, c, decodedBytes_eq hb, hn, .inr ⟨hc, ht, 29, bs, bs.map (fun b => PyVal.int b.toNat), rfl, ?_, ?_⟩⟩
    · rw [hn]; rfl
    · exact (List.nil_append _).symm

theorem typed_more {a b : String} {t u : AType} {as args} (h : Typed ((a, t) :: (b, u) :: as) args) :
    ∃ v w vs, args = v :: w :: vs ∧ t.has v = true ∧ u.has w = true ∧ Typed as vs := by
  match args, h with
  | v :: w :: vs, h => exact ⟨v, w, vs, rfl, h.1, h.2.1, h.2.2⟩

theorem request_of_call {data : Bytes} (hl : data.length ≤ maxSize) {m : Nat} {args : List PyVal} (h : onBinary data = .call m args)
    (hm : m ∈ requestTypes) : ∃ r, requestOf data = some r ∧ r.packet = (m, args) := by
  obtain ⟨c, hc, hn, ht, hb, hr⟩ := call_inv hl h
  have key : ∃ r : Request, r.packet = (m, args) := by
    simp only [requestTypes, List.mem_cons, List.not_mem_nil, or_false] at hm
    rcases hm with rfl | rfl | rfl | rfl | rfl | rfl
    · rw [(request_attrs c hc).1 hn] at ht
      obtain ⟨v, w, rfl, hv, hw⟩ := typed_two ht
      obtain ⟨x, rfl⟩ := has_bytes hv
      obtain ⟨y, rfl⟩ := has_dict hw
      exact ⟨.instruction x y, rfl⟩
    · rw [(request_attrs c hc).2.1 hn] at ht
      obtain ⟨v, w, rfl, hv, hw⟩ := typed_two ht
      obtain ⟨x, rfl⟩ := has_bytes hv
      obtain ⟨y, rfl⟩ := has_bytes hw
      exact ⟨.openFile x y, rfl⟩
    · rw [(request_attrs c hc).2.2.1 hn] at ht
      obtain ⟨v, rfl, hv⟩ := typed_one ht
      obtain ⟨x, rfl⟩ := has_bytes hv
      exact ⟨.closeFile x, rfl⟩
    · rw [(request_attrs c hc).2.2.2.1 hn] at ht
      obtain ⟨v, w, vs, rfl, hv, hw, ht⟩ := typed_more ht
      obtain ⟨u, rfl, hu⟩ := typed_one ht
      obtain ⟨x, rfl⟩ := has_bytes hv
      obtain ⟨y, rfl⟩ := has_int hw (fun b he => hb b (by simp [he]))
      obtain ⟨z, rfl⟩ := has_int hu (fun b he => hb b (by simp [he]))
      exact ⟨.readFile x y z, rfl⟩
    · rw [(request_attrs c hc).2.2.2.2.1 hn] at ht
      cases args with
      | nil => exact ⟨.scan, rfl⟩
      | cons v vs => exact absurd ht (by simp [Typed])
    · rw [(request_attrs c hc).2.2.2.2.2 hn] at ht
      obtain ⟨v1, v2, vs, rfl, h1, h2, ht⟩ := typed_more ht
      obtain ⟨v3, v4, vs, rfl, h3, h4, ht⟩ := typed_more ht
      obtain ⟨v5, v6, rfl, h5, h6⟩ := typed_two ht
      obtain ⟨x1, rfl⟩ := has_bytes h1
      obtain ⟨x2, rfl⟩ := has_bytes h2
      obtain ⟨x3, rfl⟩ := has_bytes h3
      obtain ⟨x4, rfl⟩ := has_int h4 (fun b he => hb b (by simp [he]))
      obtain ⟨x5, rfl⟩ := has_bytes h5
      obtain ⟨x6, rfl⟩ := has_int h6 (fun b he => hb b (by simp [he]))
      exact ⟨.writeFile x1 x2 x3 x4 x5 x6, rfl⟩
  obtain ⟨r, hp⟩ := key
  refine ⟨r, ?_, hp⟩
  have e1 : r.packet.1 = m := by rw [hp]
  have e2 : r.packet.2 = args := by rw [hp]
  rcases hr with ⟨surplus, hd⟩ | ⟨t, bs, surplus, hd, htm, hbs⟩
  · exact requestOf_list data r surplus (by rw [e1, e2]; exact hd)
  · have hint : ∀ v ∈ args, ∃ i, v = .int i := by
      intro v hv
      have : v ∈ bs.map (fun b => PyVal.int b.toNat) := by rw [hbs]; simp [hv]
      obtain ⟨b, _, hb⟩ := List.mem_map.1 this
      exact ⟨_, hb.symm⟩
    rw [← e2] at hint
    cases r with
    | scan =>
      have : t = 29 := by
        apply UInt8.toNat_inj.1
        rw [htm, ← e1]; rfl
      subst this
      have hne : decoded data = [] := by
        unfold decoded
        rw [decodedBytes_eq hd]
      simp only [requestOf, hne, hd]
    | _ => exact absurd (hint _ (List.mem_cons_self ..)) (by rintro ⟨i, hi⟩; exact nomatch hi)

theorem chanOut_noRequest (n : Int) (o : Channel.Out) : (chanOut n o).filter isRequest = [] := by
  cases o <;> simp only [chanOut] <;> first | rfl | (cases send _ _ <;> rfl)

theorem chanOuts_noRequest (n : Int) (os : List Channel.Out) : (os.flatMap (chanOut n)).filter isRequest = [] := by
  induction os with
  | nil => rfl
  | cons o os ih => rw [List.flatMap_cons, List.filter_append, chanOut_noRequest, ih]; rfl

theorem hardClose_noRequest (chs : List (Int × Channel.Ch)) : (hardClose chs).2.filter isRequest = [] := by
  induction chs with
  | nil => rfl
  | cons x chs ih => obtain ⟨n, c⟩ := x; simp only [hardClose, List.filter_append, chanOuts_noRequest, ih, List.nil_append]

theorem syncIdentity_noRequest (env : Env) (s : St) : (syncIdentity env s).2.filter isRequest = [] := by
  unfold syncIdentity
  split
  · rfl
  · split <;> rfl

theorem calls_noRequest (cbs : List Nat) (x : Option PyVal) : (cbs.map (fun cb => Out.cmdCall cb x)).filter isRequest = [] := by
  induction cbs with
  | nil => rfl
  | cons a l ih => simpa [isRequest] using ih

theorem handle_noRequest (env : Env) (s : St) (m : Nat) (args : List PyVal) (hm : m ∉ requestTypes) :
    (handle env s m args).2.1.filter isRequest = [] := by
  unfold handle
  split
  · split
    · rfl
    · exact syncIdentity_noRequest _ _
  · split <;> rfl
  · exact chanOuts_noRequest _ _
  · exact chanOuts_noRequest _ _
  · rfl
  · split
    · rfl
    · exact chanOuts_noRequest _ _
  · rfl
  · exact calls_noRequest _ _
  · exact absurd (by decide) hm
  · exact absurd (by decide) hm
  · exact absurd (by decide) hm
  · exact absurd (by decide) hm
  · exact absurd (by decide) hm
  · exact absurd (by decide) hm
  · rfl

theorem handle_request (env : Env) (s : St) (r : Request) :
    ((handle env s r.packet.1 r.packet.2).2.1.filter isRequest).map passedOn = [some r] := by
  cases r with
  | scan =>
    simp only [Request.packet, handle]
    split
    · rfl
    · split
      · split <;> rfl
      · rfl
  | _ => rfl

/-- Each event passes on the request in it, and nothing else. -/
theorem step_requests (env : Env) (s : St) (hs : s.hung = false) (e : Ev)
    (hf : ∀ data, e = .binary data → ¬ Hangs data ∧ data.length ≤ maxSize) :
    ((step env s e).2.filter isRequest).map passedOn = (requestIn e).toList.map some := by
  cases e with
  | ready =>
    simp only [step, Ev.isSocket, if_true, hs, Bool.false_eq_true, if_false, onEvent, requestIn]
    repeat' split
    all_goals rfl
  | disconnected =>
    simp only [step, Ev.isSocket, if_true, hs, Bool.false_eq_true, if_false, onEvent, requestIn, List.filter_append, hardClose_noRequest]
    have : ∀ l : List (Int × List Nat), (l.flatMap fun e => e.2.map fun cb => Out.cmdCall cb none).filter isRequest = [] := by
      intro l
      induction l with
      | nil => rfl
      | cons a l ih => rw [List.flatMap_cons, List.filter_append, calls_noRequest, ih]; rfl
    rw [this]
    rfl
  | poll =>
    simp only [step, Ev.isSocket, if_true, hs, Bool.false_eq_true, if_false, onEvent, requestIn, syncIdentity_noRequest]
    rfl
  | other => simp only [step, Ev.isSocket, if_true, hs, Bool.false_eq_true, if_false, onEvent, requestIn]; rfl
  | close => rfl
  | addCallback => rfl
  | getChannel => rfl
  | chanOp n op =>
    simp only [step, Ev.isSocket, Bool.false_eq_true, if_false, requestIn]
    split
    · split
      · rfl
      · simp only [chanOuts_noRequest]; rfl
    · rfl
  | binary data =>
    obtain ⟨h1, h2⟩ := hf data rfl
    simp only [step, Ev.isSocket, if_true, hs, Bool.false_eq_true, if_false, onEvent, requestIn]
    cases ho : onBinary data with
    | hang => exact absurd ((onBinary_hang_iff data).1 ho) h1
    | dropped =>
      cases hr : requestOf data with
      | none => rfl
      | some r => rw [call_of_request h2 hr] at ho; exact nomatch ho
    | raised =>
      cases hr : requestOf data with
      | none => rfl
      | some r => rw [call_of_request h2 hr] at ho; exact nomatch ho
    | call m args =>
      simp only [List.filter_append]
      have hl : (if (handle env s m args).2.2 then [Out.logged] else []).filter isRequest = [] := by split <;> rfl
      rw [hl, List.append_nil]
      by_cases hm : m ∈ requestTypes
      · obtain ⟨r, hr, hp⟩ := request_of_call h2 ho hm
        have := handle_request env s r
        rw [hp] at this
        rw [this, hr]
        rfl
      · rw [handle_noRequest env s m args hm]
        cases hr : requestOf data with
        | none => rfl
        | some r =>
          rw [call_of_request h2 hr] at ho
          injection ho with ho
          exact absurd (ho ▸ packet_type r) hm

end Verif.Instructions
