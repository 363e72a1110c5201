import Verif.Proofs.ServerBytes
/-!
C158: what the client takes for acknowledged, and what a server has that reads the bytes of the requests.
-/
namespace Verif.ServerBytes
open Verif JsonRpc JsonText Server

/-- C158: once the client takes the information about the device for sent, a server that reads JSON has all six parts of it, as they were found in one of
the syncs; whatever is lost on the way, and however the responses are spelled. -/
theorem c158_meta {ftext : Option Int → Nat → Text} {fval : Text → Json} {cfg : Client.Config} {s s' : Client.State} {m m' : Client.Manager}
    {srv srv' : Srv} {evs : List (Client.Move × Way)} (h : Loop ftext fval cfg s m srv evs s' m' srv') (h0 : s.sentMeta = false) (h1 : s'.sentMeta = true) :
    ∃ e way i, (Client.Move.event (.sync e), way) ∈ evs ∧ e.info = .ok i ∧ HasMeta srv' i := c118_meta (loop h) h0 h1

/-- C158: an identity that the manager takes for announced is the one that the server has. -/
theorem c158_identity {ftext : Option Int → Nat → Text} {fval : Text → Json} {cfg : Client.Config} {s s' : Client.State} {m m' : Client.Manager}
    {srv srv' : Srv} {evs : List (Client.Move × Way)} (h : Loop ftext fval cfg s m srv evs s' m' srv')
    (h0 : ∀ i, m.notified = some i → HasIdentity srv i) : ∀ i, m'.notified = some i → HasIdentity srv' i := c119_identity (loop h) h0

/-- C158: the tags that the client takes for acknowledged are those that the server has, if no reply to tags is lost. -/
theorem c158_tags {ftext : Option Int → Nat → Text} {fval : Text → Json} {cfg : Client.Config} {s s' : Client.State} {m m' : Client.Manager}
    {srv srv' : Srv} {evs : List (Client.Move × Way)} (h : Loop ftext fval cfg s m srv evs s' m' srv') (h0 : ∀ t, s.tagList = some t → HasTags srv t)
    (hl : ∀ e, (Client.Move.event (.tags e), Way.lostReply) ∉ evs) : ∀ t, s'.tagList = some t → HasTags srv' t := c117_partial (loop h) h0 hl

/-- A call that authenticates the device. -/
def Authenticates (cfg : Client.Config) (q : Json) : Prop :=
  ∃ l p, q = .obj l ∧ lookup l "method".toList = some (.str "device.check_auth".toList) ∧ lookup l "params".toList = some (.obj p) ∧
    lookup p "device_class".toList = some (.str "tuxtunnel".toList) ∧ lookup p "serial".toList = some (.str cfg.serial) ∧
    lookup p "auth_token".toList = some (orNull cfg.authToken)

/-- The keys of the parameters. -/
def kClass : Text := "device_class".toList
def kSerial : Text := "serial".toList
def kToken : Text := "auth_token".toList
def kSync : Text := "sync_id".toList

theorem auth_lookup (cl se : Json) (to : Json) (more : List (Text × Json)) (hm : more = [] ∨ ∃ x, more = [(kSync, .str x)]) :
    lookup ([(kClass, cl), (kSerial, se), (kToken, to)] ++ more) kClass = some cl ∧
    lookup ([(kClass, cl), (kSerial, se), (kToken, to)] ++ more) kSerial = some se ∧
    lookup ([(kClass, cl), (kSerial, se), (kToken, to)] ++ more) kToken = some to := by
  have h1 : kSync ≠ kClass := by decide +kernel
  have h2 : kSync ≠ kSerial := by decide +kernel
  have h3 : kSync ≠ kToken := by decide +kernel
  have h4 : kToken ≠ kClass := by decide +kernel
  have h5 : kToken ≠ kSerial := by decide +kernel
  have h6 : kSerial ≠ kClass := by decide +kernel
  have h7 : kSerial ≠ kToken := by decide +kernel
  have h8 : kClass ≠ kSerial := by decide +kernel
  have h9 : kClass ≠ kToken := by decide +kernel
  rcases hm with rfl | ⟨x, rfl⟩ <;> simp [lookup, h1, h2, h3, h4, h5, h6]

theorem auth_first (cfg : Client.Config) (more : List (Text × Json)) (hm : more = [] ∨ ∃ x, more = [(kSync, .str x)]) (n : Nat) (ops : List BOp) :
    ∃ k ks, expected n (Client.authCall cfg more :: ops) = k :: ks ∧ Authenticates cfg k.json := by
  refine ⟨_, _, rfl, ?_⟩
  obtain ⟨l, h1, _, h3, h4⟩ := json_fields ⟨Client.nm "device.check_auth", .obj ([(kClass, .str (Client.nm "tuxtunnel")),
    (kSerial, .str cfg.serial), (kToken, Client.jopt cfg.authToken)] ++ more), some (.text (Client.nm "authenticate_result"))⟩
  obtain ⟨g1, g2, g3⟩ := auth_lookup (.str (Client.nm "tuxtunnel")) (.str cfg.serial) (Client.jopt cfg.authToken) more hm
  have hj : Client.jopt cfg.authToken = orNull cfg.authToken := by cases cfg.authToken <;> rfl
  exact ⟨l, _, h1, h3, h4, g1, g2, g3.trans (by rw [hj])⟩

/-- C158: every request of the client is JSON in UTF-8, and stands for a list of calls of which the first authenticates the device, with its serial and
its token. -/
theorem c158_authenticated (ftext : Option Int → Nat → Text) (fval : Text → Json) (cfg : Client.Config) (s : Client.State) (m : Client.Manager)
    (mv : Client.Move) : ∀ body ∈ bodies ftext cfg s m mv, ∃ q qs, Reads fval body (.arr (q :: qs)) ∧ Authenticates cfg q := by
  intro body hb
  obtain ⟨calls, hc, rfl⟩ := List.mem_map.1 hb
  have hg := move_plain cfg s m mv
  obtain ⟨n, more, ops, hm, hp, he⟩ := hg calls hc
  obtain ⟨k, ks, h1, h2⟩ := auth_first cfg more hm n ops
  refine ⟨k.json, ks.map Call.json, (reads_body (good_plain hg calls hc) _).2 ?_, h2⟩
  rw [he, h1]
  rfl

/-! ### A history -/

deriving instance DecidableEq for JsonRpc.Reply

/-- A response to the tags, in an unusual spelling. -/
def tagResp : Bytes := asc
  " [\t{\"jsonrpc\":\"2.\\u0030\",\"id\":\"authenticate_result\",\"result\":true} ,{\"jsonrpc\": \"2.0\",\n\"id\": \"set_machine_defined_tags_result\", \"result\" : true}]\r\n"

/-- The request to which it is the response. -/
example : RpcBytes.body RpcBytes.codeText (batchRequest (callsFor tagsA)) = asc
    "[{\"jsonrpc\": \"2.0\", \"method\": \"device.check_auth\", \"params\": {\"device_class\": \"tuxtunnel\", \"serial\": \"serial\", \"auth_token\": \"token\"}, \"id\": \"authenticate_result\"}, {\"jsonrpc\": \"2.0\", \"method\": \"device.set_machine_defined_tags\", \"params\": {\"tag_list\": [\"a\"]}, \"id\": \"set_machine_defined_tags_result\"}]" := by
  decide +kernel

theorem tagResp_reply : RpcBytes.replyOf RpcBytes.codeVal (some tagResp) = tagReply tagsA := by decide +kernel

theorem tagResp_spells : RpcBytes.Spells RpcBytes.codeVal (tagReply tagsA) (some tagResp) := by
  cases hj : tagReply tagsA with
  | unreachable => exact absurd hj (by decide +kernel)
  | notJson => exact absurd hj (by decide +kernel)
  | json j => exact (RpcBytes.c152_reply _ _ j).1 (tagResp_reply.trans hj)

/-- The tags do not reach the server at first (a proxy answers with a page), and are sent again and answered. -/
example (srv : Srv) : ∃ srv', Loop RpcBytes.codeText RpcBytes.codeVal exCfg (.init 0) ⟨none, none⟩ srv
    [(tagMove tagsA (.reply (RpcBytes.replyOf RpcBytes.codeVal (some (asc "<html>")))), .lostRequest),
      (tagMove tagsA (.reply (RpcBytes.replyOf RpcBytes.codeVal (some tagResp))), .served)] afterA ⟨none, none⟩ srv' ∧ HasTags srv' tagsA := by
  have hno : RpcBytes.replyOf RpcBytes.codeVal (some (asc "<html>")) = .notJson := by decide +kernel
  have h1 : (Client.move exCfg (.init 0) ⟨none, none⟩ (tagMove tagsA (.reply .notJson))).1 = .init 0 ∧
      (Client.move exCfg (.init 0) ⟨none, none⟩ (tagMove tagsA (.reply .notJson))).2 = (⟨none, none⟩, [callsFor tagsA]) := by decide +kernel
  have hplain : ∀ k ∈ callsFor tagsA, floats k.params = [] := expected_plain (plain_tags exCfg tagsA) 1
  have hl : Loop RpcBytes.codeText RpcBytes.codeVal exCfg (.init 0) ⟨none, none⟩ srv
      [(tagMove tagsA (.reply (RpcBytes.replyOf RpcBytes.codeVal (some (asc "<html>")))), .lostRequest),
        (tagMove tagsA (.reply (RpcBytes.replyOf RpcBytes.codeVal (some tagResp))), .served)] afterA ⟨none, none⟩
      (store okProcs (batchRequest (callsFor tagsA)) srv) := by
    refine .cons (srv1 := srv) ?_ ?_
    · simp only [bodies]
      rw [hno, h1.2]
      refine ⟨.inr ⟨some (asc "<html>"), by rw [hno]; rfl, ?_⟩, rfl⟩
      rintro body j hb ⟨t, ht, hd⟩
      injection hb with hb
      have := (RpcBytes.c152_reply RpcBytes.codeVal (some (asc "<html>")) j).2 ⟨t, by rw [hb, ht], hd⟩
      rw [hno] at this
      exact (nomatch this)
    rw [hno, h1.1, h1.2, tagResp_reply]
    refine .cons (srv1 := store okProcs (batchRequest (callsFor tagsA)) srv) ?_ ?_
    · simp only [bodies]
      rw [first_a.2]
      exact ⟨okProcs, _, _, some tagResp, (reads_body hplain _).2 rfl, goodReply_conforms okProcs (callsFor tagsA) rfl, tagResp_spells,
        by rw [tagResp_reply]; rfl, rfl⟩
    rw [first_a.1, first_a.2]
    exact .nil _ _ _
  refine ⟨_, hl, c158_tags hl (by exact nofun) ?_ tagsA rfl⟩
  intro e he
  rcases List.mem_cons.mp he with he | he
  · injection he with _ he; exact nomatch he
  · injection List.mem_singleton.mp he with _ he; exact nomatch he

end Verif.ServerBytes
