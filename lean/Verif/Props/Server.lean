import Verif.Proofs.Server
/-!
C117-C119: what the client takes for acknowledged, and what the server has.
-/
namespace Verif.Server
open Verif JsonRpc

theorem tags_ne : mTags ≠ mAuth ∧ mTags ≠ mDisk ∧ mTags ≠ mAssoc ∧ mTags ∉ metaNames := by decide +kernel
theorem assoc_ne : mAssoc ≠ mAuth ∧ mAssoc ≠ mDisk ∧ mAssoc ≠ mTags ∧ mAssoc ∉ metaNames := by decide +kernel
theorem meta_ne : ∀ x ∈ metaNames, x ≠ mAuth ∧ x ≠ mDisk ∧ x ≠ mTags ∧ x ≠ mAssoc := by decide +kernel

/-! ### Tags -/

/-- C117: in every history of polls, syncs and identities, in which messages may be lost, but not the reply to tags that reached the server: the tags
that the client takes for acknowledged are those that the server has.  Missing for the full property: lost replies, `c117_counterexample`. -/
theorem c117_partial {cfg : Client.Config} {s s' : Client.State} {m m' : Client.Manager} {srv srv' : Srv} {evs : List (Client.Move × Way)}
    (h : Loop cfg s m srv evs s' m' srv') (h0 : ∀ t, s.tagList = some t → HasTags srv t)
    (hl : ∀ e, (Client.Move.event (.tags e), Way.lostReply) ∉ evs) : ∀ t, s'.tagList = some t → HasTags srv' t := by
  induction h with
  | nil => exact h0
  | @cons s m srv mv way srv1 evs s' m' srv' h rest ih =>
    refine ih ?_ fun e he => hl e (List.mem_cons_of_mem _ he)
    cases mv with
    | event ev => cases ev with
      | disk e =>
        obtain ⟨h1, _, _, h4⟩ := disk_move h
        intro t ht
        rw [h1] at ht
        exact (h4 mTags tags_ne.1 tags_ne.2.1).trans (h0 t ht)
      | tags e =>
        obtain ⟨_, _, _, h4⟩ := tags_move h
        intro t ht
        rcases h4 with ⟨h5, h6⟩ | ⟨t', _, h5, h6⟩
        · rw [h5] at ht
          refine (h6 ?_).trans (h0 t ht)
          rintro rfl
          exact hl e (List.mem_cons_self ..)
        · rw [h5] at ht
          injection ht with ht
          exact ht ▸ h6
      | sync e =>
        obtain ⟨h1, _, h3, _⟩ := sync_move h
        intro t ht
        rw [h1] at ht
        exact (h3 mTags tags_ne.1 tags_ne.2.2.2).trans (h0 t ht)
    | identity i r =>
      obtain ⟨h1, _, h3, _⟩ := identity_move h
      intro t ht
      rw [h1] at ht
      exact (h3 mTags tags_ne.1 tags_ne.2.2.1).trans (h0 t ht)

/-- C117: a poll that finds the tags `t` and is answered with success makes the client take `t` for acknowledged, whatever came before; if it sent them,
the server has them. -/
theorem c117_acknowledged {cfg : Client.Config} {s : Client.State} {m : Client.Manager} {srv srv' : Srv} {e : Client.TagEnv} {t : List Text}
    (f : Procs) {reply : Reply} (ht : e.tags = .ok t) (hn : e.net = .reply reply)
    (hc : ∀ q ∈ (Client.move cfg s m (.event (.tags e))).2.2, Conforms f (batchRequest q) reply ∧ srv' = apply f q srv)
    (hok : ∃ v, f "device.set_machine_defined_tags".toList (.obj [("tag_list".toList, .arr (t.map .str))]) = .ok v) :
    (Client.move cfg s m (.event (.tags e))).1.tagList = some t ∧
    ((Client.move cfg s m (.event (.tags e))).2.2 ≠ [] → HasTags srv' t) := by
  obtain ⟨v, hok⟩ := hok
  have hok : f mTags (tagParams t) = .ok v := hok
  by_cases hs : some t = s.tagList
  · simp only [Client.move, Client.step, Client.tagPoll, ht, hs, ne_eq, not_true_eq_false, if_false]
    exact ⟨trivial, fun h => h.elim⟩
  have hi := ids_tags cfg t
  have hsent := c72_sent s.rpc (Client.tagCalls cfg t) reply hi.1 hi.2.2
  have hw : (Client.move cfg s m (.event (.tags e))).2.2 = [expected s.rpc.callId (Client.tagCalls cfg t)] := by
    simp only [Client.move, Client.step, Client.tagPoll, ht, hn, Client.batch]
    rw [if_pos (fun h => hs h)]
    rcases hb : block s.rpc (Client.tagCalls cfg t) none reply with ⟨c, b, w, x⟩
    rw [hb] at hsent
    cases x with
    | some x => exact hsent
    | none => dsimp only [Option.map_none]; split <;> exact hsent
  have hq := hc _ (hw ▸ List.mem_singleton.mpr rfl)
  have hdel : Delivered .served e.net srv srv' (Client.move cfg s m (.event (.tags e))).2.2 := by
    rw [hw]; exact ⟨f, reply, hn, hq.1, hq.2⟩
  obtain ⟨h1, h2, _⟩ := c116_batch_partial f s.rpc (Client.tagCalls cfg t) reply hi.1 hi.2.1 hi.2.2 rfl (by
    rw [hsent]; intro q hq'; rw [List.mem_singleton.mp hq']; exact hq.1)
  have hin : (⟨mTags, tagParams t, some Client.tagId⟩ : Call) ∈ expected s.rpc.callId (Client.tagCalls cfg t) := by
    simp only [Client.tagCalls, Client.authCall, expected]
    exact List.mem_cons_of_mem _ (List.mem_cons_self ..)
  have hg : getResult (block s.rpc (Client.tagCalls cfg t) none reply).2.1 Client.tagId none = .ok v := by
    have := h2 _ hin _ rfl
    rw [this]
    simp only [outcome, hok]
  have htl : (Client.move cfg s m (.event (.tags e))).1.tagList = some t := by
    simp only [Client.move, Client.step, Client.tagPoll, ht, hn, Client.batch]
    rw [if_pos (fun h => hs h)]
    rcases hb : block s.rpc (Client.tagCalls cfg t) none reply with ⟨c, b, w, x⟩
    rw [hb] at h1 hg
    dsimp only at h1 hg
    subst h1
    simp only [Option.map_none, hg]
  refine ⟨htl, fun _ => ?_⟩
  rcases (tags_move hdel).2.2.2 with ⟨h5, _⟩ | ⟨t', _, h5, h6⟩
  · exact absurd (htl.symm.trans h5) hs
  · rw [htl] at h5
    injection h5 with h5
    exact h5 ▸ h6

/-! ### Information about the device -/

/-- C118: in every history, whatever messages and replies are lost: once the client takes the information about the device for sent, the server has it,
all six parts, as they were found in one of the syncs. -/
theorem c118_meta {cfg : Client.Config} {s s' : Client.State} {m m' : Client.Manager} {srv srv' : Srv} {evs : List (Client.Move × Way)}
    (h : Loop cfg s m srv evs s' m' srv') (h0 : s.sentMeta = false) (h1 : s'.sentMeta = true) :
    ∃ e way i, (Client.Move.event (.sync e), way) ∈ evs ∧ e.info = .ok i ∧ HasMeta srv' i := by
  suffices hs : ∀ (P : Client.Meta → Prop), (s.sentMeta = true → ∃ i, P i ∧ ∀ c ∈ metaList i, srv c.method = some c.params) →
      s'.sentMeta = true → ∃ i, (P i ∨ ∃ e way, (Client.Move.event (.sync e), way) ∈ evs ∧ e.info = .ok i) ∧
        ∀ c ∈ metaList i, srv' c.method = some c.params by
    obtain ⟨i, hi, hh⟩ := hs (fun _ => False) (fun h => by rw [h0] at h; exact nomatch h) h1
    rcases hi with hi | ⟨e, way, g1, g2⟩
    · exact hi.elim
    refine ⟨e, way, i, g1, g2, ?_⟩
    simp only [metaList, Client.metaCalls, expected, List.forall_mem_cons] at hh
    obtain ⟨a, b, c, d, e', f, _⟩ := hh
    refine ⟨a, ?_, c, d, e', f⟩
    refine Eq.trans b ?_
    show some (Json.obj [("revision_code".toList, Client.jopt i.machineRevision)]) = _
    cases i.machineRevision <;> rfl
  clear h0 h1
  intro P hP
  induction h generalizing P with
  | nil => exact fun h => have ⟨i, g1, g2⟩ := hP h; ⟨i, .inl g1, g2⟩
  | @cons s m srv mv way srv1 evs s' m' srv' h rest ih =>
    intro hs'
    have kept : (Client.move cfg s m mv).1.sentMeta = s.sentMeta → (∀ x ∈ metaNames, srv1 x = srv x) →
        ∃ i, (P i ∨ ∃ e way', (Client.Move.event (.sync e), way') ∈ (mv, way) :: evs ∧ e.info = .ok i) ∧
          ∀ c ∈ metaList i, srv' c.method = some c.params := by
      intro k1 k2
      obtain ⟨i, g1, g2⟩ := ih P (by
        intro hm
        rw [k1] at hm
        obtain ⟨i, g1, g2⟩ := hP hm
        refine ⟨i, g1, fun c hc => ?_⟩
        rw [k2 c.method (metaList_methods i ▸ List.mem_map_of_mem hc)]
        exact g2 c hc) hs'
      refine ⟨i, ?_, g2⟩
      rcases g1 with g1 | ⟨e, way', g1, g3⟩
      · exact .inl g1
      · exact .inr ⟨e, way', List.mem_cons_of_mem _ g1, g3⟩
    cases mv with
    | event ev => cases ev with
      | disk e =>
        obtain ⟨_, h2, _, h4⟩ := disk_move h
        exact kept h2 fun x hx => h4 x (meta_ne x hx).1 (meta_ne x hx).2.1
      | tags e =>
        obtain ⟨h1, _, h3, _⟩ := tags_move h
        exact kept h1 fun x hx => h3 x (meta_ne x hx).1 (meta_ne x hx).2.2.1
      | sync e =>
        obtain ⟨_, _, h3, h4, h5⟩ := sync_move h
        cases hm : s.sentMeta with
        | true =>
          obtain ⟨g1, g2⟩ := h4 hm
          exact kept (g2.trans hm.symm) fun x _ => congrFun g1 x
        | false =>
          obtain ⟨i, g1, g2⟩ := ih (fun i => e.info = .ok i) (fun hs => h5 hm hs) hs'
          refine ⟨i, .inr ?_, g2⟩
          rcases g1 with g1 | ⟨e', way', g1, g3⟩
          · exact ⟨e, way, List.mem_cons_self .., g1⟩
          · exact ⟨e', way', List.mem_cons_of_mem _ g1, g3⟩
    | identity i r =>
      obtain ⟨_, h2, h3, _⟩ := identity_move h
      exact kept h2 fun x hx => h3 x (meta_ne x hx).1 (meta_ne x hx).2.2.2

/-! ### Identity -/

/-- C119: in every history, whatever messages and replies are lost: an identity that the manager takes for announced is the one that the server has. -/
theorem c119_identity {cfg : Client.Config} {s s' : Client.State} {m m' : Client.Manager} {srv srv' : Srv} {evs : List (Client.Move × Way)}
    (h : Loop cfg s m srv evs s' m' srv') (h0 : ∀ i, m.notified = some i → HasIdentity srv i) :
    ∀ i, m'.notified = some i → HasIdentity srv' i := by
  have kept : ∀ {srv srv1 : Srv} {i}, srv1 mAssoc = srv mAssoc → HasIdentity srv i → HasIdentity srv1 i := by
    rintro srv srv1 i h ⟨text, g1, g2⟩
    exact ⟨text, g1, h.trans g2⟩
  induction h with
  | nil => exact h0
  | @cons s m srv mv way srv1 evs s' m' srv' h rest ih =>
    refine ih ?_
    cases mv with
    | event ev => cases ev with
      | disk e =>
        obtain ⟨_, _, h3, h4⟩ := disk_move h
        rw [h3]
        exact fun i hi => kept (h4 mAssoc assoc_ne.1 assoc_ne.2.1) (h0 i hi)
      | tags e =>
        obtain ⟨_, h2, h3, _⟩ := tags_move h
        rw [h2]
        exact fun i hi => kept (h3 mAssoc assoc_ne.1 assoc_ne.2.2.1) (h0 i hi)
      | sync e =>
        obtain ⟨_, h2, h3, _⟩ := sync_move h
        rw [h2]
        exact fun i hi => kept (h3 mAssoc assoc_ne.1 assoc_ne.2.2.2) (h0 i hi)
    | identity i r =>
      obtain ⟨_, _, _, h4⟩ := identity_move h
      intro i' hi'
      rcases h4 with ⟨h4, rfl⟩ | h4 | ⟨h4, h5⟩
      · rw [h4] at hi'; exact h0 i' hi'
      · rw [h4] at hi'; exact nomatch hi'
      · rw [h4] at hi'
        injection hi' with hi'
        exact hi' ▸ h5

/-! ### Histories that exist -/

/-- The response to a call. -/
def answer (f : Procs) (c : Call) (id : CallId) : List (Text × Json) :=
  [(sJsonrpc, .str sVersion), (sId, id.json), match f c.method c.params with
    | .ok v => (sResult, v)
    | .error e => (sError, e)]

theorem answer_ok (f : Procs) (c : Call) (id : CallId) (h : c.id = some id) : Answers f c.json (answer f c id) := by
  obtain ⟨l, g1, g2, g3, g4⟩ := json_fields c
  have h1 : sJsonrpc ≠ sId := by decide +kernel
  have h2 : sJsonrpc ≠ sResult := by decide +kernel
  have h3 : sJsonrpc ≠ sError := by decide +kernel
  have h4 : sId ≠ sResult := by decide +kernel
  have h5 : sId ≠ sError := by decide +kernel
  have h6 : sResult ≠ sError := by decide +kernel
  rw [h] at g2
  refine ⟨l, id.json, c.method, c.params, g1, g2, g3, g4, ?_, ?_, ?_⟩
  · show lookup (answer f c id) sJsonrpc = _
    cases hf : f c.method c.params <;> simp only [answer, lookup, hf, h1.symm, h2.symm, h3.symm, if_false, if_true] <;> rfl
  · show lookup (answer f c id) sId = _
    cases hf : f c.method c.params <;> simp [answer, lookup, hf, h4.symm, h5.symm]
  · show match f c.method c.params with
      | .ok v => lookup (answer f c id) sResult = some v ∧ lookup (answer f c id) sError = none
      | .error e => lookup (answer f c id) sError = some e ∧ lookup (answer f c id) sResult = none
    cases hf : f c.method c.params with
    | ok v => simp [answer, lookup, h2, h3, h4, h5, h6, hf]
    | error e => simp [answer, lookup, h2, h3, h4, h5, h6.symm, hf]

/-- A reply to calls, in their order. -/
def goodReply (f : Procs) (calls : List Call) : Reply :=
  .json (.arr ((calls.filterMap fun c => c.id.map fun id => answer f c id).map .obj))

/-- Every message of calls, at least one of them with an id, can be answered as the specification demands. -/
theorem goodReply_conforms (f : Procs) (calls : List Call) (h : calls.any (·.id.isSome) = true) :
    Conforms f (batchRequest calls) (goodReply f calls) := by
  have hany : (calls.map Call.json).any wantsAnswer = true := by
    rw [List.any_map]
    have : (wantsAnswer ∘ Call.json) = fun x : Call => x.id.isSome := by funext x; exact wants_json x
    rw [this]; exact h
  have key : ∃ ps : List (Json × List (Text × Json)), (ps.map (·.1)).Perm ((calls.map Call.json).filter wantsAnswer) ∧
      (∀ x ∈ ps, Answers f x.1 x.2) ∧ goodReply f calls = .json (.arr (ps.map fun x => .obj x.2)) := by
    refine ⟨calls.filterMap fun c => c.id.map fun id => (c.json, answer f c id), ?_, ?_, ?_⟩
    · apply List.Perm.of_eq
      clear h hany
      induction calls with
      | nil => rfl
      | cons c calls ih =>
        cases hid : c.id with
        | none => simp [hid, wants_json, ih]
        | some id => simp [hid, wants_json, ih]
    · intro x hx
      obtain ⟨c, _, hx⟩ := List.mem_filterMap.mp hx
      cases hid : c.id with
      | none => rw [hid] at hx; exact nomatch hx
      | some id =>
        rw [hid] at hx
        injection hx with hx
        subst hx
        exact answer_ok f c id hid
    · unfold goodReply
      congr 2
      rw [List.map_filterMap, List.map_filterMap]
      congr 1
      funext c
      cases c.id <;> rfl
  cases hq : calls.map Call.json with
  | nil => rw [hq] at hany; exact absurd hany (by simp)
  | cons q qs =>
    rw [hq] at hany key
    simp only [batchRequest, hq, Conforms, if_pos hany]
    exact key

/-- A server on which every procedure succeeds. -/
def okProcs : Procs := fun _ _ => .ok (.bool true)

/-- The client of the examples. -/
def exCfg : Client.Config := ⟨"serial".toList, some "token".toList⟩

/-- A tag poll. -/
def tagMove (tags : List Text) (net : Client.Net) : Client.Move := .event (.tags ⟨.ok tags, net⟩)

/-- The reply to tags. -/
def tagReply (tags : List Text) : Reply := goodReply okProcs (expected 1 (Client.tagCalls exCfg tags))

/-- The tags of the examples. -/
def tagsA : List Text := ["a".toList]
/-- Other tags. -/
def tagsB : List Text := ["b".toList]

/-- The calls that send the tags. -/
def callsFor (tags : List Text) : List Call := expected 1 (Client.tagCalls exCfg tags)

/-- The client after the tags `a` were acknowledged. -/
def afterA : Client.State := ⟨.init, 0, some tagsA, false⟩

theorem first_a : (Client.move exCfg (.init 0) ⟨none, none⟩ (tagMove tagsA (.reply (tagReply tagsA)))).1 = afterA ∧
    (Client.move exCfg (.init 0) ⟨none, none⟩ (tagMove tagsA (.reply (tagReply tagsA)))).2 = (⟨none, none⟩, [callsFor tagsA]) := by decide +kernel

theorem then_b : (Client.move exCfg afterA ⟨none, none⟩ (tagMove tagsB (.reply .unreachable))).1 = afterA ∧
    (Client.move exCfg afterA ⟨none, none⟩ (tagMove tagsB (.reply .unreachable))).2 = (⟨none, none⟩, [callsFor tagsB]) := by decide +kernel

theorem again_a (net : Client.Net) : (Client.move exCfg afterA ⟨none, none⟩ (tagMove tagsA net)).1 = afterA ∧
    (Client.move exCfg afterA ⟨none, none⟩ (tagMove tagsA net)).2 = (⟨none, none⟩, []) := by
  have h : ¬ (some tagsA ≠ afterA.tagList) := fun h => h rfl
  simp only [Client.move, Client.step, tagMove, Client.tagPoll, if_neg h]
  exact ⟨rfl, trivial⟩

theorem stored (srv : Srv) (tags : List Text) : HasTags (apply okProcs (callsFor tags) srv) tags := by
  have hne : mAuth ≠ mTags := by decide +kernel
  refine apply_same (f := okProcs) (c := ⟨mTags, tagParams tags, some Client.tagId⟩) (v := .bool true) rfl ?_ (.inl ?_)
  · intro d hd he
    simp only [callsFor, Client.tagCalls, Client.authCall, expected, List.mem_cons, List.not_mem_nil, or_false] at hd
    rcases hd with rfl | rfl
    · exact absurd he hne
    · rfl
  · simp only [callsFor, Client.tagCalls, Client.authCall, expected]
    exact List.mem_cons_of_mem _ (List.mem_cons_self ..)

/-- C117 is false if the reply to tags is lost: the tags `a` are acknowledged; the tags change to `b`, the server stores them but its reply does not
arrive; the tags change back to `a`, which is what the client takes for acknowledged, and nothing is sent.  The server keeps `b`, from then on for every
number of polls, whatever the server and the network do. -/
theorem c117_counterexample (srv : Srv) (ps : List (Client.Net × Way)) : ∃ srv', Loop exCfg (.init 0) ⟨none, none⟩ srv
      ((tagMove tagsA (.reply (tagReply tagsA)), .served) :: (tagMove tagsB (.reply .unreachable), .lostReply) ::
        ps.map fun x => (tagMove tagsA x.1, x.2)) afterA ⟨none, none⟩ srv' ∧
    afterA.tagList = some tagsA ∧ HasTags srv' tagsB ∧ ¬ HasTags srv' tagsA := by
  have hb := stored (apply okProcs (callsFor tagsA) srv) tagsB
  refine ⟨apply okProcs (callsFor tagsB) (apply okProcs (callsFor tagsA) srv), ?_, rfl, hb, ?_⟩
  · refine .cons (srv1 := apply okProcs (callsFor tagsA) srv) ?_ ?_
    · rw [first_a.2]
      exact ⟨okProcs, _, rfl, goodReply_conforms okProcs (callsFor tagsA) rfl, rfl⟩
    rw [first_a.1, first_a.2]
    refine .cons (srv1 := apply okProcs (callsFor tagsB) (apply okProcs (callsFor tagsA) srv)) ?_ ?_
    · rw [then_b.2]
      exact ⟨.inl rfl, okProcs, rfl⟩
    rw [then_b.1, then_b.2]
    induction ps with
    | nil => exact .nil _ _ _
    | cons p ps ih =>
      refine .cons (srv1 := apply okProcs (callsFor tagsB) (apply okProcs (callsFor tagsA) srv)) ?_ ?_
      · rw [(again_a p.1).2]; rfl
      · rw [(again_a p.1).1, (again_a p.1).2]; exact ih
  · intro ha
    have ha : _ = _ := ha
    rw [show _ = _ from hb] at ha
    injection ha with ha
    have : tagParams tagsB ≠ tagParams tagsA := by
      intro h
      simp only [tagParams, tagsA, tagsB, List.map_cons, List.map_nil] at h
      injection h with h
      injection h with h _
      injection h with _ h
      injection h with h
      injection h with h _
      injection h with h
      exact absurd h (by decide +kernel)
    exact this ha

/-- The theorem covers a history in which tags are lost on their way, then sent again. -/
example (srv : Srv) : ∃ srv', Loop exCfg (.init 0) ⟨none, none⟩ srv
    [(tagMove tagsA (.reply .unreachable), .lostRequest), (tagMove tagsA (.reply (tagReply tagsA)), .served)] afterA ⟨none, none⟩ srv' ∧
    HasTags srv' tagsA := by
  have h1 : (Client.move exCfg (.init 0) ⟨none, none⟩ (tagMove tagsA (.reply .unreachable))).1 = .init 0 ∧
      (Client.move exCfg (.init 0) ⟨none, none⟩ (tagMove tagsA (.reply .unreachable))).2 = (⟨none, none⟩, [callsFor tagsA]) := by decide +kernel
  have hl : Loop exCfg (.init 0) ⟨none, none⟩ srv [(tagMove tagsA (.reply .unreachable), .lostRequest),
      (tagMove tagsA (.reply (tagReply tagsA)), .served)] afterA ⟨none, none⟩ (apply okProcs (callsFor tagsA) srv) := by
    refine .cons (srv1 := srv) ?_ ?_
    · rw [h1.2]; exact ⟨.inl rfl, rfl⟩
    rw [h1.1, h1.2]
    refine .cons (srv1 := apply okProcs (callsFor tagsA) srv) ?_ ?_
    · rw [first_a.2]
      exact ⟨okProcs, _, rfl, goodReply_conforms okProcs (callsFor tagsA) rfl, rfl⟩
    rw [first_a.1, first_a.2]
    exact .nil _ _ _
  refine ⟨_, hl, c117_partial hl (by exact nofun) ?_ tagsA rfl⟩
  intro e he
  rcases List.mem_cons.mp he with he | he
  · injection he with _ he; exact nomatch he
  · injection List.mem_singleton.mp he with _ he; exact nomatch he

/-- A sync, and an identity. -/
def exMeta : Client.Meta := ⟨"1.0".toList, none, "pi".toList, "linux".toList, "uname".toList, ["10.0.0.1".toList]⟩
/-- The calls of the sync. -/
def syncCalls : List Call := expected 1 (Client.authCall exCfg [(Client.nm "sync_id", .str "x".toList)] :: Client.metaCalls (.ok exMeta))
/-- The calls of the announcement. -/
def idCalls : List Call := expected 1 (idOps exCfg "xyz".toList)

/-- C118 and C119 apply to a history in which the reply to the first sync is lost, the second sync is answered, and then an identity is announced. -/
example (srv : Srv) : ∃ s' m' srv', Loop exCfg (.init 0) ⟨none, none⟩ srv
    [(.event (.sync ⟨.ok exMeta, "x".toList, .reply .notJson⟩), .lostReply),
     (.event (.sync ⟨.ok exMeta, "x".toList, .reply (goodReply okProcs syncCalls)⟩), .served),
     (.identity (asc "xyz") (goodReply okProcs idCalls), .served)] s' m' srv' ∧
    s'.sentMeta = true ∧ m'.notified = some (asc "xyz") := by
  have h1 : (Client.move exCfg (.init 0) ⟨none, none⟩ (.event (.sync ⟨.ok exMeta, "x".toList, .reply .notJson⟩))).1 = .init 0 ∧
      (Client.move exCfg (.init 0) ⟨none, none⟩ (.event (.sync ⟨.ok exMeta, "x".toList, .reply .notJson⟩))).2 = (⟨none, none⟩, [syncCalls]) := by
    decide +kernel
  have h2 : (Client.move exCfg (.init 0) ⟨none, none⟩
        (.event (.sync ⟨.ok exMeta, "x".toList, .reply (goodReply okProcs syncCalls)⟩))).1 = ⟨.init, 0, none, true⟩ ∧
      (Client.move exCfg (.init 0) ⟨none, none⟩ (.event (.sync ⟨.ok exMeta, "x".toList, .reply (goodReply okProcs syncCalls)⟩))).2 =
        (⟨none, none⟩, [syncCalls]) := by decide +kernel
  have h3 : (Client.move exCfg ⟨.init, 0, none, true⟩ ⟨none, none⟩ (.identity (asc "xyz") (goodReply okProcs idCalls))).1 = ⟨.init, 0, none, true⟩ ∧
      (Client.move exCfg ⟨.init, 0, none, true⟩ ⟨none, none⟩ (.identity (asc "xyz") (goodReply okProcs idCalls))).2 =
        (⟨some (asc "xyz"), some (asc "xyz")⟩, [idCalls]) := by decide +kernel
  refine ⟨_, _, _, .cons (srv1 := apply okProcs syncCalls srv) ?_ (.cons (srv1 := apply okProcs syncCalls (apply okProcs syncCalls srv)) ?_
    (.cons (srv1 := apply okProcs idCalls (apply okProcs syncCalls (apply okProcs syncCalls srv))) ?_ (.nil _ _ _))), ?_⟩
  · rw [h1.2]; exact ⟨.inr (.inl rfl), okProcs, rfl⟩
  · rw [h1.1, h1.2, h2.2]
    exact ⟨okProcs, _, rfl, goodReply_conforms okProcs syncCalls rfl, rfl⟩
  · rw [h1.1, h1.2, h2.1, h2.2, h3.2]
    exact ⟨okProcs, _, rfl, goodReply_conforms okProcs idCalls rfl, rfl⟩
  · rw [h1.1, h1.2, h2.1, h2.2, h3.1, h3.2]
    exact ⟨rfl, rfl⟩

end Verif.Server
