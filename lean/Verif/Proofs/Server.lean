import Verif.Spec.Server
import Verif.Props.JsonRpcWire
/-! Lemmas for C117-C119. -/
namespace Verif.Server
open Verif JsonRpc

theorem apply_other {f : Procs} {calls : List Call} {srv : Srv} {m : Text}
    (h : ∀ c ∈ calls, c.method = m → ∀ v, f c.method c.params ≠ .ok v) : apply f calls srv m = srv m := by
  induction calls generalizing srv with
  | nil => rfl
  | cons c calls ih =>
    have ih := fun srv => ih (srv := srv) fun d hd => h d (List.mem_cons_of_mem _ hd)
    simp only [apply, List.foldl_cons] at ih ⊢
    rw [ih]
    cases hf : f c.method c.params with
    | error e => rfl
    | ok v =>
      have : m ≠ c.method := fun he => h c (List.mem_cons_self ..) he.symm v hf
      simp [Srv.set, this]

theorem apply_same {f : Procs} {calls : List Call} {srv : Srv} {c : Call} {v : Json} (hf : f c.method c.params = .ok v)
    (hu : ∀ d ∈ calls, d.method = c.method → d.params = c.params) (hc : c ∈ calls ∨ srv c.method = some c.params) :
    apply f calls srv c.method = some c.params := by
  induction calls generalizing srv with
  | nil => simpa [apply] using hc
  | cons d calls ih =>
    simp only [apply, List.foldl_cons] at ih ⊢
    apply ih fun d hd => hu d (List.mem_cons_of_mem _ hd)
    rcases hc with hc | hc
    · rcases List.mem_cons.mp hc with rfl | hc
      · right; simp [hf, Srv.set]
      · exact .inl hc
    · right
      cases hg : f d.method d.params with
      | error e => simpa using hc
      | ok w =>
        by_cases he : c.method = d.method
        · simp [Srv.set, he, hu d (List.mem_cons_self ..) he.symm]
        · simp [Srv.set, he, hc]

theorem block_fails {c : JsonRpc.Client} {ops : List BOp} {reply : Reply} (hd : (supplied ops).Nodup) (ha : .abandon ∉ ops)
    (hr : reply = .unreachable ∨ reply = .notJson) : (block c ops none reply).2.2.2 ≠ none := by
  obtain ⟨hok, _, hab, _⟩ := addAll_spec c .init ops ⟨fun id _ => by simp [Batch.init], hd⟩
  have hab' : (addAll c .init ops).2.1.abandoned = false := by rw [hab]; simpa [Batch.init] using ha
  rcases hq : addAll c .init ops with ⟨c', b, e⟩
  rw [hq] at hok hab'
  dsimp only at hok hab'
  subst hok
  rcases hr with rfl | rfl <;> simp [block, hq, hab', send]

/-- What comes of a batch, to the client and to the server. -/
theorem batch_loop {s : Client.State} {ops : List BOp} {net : Client.Net} {way : Way} {srv srv' : Srv} (hd : (supplied ops).Nodup)
    (ht : ∀ id ∈ supplied ops, ∃ s, id = .text s) (ha : .abandon ∉ ops) (hn : (expected s.rpc.callId ops).any (·.id.isSome) = true)
    (h : Delivered way net srv srv' (Client.batch s ops net).2.2.1) :
    ((way = .lostRequest ∧ (Client.batch s ops net).2.2.2 ≠ none ∧ srv' = srv) ∨
    (way = .lostReply ∧ (Client.batch s ops net).2.2.2 ≠ none ∧ ∃ f, srv' = apply f (expected s.rpc.callId ops) srv) ∨
    (way = .served ∧ (Client.batch s ops net).2.2.2 = none ∧ ∃ f, srv' = apply f (expected s.rpc.callId ops) srv ∧
      ∀ x ∈ expected s.rpc.callId ops, ∀ id, x.id = some id →
        getResult (Client.batch s ops net).2.1 id none = outcome f x.method x.params)) ∧
    (way = .served → ∀ id, (∀ x ∈ expected s.rpc.callId ops, x.id ≠ some id) →
      getResult (Client.batch s ops net).2.1 id none = .error .keyError) := by
  have hw : (Client.batch s ops net).2.2.1 = [expected s.rpc.callId ops] := by
    cases net with
    | reply r => exact c72_sent s.rpc ops r hd ha
    | interrupt => exact c72_sent s.rpc ops .unreachable hd ha
  have hno : NoReply net → (Client.batch s ops net).2.2.2 ≠ none := by
    rintro (rfl | rfl | rfl)
    · have := block_fails (c := s.rpc) hd ha (.inl (rfl : Reply.unreachable = _))
      simpa [Client.batch] using this
    · have := block_fails (c := s.rpc) hd ha (.inr (rfl : Reply.notJson = _))
      simpa [Client.batch] using this
    · simp [Client.batch]
  rw [hw] at h
  cases way with
  | lostRequest => exact ⟨.inl ⟨rfl, hno h.1, h.2⟩, nofun⟩
  | lostReply => exact ⟨.inr (.inl ⟨rfl, hno h.1, h.2⟩), nofun⟩
  | served =>
    obtain ⟨f, reply, rfl, hc, hs⟩ := h
    have hsent := c72_sent s.rpc ops reply hd ha
    obtain ⟨h1, h2, h3⟩ := c116_batch_partial f s.rpc ops reply hd ht ha hn (by
      rw [hsent]; intro q hq; rw [List.mem_singleton.mp hq]; exact hc)
    exact ⟨.inr (.inr ⟨rfl, by simp [Client.batch, h1], f, hs, h2⟩), fun _ => h3⟩

theorem outcome_ok {f : Procs} {m : Text} {p v : Json} (h : outcome f m p = .ok v) : f m p = .ok v := by
  unfold outcome at h
  cases hf : f m p with
  | ok w => rw [hf] at h; injection h with h; rw [h]
  | error e => rw [hf] at h; exact nomatch h

theorem outcome_error {f : Procs} {m : Text} {p : Json} {e} (h : outcome f m p = .error e) : ∀ v, f m p ≠ .ok v := by
  intro v hf
  unfold outcome at h
  rw [hf] at h; exact nomatch h

/-- The ids of the calls that the client makes are different texts. -/
def TextIds (ops : List BOp) : Prop := (supplied ops).Nodup ∧ (∀ id ∈ supplied ops, ∃ s, id = .text s) ∧ .abandon ∉ ops

theorem ids_disk (cfg : Client.Config) (t u : Int) : TextIds (Client.diskCalls cfg t u) := by
  refine ⟨?_, ?_, by simp [Client.diskCalls, Client.authCall]⟩
  · simp only [Client.diskCalls, Client.authCall, supplied, List.filterMap]
    decide +kernel
  · simp [Client.diskCalls, Client.authCall, supplied]

theorem ids_tags (cfg : Client.Config) (t : List Text) : TextIds (Client.tagCalls cfg t) := by
  refine ⟨?_, ?_, by simp [Client.tagCalls, Client.authCall]⟩
  · simp only [Client.tagCalls, Client.authCall, supplied, List.filterMap]
    decide +kernel
  · simp [Client.tagCalls, Client.authCall, Client.tagId, supplied]

theorem ids_sync (cfg : Client.Config) (l) (info : Except Client.Raised Client.Meta) : TextIds (Client.authCall cfg l :: Client.metaCalls info) := by
  cases info with
  | error x => exact ⟨by simp [Client.metaCalls, Client.authCall, supplied], by simp [Client.metaCalls, Client.authCall, supplied],
      by simp [Client.metaCalls, Client.authCall]⟩
  | ok m =>
    refine ⟨?_, ?_, by simp [Client.metaCalls, Client.authCall]⟩
    · simp only [Client.metaCalls, Client.authCall, supplied, List.filterMap]
      decide +kernel
    · simp [Client.metaCalls, Client.authCall, supplied]

/-- The calls of an announcement. -/
def idOps (cfg : Client.Config) (text : Text) : List BOp :=
  [Client.authCall cfg [], .callWithId Client.associateId (Client.nm "m2m.associate") (.obj [(Client.nm "identity", .str text)])]

theorem ids_identity (cfg : Client.Config) (text : Text) : TextIds (idOps cfg text) := by
  refine ⟨?_, ?_, by simp [idOps, Client.authCall]⟩
  · simp only [idOps, Client.authCall, supplied, List.filterMap]
    decide +kernel
  · simp [idOps, Client.authCall, Client.associateId, supplied]

/-- Nothing is stored for a procedure that is not called. -/
theorem other_kept {s : Client.State} {ops : List BOp} {net : Client.Net} {way : Way} {srv srv' : Srv} {m : Text} (hi : TextIds ops)
    (hn : (expected s.rpc.callId ops).any (·.id.isSome) = true) (hm : ∀ c ∈ expected s.rpc.callId ops, c.method ≠ m)
    (h : Delivered way net srv srv' (Client.batch s ops net).2.2.1) : srv' m = srv m := by
  rcases (batch_loop hi.1 hi.2.1 hi.2.2 hn h).1 with ⟨_, _, rfl⟩ | ⟨_, _, f, rfl⟩ | ⟨_, _, f, rfl, _⟩
  · rfl
  · exact apply_other fun c hc he => absurd he (hm c hc)
  · exact apply_other fun c hc he => absurd he (hm c hc)

/-! Names of procedures. -/
def mAuth : Text := "device.check_auth".toList
def mDisk : Text := "device.set_disk_space".toList
def mTags : Text := "device.set_machine_defined_tags".toList
/-- The parameters that send an identity. -/
def idParams (t : Text) : Json := .obj [("identity".toList, .str t)]
/-- The parameters that send tags. -/
def tagParams (t : List Text) : Json := .obj [("tag_list".toList, .arr (t.map .str))]
def mAssoc : Text := "m2m.associate".toList
def metaNames : List Text := ["device.set_agent_version".toList, "device.set_machine_revision".toList, "device.set_model_name".toList,
  "device.set_os_version".toList, "device.set_uname".toList, "device.set_ip_addresses".toList]

theorem batch_state (s : Client.State) (ops : List BOp) (net : Client.Net) : ∃ c, (Client.batch s ops net).1 = { s with rpc := c } := by
  cases net with
  | reply r => exact ⟨_, rfl⟩
  | interrupt => exact ⟨_, rfl⟩

/-! ### Disk reports -/

theorem disk_move {cfg : Client.Config} {s : Client.State} {e : Client.DiskEnv} {way srv srv'} {m : Client.Manager}
    (h : Delivered way e.net srv srv' (Client.move cfg s m (.event (.disk e))).2.2) :
    (Client.move cfg s m (.event (.disk e))).1.tagList = s.tagList ∧ (Client.move cfg s m (.event (.disk e))).1.sentMeta = s.sentMeta ∧
    (Client.move cfg s m (.event (.disk e))).2.1 = m ∧ ∀ x, x ≠ mAuth → x ≠ mDisk → srv' x = srv x := by
  simp only [Client.move, Client.step, Client.diskPoll] at h ⊢
  by_cases hn : s.nextDisk ≤ e.now
  · simp only [if_pos hn] at h ⊢
    rcases hu : e.usage with x | ⟨t, u⟩
    · simp only [hu] at h ⊢
      exact ⟨by trivial, by trivial, by trivial, fun x _ _ => congrFun h x⟩
    · simp only [hu] at h ⊢
      have h := h
      obtain ⟨c, hc⟩ := batch_state { s with nextDisk := e.now + Client.diskPeriod } (Client.diskCalls cfg t u) e.net
      refine ⟨by rw [hc], by rw [hc], by trivial, fun x h1 h2 => ?_⟩
      refine other_kept (ids_disk cfg t u) (by rfl) ?_ h
      intro c hc
      simp only [Client.diskCalls, Client.authCall, expected, List.mem_cons, List.not_mem_nil, or_false] at hc
      rcases hc with rfl | rfl
      · exact fun he => h1 he.symm
      · exact fun he => h2 he.symm
  · simp only [if_neg hn] at h ⊢
    exact ⟨by trivial, by trivial, by trivial, fun x _ _ => congrFun h x⟩

/-! ### Tags -/

theorem tags_move {cfg : Client.Config} {s : Client.State} {e : Client.TagEnv} {way srv srv'} {m : Client.Manager}
    (h : Delivered way e.net srv srv' (Client.move cfg s m (.event (.tags e))).2.2) :
    (Client.move cfg s m (.event (.tags e))).1.sentMeta = s.sentMeta ∧ (Client.move cfg s m (.event (.tags e))).2.1 = m ∧
    (∀ x, x ≠ mAuth → x ≠ mTags → srv' x = srv x) ∧
    (((Client.move cfg s m (.event (.tags e))).1.tagList = s.tagList ∧ (way ≠ .lostReply → srv' mTags = srv mTags)) ∨
      ∃ t, e.tags = .ok t ∧ (Client.move cfg s m (.event (.tags e))).1.tagList = some t ∧ HasTags srv' t) := by
  simp only [Client.move, Client.step, Client.tagPoll] at h ⊢
  rcases ht : e.tags with x | t
  · simp only [ht] at h ⊢
    cases x <;> exact ⟨by trivial, by trivial, fun x _ _ => congrFun h x, .inl ⟨by trivial, fun _ => congrFun h _⟩⟩
  simp only [ht] at h ⊢
  by_cases hs : some t ≠ s.tagList
  · rw [if_pos hs] at h ⊢
    obtain ⟨c, hc⟩ := batch_state s (Client.tagCalls cfg t) e.net
    have hmem : ∀ c ∈ expected s.rpc.callId (Client.tagCalls cfg t), c.method = mAuth ∨
        c = ⟨mTags, tagParams t, some Client.tagId⟩ := by
      intro c hc
      simp only [Client.tagCalls, Client.authCall, expected, List.mem_cons, List.not_mem_nil, or_false] at hc
      rcases hc with rfl | rfl
      · exact .inl rfl
      · exact .inr rfl
    have hne : mAuth ≠ mTags := by decide +kernel
    have hw : Delivered way e.net srv srv' (Client.batch s (Client.tagCalls cfg t) e.net).2.2.1 := by
      rcases hb : Client.batch s (Client.tagCalls cfg t) e.net with ⟨s1, b, w, x⟩
      rw [hb] at h
      cases x with
      | some x => exact h
      | none => dsimp only at h ⊢; split at h <;> exact h
    have hkept : ∀ x, x ≠ mAuth → x ≠ mTags → srv' x = srv x := by
      intro x h1 h2
      refine other_kept (ids_tags cfg t) rfl ?_ hw
      intro c hc
      rcases hmem c hc with h' | rfl
      · exact fun he => h1 (he.symm.trans h')
      · exact fun he => h2 he.symm
    have hcases := (batch_loop (ids_tags cfg t).1 (ids_tags cfg t).2.1 (ids_tags cfg t).2.2 rfl hw).1
    rcases hb : Client.batch s (Client.tagCalls cfg t) e.net with ⟨s1, b, w, x⟩
    rw [hb] at hc hcases
    dsimp only at hc hcases
    subst hc
    rcases hcases with ⟨h1, h2, h3⟩ | ⟨h1, h2, h3⟩ | ⟨h1, h2, f, h3, h4⟩
    · cases x with
      | none => exact absurd rfl h2
      | some x => exact ⟨by trivial, by trivial, hkept, .inl ⟨by trivial, fun _ => by rw [h3]⟩⟩
    · cases x with
      | none => exact absurd rfl h2
      | some x => exact ⟨by trivial, by trivial, hkept, .inl ⟨by trivial, fun hl => absurd h1 hl⟩⟩
    · subst h2
      have hin : (⟨mTags, tagParams t, some Client.tagId⟩ : Call) ∈
          expected s.rpc.callId (Client.tagCalls cfg t) := by
        simp only [Client.tagCalls, Client.authCall, expected]
        exact List.mem_cons_of_mem _ (List.mem_cons_self ..)
      have hg : getResult b Client.tagId none = outcome f mTags (tagParams t) := h4 _ hin _ rfl
      cases ho : outcome f mTags (tagParams t) with
      | error er =>
        rw [ho] at hg
        simp only [hg]
        refine ⟨by trivial, by trivial, hkept, .inl ⟨by trivial, fun _ => ?_⟩⟩
        rw [h3]
        apply apply_other
        intro c hc he
        rcases hmem c hc with h' | rfl
        · exact absurd (h'.symm.trans he) hne
        · exact outcome_error ho
      | ok v =>
        rw [ho] at hg
        simp only [hg]
        refine ⟨by trivial, by trivial, hkept, .inr ⟨t, rfl, by trivial, ?_⟩⟩
        show srv' mTags = _
        rw [h3]
        refine apply_same (c := ⟨mTags, tagParams t, some Client.tagId⟩) (outcome_ok ho) ?_ (.inl hin)
        intro d hd he
        rcases hmem d hd with h' | rfl
        · exact absurd (h'.symm.trans he) hne
        · rfl
  · rw [if_neg hs] at h ⊢
    have hs := Decidable.of_not_not hs
    exact ⟨by trivial, by trivial, fun x _ _ => congrFun h x, .inl ⟨hs, fun _ => congrFun h _⟩⟩

/-! ### Sync -/

/-- The calls that send the information about the device. -/
def metaList (i : Client.Meta) : List Call := expected 0 (Client.metaCalls (.ok i))

theorem check_ok {b : Batch} {ids : List CallId} (h : check b ids = none) : ∀ id ∈ ids, ∃ v, getResult b id none = .ok v := by
  induction ids with
  | nil => exact fun _ h => nomatch h
  | cons i ids ih =>
    rw [check] at h
    cases hg : getResult b i none with
    | error e => rw [hg] at h; exact nomatch h
    | ok v =>
      rw [hg] at h
      intro id hid
      rcases List.mem_cons.mp hid with rfl | hid
      · exact ⟨v, hg⟩
      · exact ih h id hid

theorem unique_of_nodup {calls : List Call} (h : (calls.map (·.method)).Nodup) {c d : Call} (hc : c ∈ calls) (hd : d ∈ calls)
    (he : d.method = c.method) : d.params = c.params := by
  induction calls with
  | nil => exact nomatch hc
  | cons a calls ih =>
    rw [List.map_cons, List.nodup_cons] at h
    rcases List.mem_cons.mp hc with rfl | hc' <;> rcases List.mem_cons.mp hd with rfl | hd'
    · rfl
    · exact absurd (he ▸ List.mem_map_of_mem hd') h.1
    · exact absurd (he ▸ List.mem_map_of_mem hc') h.1
    · exact ih h.2 hc' hd'

theorem sync_calls (cfg : Client.Config) (l) (info : Except Client.Raised Client.Meta) (n : Nat) :
    ∃ p, expected n (Client.authCall cfg l :: Client.metaCalls info) = ⟨mAuth, p, some Client.authId⟩ :: (match info with
      | .error _ => []
      | .ok i => metaList i) := by
  cases info <;> exact ⟨_, rfl⟩

theorem metaList_methods (i : Client.Meta) : (metaList i).map (·.method) = metaNames := rfl

theorem metaList_ids (i : Client.Meta) : (metaList i).map (·.id) = Client.metaIds.map some := rfl

theorem names_nodup : (mAuth :: metaNames).Nodup := by decide +kernel

theorem sync_move {cfg : Client.Config} {s : Client.State} {e : Client.SyncEnv} {way srv srv'} {m : Client.Manager}
    (h : Delivered way e.net srv srv' (Client.move cfg s m (.event (.sync e))).2.2) :
    (Client.move cfg s m (.event (.sync e))).1.tagList = s.tagList ∧ (Client.move cfg s m (.event (.sync e))).2.1 = m ∧
    (∀ x, x ≠ mAuth → x ∉ metaNames → srv' x = srv x) ∧
    (s.sentMeta = true → srv' = srv ∧ (Client.move cfg s m (.event (.sync e))).1.sentMeta = true) ∧
    (s.sentMeta = false → (Client.move cfg s m (.event (.sync e))).1.sentMeta = true →
      ∃ i, e.info = .ok i ∧ ∀ c ∈ metaList i, srv' c.method = some c.params) := by
  simp only [Client.move, Client.step, Client.sync, Client.syncBody] at h ⊢
  cases hm : s.sentMeta with
  | true =>
    simp only [hm, if_true] at h ⊢
    exact ⟨by trivial, by trivial, fun x _ _ => congrFun h x, fun _ => ⟨h, by trivial⟩, nofun⟩
  | false =>
    simp only [hm, Bool.false_eq_true, if_false] at h ⊢
    obtain ⟨c, hc⟩ := batch_state s (Client.authCall cfg [(Client.nm "sync_id", .str e.syncId)] :: Client.metaCalls e.info) e.net
    obtain ⟨p, hp⟩ := sync_calls cfg [(Client.nm "sync_id", .str e.syncId)] e.info s.rpc.callId
    have hi := ids_sync cfg [(Client.nm "sync_id", .str e.syncId)] e.info
    generalize hops : (Client.authCall cfg [(Client.nm "sync_id", .str e.syncId)] :: Client.metaCalls e.info) = ops at *
    have hn : (expected s.rpc.callId ops).any (·.id.isSome) = true := by rw [hp]; rfl
    have hw : Delivered way e.net srv srv' (Client.batch s ops e.net).2.2.1 := by
      rcases hb : Client.batch s ops e.net with ⟨s1, b, w, x⟩
      rw [hb] at h
      cases x with
      | some x => exact h
      | none => dsimp only at h ⊢; split at h <;> exact h
    have hkept : ∀ x, x ≠ mAuth → x ∉ metaNames → srv' x = srv x := by
      intro x h1 h2
      refine other_kept hi hn ?_ hw
      rw [hp]
      intro c hc
      rcases List.mem_cons.mp hc with rfl | hc
      · exact fun he => h1 he.symm
      · cases hinfo : e.info with
        | error _ => rw [hinfo] at hc; exact nomatch hc
        | ok i =>
          rw [hinfo] at hc
          intro he
          exact h2 (he ▸ metaList_methods i ▸ List.mem_map_of_mem hc)
    obtain ⟨hcases, hmiss⟩ := batch_loop hi.1 hi.2.1 hi.2.2 hn hw
    rcases hb : Client.batch s ops e.net with ⟨s1, b, w, x⟩
    rw [hb] at hc hcases hmiss
    dsimp only at hc hcases hmiss
    subst hc
    cases x with
    | some x => exact ⟨by trivial, by trivial, hkept, nofun, fun _ h => by
        first
          | exact absurd h Bool.false_ne_true
          | exact absurd (show s.sentMeta = true from h) (by rw [hm]; exact Bool.false_ne_true)⟩
    | none =>
      rcases hcases with ⟨_, h2, _⟩ | ⟨_, h2, _⟩ | ⟨h1, _, f, h3, h4⟩
      · exact absurd rfl h2
      · exact absurd rfl h2
      dsimp only
      cases ha : getResult b Client.authId none with
      | error x => exact ⟨by trivial, by trivial, hkept, nofun, fun _ h => by
        first
          | exact absurd h Bool.false_ne_true
          | exact absurd (show s.sentMeta = true from h) (by rw [hm]; exact Bool.false_ne_true)⟩
      | ok v =>
        simp only [Client.checkMeta, hm, Bool.false_eq_true, if_false]
        cases hk : check b Client.metaIds with
        | some x => exact ⟨by trivial, by trivial, hkept, nofun, fun _ h => by
        first
          | exact absurd h Bool.false_ne_true
          | exact absurd (show s.sentMeta = true from h) (by rw [hm]; exact Bool.false_ne_true)⟩
        | none =>
          refine ⟨by trivial, by trivial, hkept, nofun, fun _ _ => ?_⟩
          have hall := check_ok hk
          cases hinfo : e.info with
          | error x =>
            rw [hinfo] at hp
            obtain ⟨v, hv⟩ := hall (.text (Client.nm "set_uname_result")) (by simp [Client.metaIds])
            rw [hmiss h1 _ (by
              rw [hp]
              intro x hx
              rw [List.mem_singleton.mp hx]
              show some Client.authId ≠ some _
              decide +kernel)] at hv
            exact nomatch hv
          | ok i =>
            rw [hinfo] at hp
            refine ⟨i, rfl, fun c hc => ?_⟩
            have hin : c ∈ expected s.rpc.callId ops := by rw [hp]; exact List.mem_cons_of_mem _ hc
            have hid : c.id ∈ Client.metaIds.map some := metaList_ids i ▸ List.mem_map_of_mem hc
            obtain ⟨id, hid1, hid2⟩ := List.mem_map.mp hid
            obtain ⟨v, hv⟩ := hall id hid1
            rw [h4 c hin id hid2.symm] at hv
            rw [h3]
            refine apply_same (outcome_ok hv) (fun d hd he => ?_) (.inl hin)
            refine unique_of_nodup ?_ hin hd he
            rw [hp, List.map_cons, metaList_methods]
            exact names_nodup

/-! ### Identity -/

theorem identity_move {cfg : Client.Config} {s : Client.State} {i : Bytes} {reply : Reply} {way srv srv'} {m : Client.Manager}
    (h : Delivered way (.reply reply) srv srv' (Client.move cfg s m (.identity i reply)).2.2) :
    (Client.move cfg s m (.identity i reply)).1.tagList = s.tagList ∧ (Client.move cfg s m (.identity i reply)).1.sentMeta = s.sentMeta ∧
    (∀ x, x ≠ mAuth → x ≠ mAssoc → srv' x = srv x) ∧
    (((Client.move cfg s m (.identity i reply)).2.1.notified = m.notified ∧ srv' = srv) ∨
      (Client.move cfg s m (.identity i reply)).2.1.notified = none ∨
      ((Client.move cfg s m (.identity i reply)).2.1.notified = some i ∧ HasIdentity srv' i)) := by
  simp only [Client.move, Client.told] at h ⊢
  by_cases hs : i ≠ [] ∧ some i ≠ m.notified
  · have hset : ∀ r : Option Bytes, m.setIdentity i (fun _ => r) = (⟨some i, r⟩, true) := fun r => by
      simp [Client.Manager.setIdentity, hs]
    simp only [hset] at h ⊢
    simp only [Client.setIdentity] at h ⊢
    by_cases hc : cfg.authToken = none
    · rw [if_pos hc] at h ⊢
      exact ⟨rfl, rfl, fun x _ _ => congrFun h x, .inr (.inl rfl)⟩
    rw [if_neg hc] at h ⊢
    cases ht : utf8Decode i with
    | none =>
      simp only [ht] at h ⊢
      exact ⟨by trivial, by trivial, fun x _ _ => congrFun h x, .inr (.inl rfl)⟩
    | some text =>
      simp only [ht] at h ⊢
      have hops : [Client.authCall cfg [], .callWithId Client.associateId (Client.nm "m2m.associate") (.obj [(Client.nm "identity", .str text)])] =
        idOps cfg text := rfl
      rw [hops] at h ⊢
      have hi := ids_identity cfg text
      obtain ⟨c, hc'⟩ := batch_state s (idOps cfg text) (.reply reply)
      have hmem : ∀ c ∈ expected s.rpc.callId (idOps cfg text), c.method = mAuth ∨
          c = ⟨mAssoc, idParams text, some Client.associateId⟩ := by
        intro c hc
        simp only [idOps, Client.authCall, expected, List.mem_cons, List.not_mem_nil, or_false] at hc
        rcases hc with rfl | rfl
        · exact .inl rfl
        · exact .inr rfl
      have hin : (⟨mAssoc, idParams text, some Client.associateId⟩ : Call) ∈ expected s.rpc.callId (idOps cfg text) := by
        simp only [idOps, Client.authCall, expected]
        exact List.mem_cons_of_mem _ (List.mem_cons_self ..)
      have hne : mAuth ≠ mAssoc := by decide +kernel
      have hw : Delivered way (.reply reply) srv srv' (Client.batch s (idOps cfg text) (.reply reply)).2.2.1 := by
        rcases hb : Client.batch s (idOps cfg text) (.reply reply) with ⟨s1, b, w, x⟩
        rw [hb] at h
        cases x with
        | some x => cases x <;> exact h
        | none => dsimp only at h ⊢; split at h <;> (try split at h) <;> exact h
      have hkept : ∀ x, x ≠ mAuth → x ≠ mAssoc → srv' x = srv x := by
        intro x h1 h2
        refine other_kept hi rfl ?_ hw
        intro c hc
        rcases hmem c hc with h' | rfl
        · exact fun he => h1 (he.symm.trans h')
        · exact fun he => h2 he.symm
      obtain ⟨hcases, _⟩ := batch_loop hi.1 hi.2.1 hi.2.2 rfl hw
      rcases hb : Client.batch s (idOps cfg text) (.reply reply) with ⟨s1, b, w, x⟩
      rw [hb] at hc' hcases
      dsimp only at hc' hcases
      subst hc'
      cases x with
      | some x =>
        cases x <;> (simp only [Client.caught]; exact ⟨by trivial, by trivial, hkept, .inr (.inl rfl)⟩)
      | none =>
        rcases hcases with ⟨_, h2, _⟩ | ⟨_, h2, _⟩ | ⟨h1, _, f, h3, h4⟩
        · exact absurd rfl h2
        · exact absurd rfl h2
        dsimp only
        cases ha : getResult b Client.authId none with
        | error x => exact ⟨by trivial, by trivial, hkept, .inr (.inl rfl)⟩
        | ok v =>
          have hg : getResult b Client.associateId none = outcome f mAssoc (idParams text) := h4 _ hin _ rfl
          cases ho : outcome f mAssoc (idParams text) with
          | error er =>
            rw [ho] at hg
            simp only [hg]
            exact ⟨by trivial, by trivial, hkept, .inr (.inl rfl)⟩
          | ok v =>
            rw [ho] at hg
            simp only [hg]
            refine ⟨by trivial, by trivial, hkept, .inr (.inr ⟨rfl, text, ht, ?_⟩)⟩
            show srv' mAssoc = some (idParams text)
            rw [h3]
            refine apply_same (c := ⟨mAssoc, idParams text, some Client.associateId⟩) (outcome_ok ho) ?_ (.inl hin)
            intro d hd he
            rcases hmem d hd with h' | rfl
            · exact absurd (h'.symm.trans he) hne
            · rfl
  · have hset : ∀ r : Option Bytes, m.setIdentity i (fun _ => r) = (⟨some i, m.notified⟩, false) := fun r => by
      simp [Client.Manager.setIdentity, hs]
    simp only [hset] at h ⊢
    exact ⟨by trivial, by trivial, fun x _ _ => congrFun h x, .inl ⟨by trivial, h⟩⟩

end Verif.Server
