import Verif.Spec.ServerBytes
import Verif.Props.Server
import Verif.Props.RpcBytes
/-!
Lemmas for C158.
-/
namespace Verif.ServerBytes
open Verif JsonRpc JsonText Server

/-! ### The client writes no floating point numbers -/

/-- The parameters of an operation have no floating point numbers. -/
def Plain : BOp → Prop
  | .call _ p | .callWithId _ _ p | .notify _ p => floats p = []
  | .abandon => True

theorem expected_plain {ops : List BOp} (h : ∀ op ∈ ops, Plain op) (n : Nat) : ∀ k ∈ expected n ops, floats k.params = [] := by
  induction ops generalizing n with
  | nil => exact fun _ h => nomatch h
  | cons op ops ih =>
    obtain ⟨h0, h1⟩ := List.forall_mem_cons.1 h
    cases op with
    | abandon => exact ih h1 n
    | call m p => exact List.forall_mem_cons.2 ⟨h0, ih h1 _⟩
    | callWithId id m p => exact List.forall_mem_cons.2 ⟨h0, ih h1 _⟩
    | notify m p => exact List.forall_mem_cons.2 ⟨h0, ih h1 _⟩

theorem floats_strs (l : List Text) : floatsList (l.map .str) = [] := by
  induction l with
  | nil => rfl
  | cons t l ih => rw [List.map_cons, floatsList, ih]; rfl

theorem floats_jopt (t : Option Text) : floats (Client.jopt t) = [] := by cases t <;> rfl

theorem plain_auth (cfg : Client.Config) (l : List (Text × Json)) (h : floatsObj l = []) : Plain (Client.authCall cfg l) := by
  simp only [Client.authCall, Plain, floats, RpcBytes.floatsObj_append, h, floatsObj, floats_jopt, List.append_nil]

theorem plain_disk (cfg : Client.Config) (t u : Int) : ∀ op ∈ Client.diskCalls cfg t u, Plain op := by
  refine List.forall_mem_cons.2 ⟨plain_auth cfg [] rfl, List.forall_mem_cons.2 ⟨?_, fun _ h => nomatch h⟩⟩
  simp only [Plain, floats, floatsObj, List.append_nil]

theorem plain_tags (cfg : Client.Config) (t : List Text) : ∀ op ∈ Client.tagCalls cfg t, Plain op := by
  refine List.forall_mem_cons.2 ⟨plain_auth cfg [] rfl, List.forall_mem_cons.2 ⟨?_, fun _ h => nomatch h⟩⟩
  simp only [Plain, floats, floatsObj, floats_strs, List.append_nil]

theorem plain_meta (info : Except Client.Raised Client.Meta) : ∀ op ∈ Client.metaCalls info, Plain op := by
  cases info with
  | error x => exact fun _ h => nomatch h
  | ok m =>
    intro op hop
    simp only [Client.metaCalls, List.mem_cons, List.not_mem_nil, or_false] at hop
    rcases hop with rfl | rfl | rfl | rfl | rfl | rfl <;> simp only [Plain, floats, floatsObj, floats_strs, floats_jopt, List.append_nil]

theorem plain_identity (cfg : Client.Config) (t : Text) : ∀ op ∈ idOps cfg t, Plain op := by
  refine List.forall_mem_cons.2 ⟨plain_auth cfg [] rfl, List.forall_mem_cons.2 ⟨?_, fun _ h => nomatch h⟩⟩
  simp only [Plain, floats, floatsObj, List.append_nil]

/-- What a batch sends. -/
theorem batch_sent {s : Client.State} {ops : List BOp} (hi : TextIds ops) (net : Client.Net) :
    (Client.batch s ops net).2.2.1 = [expected s.rpc.callId ops] := by
  cases net with
  | reply r => exact c72_sent s.rpc ops r hi.1 hi.2.2
  | interrupt => exact c72_sent s.rpc ops .unreachable hi.1 hi.2.2

/-- What the agent sends: calls without floating point numbers, of which the first authenticates. -/
def Good (cfg : Client.Config) (w : List (List Call)) : Prop := ∀ calls ∈ w, ∃ n more ops, (more = [] ∨ ∃ x, more = [(Client.nm "sync_id", .str x)]) ∧
  (∀ op ∈ Client.authCall cfg more :: ops, Plain op) ∧ calls = expected n (Client.authCall cfg more :: ops)

theorem batch_plain {cfg : Client.Config} {s : Client.State} {more : List (Text × Json)} {ops : List BOp} (hi : TextIds (Client.authCall cfg more :: ops))
    (hm : more = [] ∨ ∃ x, more = [(Client.nm "sync_id", .str x)]) (hp : ∀ op ∈ Client.authCall cfg more :: ops, Plain op) (net : Client.Net) :
    Good cfg (Client.batch s (Client.authCall cfg more :: ops) net).2.2.1 := by
  rw [batch_sent hi]
  intro calls hc
  exact ⟨_, more, ops, hm, hp, List.mem_singleton.mp hc⟩

theorem good_nil {cfg : Client.Config} : Good cfg [] := fun _ h => nomatch h

theorem disk_plain (cfg : Client.Config) (s : Client.State) (e : Client.DiskEnv) : Good cfg (Client.diskPoll cfg s e).2.1 := by
  rw [Client.diskPoll]
  split
  · dsimp only
    split
    · exact good_nil
    · exact batch_plain (ids_disk ..) (.inl rfl) (plain_disk _ _ _) e.net
  · exact good_nil

theorem tags_plain (cfg : Client.Config) (s : Client.State) (e : Client.TagEnv) : Good cfg (Client.tagPoll cfg s e).2.1 := by
  unfold Client.tagPoll
  split
  · exact good_nil
  · exact good_nil
  · rename_i t _
    split
    · have h := batch_plain (s := s) (ids_tags cfg t) (.inl rfl) (plain_tags cfg t) e.net
      change Good cfg (Client.batch s (Client.tagCalls cfg t) e.net).2.2.1 at h
      rcases hb : Client.batch s (Client.tagCalls cfg t) e.net with ⟨s1, b, w, x⟩
      rw [hb] at h
      cases x with
      | some x => exact h
      | none => dsimp only; split <;> exact h
    · exact good_nil

theorem sync_plain (cfg : Client.Config) (s : Client.State) (e : Client.SyncEnv) : Good cfg (Client.sync cfg s e).2.1 := by
  show Good cfg (Client.syncBody cfg s e).2.1
  rw [Client.syncBody]
  split
  · exact good_nil
  · have h := batch_plain (s := s) (ids_sync cfg [(Client.nm "sync_id", .str e.syncId)] e.info) (.inr ⟨_, rfl⟩)
      (List.forall_mem_cons.2 ⟨plain_auth cfg _ rfl, plain_meta e.info⟩) e.net
    rcases hb : Client.batch s (Client.authCall cfg [(Client.nm "sync_id", .str e.syncId)] :: Client.metaCalls e.info) e.net with ⟨s1, b, w, x⟩
    rw [hb] at h
    cases x with
    | some x => exact h
    | none => dsimp only; split <;> exact h

theorem identity_plain (cfg : Client.Config) (s : Client.State) (i : Bytes) (net : Client.Net) : Good cfg (Client.setIdentity cfg s i net).2.1 := by
  unfold Client.setIdentity
  split
  · exact good_nil
  · split
    · exact good_nil
    · rename_i text _
      have h := batch_plain (s := s) (ids_identity cfg text) (.inl rfl) (plain_identity cfg text) net
      change Good cfg (Client.batch s [Client.authCall cfg [], .callWithId Client.associateId (Client.nm "m2m.associate")
        (.obj [(Client.nm "identity", .str text)])] net).2.2.1 at h
      rcases hb : Client.batch s [Client.authCall cfg [], .callWithId Client.associateId (Client.nm "m2m.associate")
        (.obj [(Client.nm "identity", .str text)])] net with ⟨s1, b, w, x⟩
      rw [hb] at h
      cases x with
      | some x => dsimp only; split <;> exact h
      | none => dsimp only; repeat' (first | exact h | split)

theorem move_plain (cfg : Client.Config) (s : Client.State) (m : Client.Manager) (mv : Client.Move) : Good cfg (Client.move cfg s m mv).2.2 := by
  cases mv with
  | event e => cases e with
    | disk e => exact disk_plain cfg s e
    | tags e => exact tags_plain cfg s e
    | sync e => exact sync_plain cfg s e
  | identity i r =>
    have h := identity_plain cfg s i (.reply r)
    simp only [Client.move, Client.told]
    rcases hs : Client.setIdentity cfg s i (.reply r) with ⟨s', w, x⟩
    rw [hs] at h
    dsimp only
    split
    · exact h
    · exact good_nil

theorem good_plain {cfg : Client.Config} {w : List (List Call)} (h : Good cfg w) : ∀ calls ∈ w, ∀ k ∈ calls, floats k.params = [] := by
  intro calls hc
  obtain ⟨n, more, ops, _, hp, rfl⟩ := h calls hc
  exact expected_plain hp n

/-! ### What the server reads -/

theorem reads_body {ftext : Option Int → Nat → Text} {fval : Text → Json} {calls : List Call} (hk : ∀ k ∈ calls, floats k.params = []) (q : Json) :
    Reads fval (RpcBytes.body ftext (batchRequest calls)) q ↔ q = batchRequest calls := by
  have hf : floats (batchRequest calls) = [] := by
    rw [RpcBytes.floats_batch, List.flatMap_eq_nil_iff]
    exact hk
  have hd := c151_writes ftext fval (batchRequest calls) (by rw [hf]; exact fun _ h => nomatch h)
  constructor
  · rintro ⟨text, h1, h2⟩
    have h3 : text = dumps ftext (batchRequest calls) := by
      have := congrArg utf8Decode h1
      rw [RpcBytes.body, utf8Decode_encode, utf8Decode_encode] at this
      injection this with this
      exact this.symm
    subst h3
    exact c151_unambiguous fval _ _ _ h2 hd
  · rintro rfl
    exact ⟨_, rfl, hd⟩

theorem storeOne_call (f : Procs) (k : Call) (srv : Srv) :
    storeOne f k.json srv = match f k.method k.params with | .ok _ => srv.set k.method k.params | .error _ => srv := by
  obtain ⟨l, h1, _, h3, h4⟩ := json_fields k
  have h3 : lookup l "method".toList = some (.str k.method) := h3
  have h4 : lookup l "params".toList = some k.params := h4
  rw [h1, storeOne]
  simp only [h3, h4]
  cases f k.method k.params <;> rfl

theorem store_batch (f : Procs) (calls : List Call) (srv : Srv) : store f (batchRequest calls) srv = apply f calls srv := by
  rw [batchRequest, store, apply]
  induction calls generalizing srv with
  | nil => rfl
  | cons k calls ih =>
    rw [List.map_cons, List.foldl_cons, List.foldl_cons, storeOne_call]
    cases hf : f k.method k.params <;> exact ih _

theorem unanswered {fval : Text → Json} {net : Client.Net} (h : Unanswered fval net) : NoReply net := by
  rcases h with rfl | ⟨resp, rfl, h⟩
  · exact .inr (.inr rfl)
  · cases hr : RpcBytes.replyOf fval resp with
    | unreachable => exact .inl rfl
    | notJson => exact .inr (.inl rfl)
    | json j =>
      obtain ⟨t, ht, hd⟩ := (RpcBytes.c152_reply fval resp j).1 hr
      exact absurd ⟨t, rfl, hd⟩ (h _ j ht)

theorem delivered {ftext : Option Int → Nat → Text} {fval : Text → Json} {way : Way} {net : Client.Net} {srv srv' : Srv} {w : List (List Call)}
    {cfg : Client.Config} (hp : Good cfg w) (h : Delivered fval way net srv srv' (w.map fun calls => RpcBytes.body ftext (batchRequest calls))) :
    Server.Delivered way net srv srv' w := by
  cases w with
  | nil => exact h
  | cons calls w => cases w with
    | cons _ _ => exact h
    | nil =>
      have hk := good_plain hp calls (List.mem_cons_self ..)
      cases way with
      | lostRequest => exact ⟨unanswered h.1, h.2⟩
      | lostReply =>
        obtain ⟨h1, f, q, h2, h3⟩ := h
        rw [(reads_body hk q).1 h2, store_batch] at h3
        exact ⟨unanswered h1, f, h3⟩
      | served =>
        obtain ⟨f, q, reply, resp, h1, h2, h3, h4, h5⟩ := h
        rw [(reads_body hk q).1 h1] at h2 h5
        rw [store_batch] at h5
        rw [RpcBytes.replyOf_spells h3] at h4
        exact ⟨f, reply, h4, h2, h5⟩

theorem loop {ftext : Option Int → Nat → Text} {fval : Text → Json} {cfg : Client.Config} {s s' : Client.State} {m m' : Client.Manager} {srv srv' : Srv}
    {evs : List (Client.Move × Way)} (h : Loop ftext fval cfg s m srv evs s' m' srv') : Server.Loop cfg s m srv evs s' m' srv' := by
  induction h with
  | nil => exact .nil _ _ _
  | cons h _ ih => exact .cons (delivered (move_plain _ _ _ _) h) ih

end Verif.ServerBytes
