import Verif.Proofs.JsonRpcWire
import Verif.Props.JsonRpc
/-!
C116: the JSON-RPC client and a server that follows the specification.
-/
namespace Verif.JsonRpc
open Verif

/-- C116: a direct call on a conforming server returns the result of the procedure, or raises its error. -/
theorem c116_call (f : Procs) (c : Client) (method : Text) (params : Json) (reply : Reply)
    (h : Conforms f (call c method params reply).2.1.json reply) : (call c method params reply).2.2 = outcome f method params := by
  simp only [call, newCallId] at h ⊢
  obtain ⟨l, g1, _⟩ := json_fields ⟨method, params, some (.num (c.callId + 1))⟩
  have hw : wantsAnswer (Call.json ⟨method, params, some (.num (c.callId + 1))⟩) = true := wants_json _
  have hc : ∃ r, reply = .json (.obj r) ∧ Answers f (Call.json ⟨method, params, some (.num (c.callId + 1))⟩) r := by
    rw [g1] at h hw ⊢
    simpa only [Conforms, hw, if_true] using h
  obtain ⟨r, rfl, ha⟩ := hc
  obtain ⟨a1, a2, a3⟩ := answers_call rfl ha
  rw [callResult_obj, a1, a2]
  have hk : (CallId.num (c.callId + 1)).json.key = some (.num (c.callId + 1 : Nat)) := rfl
  simp only [isStr, decide_true, Bool.true_eq_false, if_false, hk, ne_eq, not_true_eq_false, outcome]
  dsimp only at a3
  cases hf : f method params with
  | ok v => rw [hf] at a3; dsimp only at a3; rw [a3.2]; simp [getD, a3.1]
  | error e => rw [hf] at a3; dsimp only at a3; rw [a3.1]

/-- C116 for batches: a block of calls, whose supplied ids are different texts, is sent to a conforming server, with at least one call that is not a
notification.  Then nothing is raised, and the result of each call is what its procedure gives, in whatever order the responses are;
an id that was not used gives a `KeyError`.  Missing for the
full property: batches of notifications, `c116_notifications`. -/
theorem c116_batch_partial (f : Procs) (c : Client) (ops : List BOp) (reply : Reply) (hd : (supplied ops).Nodup)
    (ht : ∀ id ∈ supplied ops, ∃ s, id = .text s) (ha : .abandon ∉ ops) (hn : (expected c.callId ops).any (·.id.isSome) = true)
    (h : ∀ q ∈ (block c ops none reply).2.2.1, Conforms f (batchRequest q) reply) :
    (block c ops none reply).2.2.2 = none ∧
    (∀ x ∈ expected c.callId ops, ∀ id, x.id = some id → getResult (block c ops none reply).2.1 id none = outcome f x.method x.params) ∧
    ∀ id, (∀ x ∈ expected c.callId ops, x.id ≠ some id) → getResult (block c ops none reply).2.1 id none = .error .keyError := by
  rw [c72_sent c ops reply hd ha] at h
  obtain ⟨hok, hcalls, hab, _⟩ := addAll_spec c .init ops ⟨fun id _ => by simp [Batch.init], hd⟩
  have hcalls' : (addAll c .init ops).2.1.calls = expected c.callId ops := by rw [hcalls]; rfl
  have hconf := h _ (List.mem_singleton.mpr rfl)
  clear h
  have hblock : (block c ops none reply).2.2.2 = (send (addAll c .init ops).2.1 reply).2 ∧
      (block c ops none reply).2.1 = (send (addAll c .init ops).2.1 reply).1 := by
    have hab' : (addAll c .init ops).2.1.abandoned = false := by rw [hab]; simpa [Batch.init] using ha
    rcases hr : addAll c .init ops with ⟨c', b, e⟩
    rw [hr] at hok hab'
    dsimp only at hok hab'
    subst hok
    simp [block, hr, hab']
  rw [hblock.1, hblock.2]
  -- the reply
  have hany : ((expected c.callId ops).map Call.json).any wantsAnswer = true := by
    rw [List.any_map]
    have : (wantsAnswer ∘ Call.json) = fun x : Call => x.id.isSome := by funext x; exact wants_json x
    rw [this]; exact hn
  have hps : ∃ ps : List (Json × List (Text × Json)), (ps.map (·.1)).Perm (((expected c.callId ops).map Call.json).filter wantsAnswer) ∧
      (∀ x ∈ ps, Answers f x.1 x.2) ∧ reply = .json (.arr (ps.map fun x => .obj x.2)) := by
    cases hq : (expected c.callId ops).map Call.json with
    | nil => rw [hq] at hany; exact absurd hany (by simp)
    | cons q qs =>
      simp only [batchRequest, hq, Conforms] at hconf
      rw [hq] at hany
      rw [if_pos hany] at hconf
      exact hconf
  obtain ⟨ps, hperm, hans, rfl⟩ := hps
  have hfil : ((expected c.callId ops).map Call.json).filter wantsAnswer = ((expected c.callId ops).filter (·.id.isSome)).map Call.json := by
    rw [List.filter_map]
    congr 2
    funext x; exact wants_json x
  rw [hfil] at hperm
  -- every pair belongs to a call
  have hof : ∀ x ∈ ps, ∃ k ∈ expected c.callId ops, ∃ id, k.id = some id ∧ x.1 = k.json := by
    intro x hx
    have : x.1 ∈ ((expected c.callId ops).filter (·.id.isSome)).map Call.json := hperm.mem_iff.mp (List.mem_map_of_mem hx)
    obtain ⟨k, hk, hk'⟩ := List.mem_map.mp this
    rw [List.mem_filter] at hk
    obtain ⟨id, hid⟩ := Option.isSome_iff_exists.mp hk.2
    exact ⟨k, hk.1, id, hid, hk'.symm⟩
  have hrk : ∀ x ∈ ps, responseKey x.2 = requestKey x.1 ∧ requestKey x.1 ≠ none := by
    intro x hx
    obtain ⟨k, _, id, hid, he⟩ := hof x hx
    have := hans x hx
    rw [he] at this ⊢
    obtain ⟨_, a2, _⟩ := answers_call hid this
    rw [requestKey_json, hid]
    exact ⟨by simp [responseKey, a2, id_key], by simp⟩
  have hnodup : (ps.map fun x => responseKey x.2).Nodup := by
    have e1 : (ps.map fun x => responseKey x.2) = (ps.map (·.1)).map requestKey := by
      rw [List.map_map]
      exact List.map_congr_left fun x hx => (hrk x hx).1
    rw [e1, (hperm.map requestKey).nodup_iff, List.map_map]
    have e2 : ((expected c.callId ops).filter (·.id.isSome)).map (requestKey ∘ Call.json) =
        ((expected c.callId ops).filterMap (·.id)).map (fun id => some id.key) := by
      induction expected c.callId ops with
      | nil => rfl
      | cons k ks ih =>
        cases hid : k.id with
        | none => simp only [List.filter_cons, hid, Option.isSome_none, List.filterMap_cons]; exact ih
        | some id =>
          simp only [List.filter_cons, hid, Option.isSome_some, if_true, List.map_cons, List.filterMap_cons, ih, Function.comp, requestKey_json,
            Option.map_some]
    rw [e2]
    have hu := c71_unique_partial c ops ht hok
    simp only [idsIn, hcalls'] at hu
    rw [List.nodup_iff_pairwise_ne, List.pairwise_map]
    exact hu.imp fun hne he => hne (key_inj (by injection he))
  have hproper : Proper (ps.map (·.2)) := by
    refine ⟨?_, ?_⟩
    · intro r hr
      obtain ⟨x, hx, rfl⟩ := List.mem_map.mp hr
      rw [(hrk x hx).1]; exact (hrk x hx).2
    · apply pairwise_of_nodup_map
      rw [List.map_map]; exact hnodup
  have hrs : (ps.map fun x => Json.obj x.2) = (ps.map (·.2)).map .obj := by rw [List.map_map]; rfl
  rw [hrs]
  have husable : Usable (ps.map (·.2)) := fun r hr _ => responseKey_scalar.1 (hproper.1 r hr)
  refine ⟨(c73_accepted _ _).2 ⟨_, rfl, husable⟩, ?_, ?_⟩
  case refine_2 =>
    intro id hid
    refine c73_missing _ husable id none fun r hr => ?_
    rw [hasId_iff]
    obtain ⟨x, hx, rfl⟩ := List.mem_map.mp hr
    obtain ⟨k, hk, id', hid', he⟩ := hof x hx
    rw [(hrk x hx).1, he, requestKey_json, hid']
    intro heq
    refine hid k hk ?_
    have : id' = id := key_inj (by simpa using heq)
    rw [hid', this]
  intro x hx id hid
  have hmem : x.json ∈ ps.map (·.1) := hperm.mem_iff.mpr (List.mem_map_of_mem (List.mem_filter.mpr ⟨hx, by simp [hid]⟩))
  obtain ⟨pr, hpr, hpe⟩ := List.mem_map.mp hmem
  have hansx := hans pr hpr
  rw [hpe] at hansx
  obtain ⟨_, a2, a3⟩ := answers_call hid hansx
  have hkey : responseKey pr.2 = some id.key := by simp [responseKey, a2, id_key]
  have hin : pr.2 ∈ ps.map (·.2) := List.mem_map_of_mem hpr
  obtain ⟨pre, post, hsplit⟩ := List.append_of_mem hin
  rw [hsplit] at hproper husable ⊢
  have hpost : ∀ r' ∈ post, ¬ HasId r' id := by
    intro r' hr' hh
    have := (List.pairwise_cons.1 (List.pairwise_append.1 hproper.2).2.1).1 r' hr'
    exact this (hkey.trans (hasId_iff.1 hh).symm)
  unfold outcome
  cases hf : f x.method x.params with
  | ok v =>
    rw [hf] at a3
    dsimp only at a3 ⊢
    rw [c73_result _ husable id none (hasId_iff.2 hkey) a3.2 fun r' hr' hh => absurd hh (hpost r' hr')]
    show Except.ok ((lookup pr.2 sResult).getD .null) = _
    rw [a3.1]; rfl
  | error e =>
    rw [hf] at a3
    dsimp only at a3 ⊢
    refine c73_error _ husable id (c73_method c ops hd ht (by rw [hcalls']; exact hx) hid) (hasId_iff.2 hkey) a3.1 ?_ hpost none
    intro r' hr' hh
    rcases List.mem_append.1 hr' with hr' | hr'
    · exact absurd ((hasId_iff.1 hh).trans hkey.symm) ((List.pairwise_append.1 hproper.2).2.2 r' hr' pr.2 (by simp))
    · rcases List.mem_cons.1 hr' with rfl | hr'
      · show lookup pr.2 sError ≠ none
        rw [a3.1]; exact Option.some_ne_none _
      · exact absurd hh (hpost r' hr')

/-- C116 is false for a batch of notifications: a conforming server sends no response, and the block raises a `ValueError` (not one of the documented
errors) although the notifications have been sent. -/
theorem c116_notifications (f : Procs) (c : Client) (ms : List (Text × Json)) (hne : ms ≠ []) (reply : Reply)
    (h : ∀ q ∈ (block c (ms.map fun x => .notify x.1 x.2) none reply).2.2.1, Conforms f (batchRequest q) reply) :
    (block c (ms.map fun x => .notify x.1 x.2) none reply).2.2 = ([ms.map fun x => ⟨x.1, x.2, none⟩], some .valueError) := by
  have hsup : supplied (ms.map fun x => BOp.notify x.1 x.2) = [] := by
    induction ms with
    | nil => rfl
    | cons x ms ih => cases ms with
      | nil => rfl
      | cons y ms => simpa [supplied] using ih (by simp)
  have hab : BOp.abandon ∉ ms.map fun x => BOp.notify x.1 x.2 := by simp
  have hexp : expected c.callId (ms.map fun x => BOp.notify x.1 x.2) = ms.map fun x => ⟨x.1, x.2, none⟩ := by
    clear h hsup hab hne
    induction ms with
    | nil => rfl
    | cons x ms ih => simp only [List.map_cons, expected, ih]
  have hsent := c72_sent c _ reply (by rw [hsup]; exact List.nodup_nil) hab
  rw [hsent, hexp] at h
  have hr : reply = .notJson := by
    have := h _ (List.mem_singleton.mpr rfl)
    cases ms with
    | nil => exact absurd rfl hne
    | cons x ms =>
      simp only [batchRequest, List.map_cons, Conforms] at this
      rw [if_neg] at this
      · exact this
      · simp [wants_json]
  subst hr
  obtain ⟨hok, hcalls, hab', _⟩ := addAll_spec c .init (ms.map fun x => BOp.notify x.1 x.2)
    ⟨fun id hid => (by rw [hsup] at hid; exact (nomatch hid)), by rw [hsup]; exact List.nodup_nil⟩
  apply Prod.ext
  · rw [hsent, hexp]
  · have hab'' : (addAll c .init (ms.map fun x => BOp.notify x.1 x.2)).2.1.abandoned = false := by rw [hab']; simpa [Batch.init] using hab
    rcases hr : addAll c .init (ms.map fun x => BOp.notify x.1 x.2) with ⟨c', b, e⟩
    rw [hr] at hok hab''
    dsimp only at hok hab''
    subst hok
    simp [block, hr, hab'', send]

/-- The operation is a call, which gets a response. -/
def BOp.isCall : BOp → Bool
  | .call _ _ => true
  | .callWithId _ _ _ => true
  | _ => false

/-- C116, exactly when a block raises nothing on a conforming server: at least one of its operations is a call. -/
theorem c116_quiet_iff (f : Procs) (c : Client) (ops : List BOp) (hne : ops ≠ []) (reply : Reply) (hd : (supplied ops).Nodup)
    (ht : ∀ id ∈ supplied ops, ∃ s, id = .text s) (ha : .abandon ∉ ops)
    (h : ∀ q ∈ (block c ops none reply).2.2.1, Conforms f (batchRequest q) reply) :
    (block c ops none reply).2.2.2 = none ↔ ∃ op ∈ ops, op.isCall = true := by
  have key : ∀ (ops : List BOp) (n : Nat), (∃ op ∈ ops, op.isCall = true) → (expected n ops).any (·.id.isSome) = true := by
    intro ops
    induction ops with
    | nil => rintro n ⟨op, hop, _⟩; exact nomatch hop
    | cons op ops ih =>
      rintro n ⟨x, hx, hc⟩
      cases op with
      | call m p => simp [expected]
      | callWithId id m p => simp [expected]
      | notify m p =>
        rcases List.mem_cons.1 hx with rfl | hx
        · exact nomatch hc
        · simp only [expected, List.any_cons, ih n ⟨x, hx, hc⟩, Bool.or_true]
      | abandon =>
        rcases List.mem_cons.1 hx with rfl | hx
        · exact nomatch hc
        · simp only [expected, ih n ⟨x, hx, hc⟩]
  constructor
  · intro hq
    apply Classical.byContradiction
    intro hno
    have hall : ∃ ms : List (Text × Json), ops = ms.map fun x => .notify x.1 x.2 := by
      clear h hq hd ht hne
      induction ops with
      | nil => exact ⟨[], rfl⟩
      | cons op ops ih =>
        obtain ⟨ms, rfl⟩ := ih (fun hx => ha (List.mem_cons_of_mem _ hx)) (fun ⟨x, hx, hc⟩ => hno ⟨x, List.mem_cons_of_mem _ hx, hc⟩)
        cases op with
        | call m p => exact absurd ⟨_, List.mem_cons_self, rfl⟩ hno
        | callWithId id m p => exact absurd ⟨_, List.mem_cons_self, rfl⟩ hno
        | notify m p => exact ⟨(m, p) :: ms, rfl⟩
        | abandon => exact absurd List.mem_cons_self ha
    obtain ⟨ms, rfl⟩ := hall
    have := c116_notifications f c ms (by rintro rfl; exact hne rfl) reply h
    rw [this] at hq
    exact nomatch hq
  · intro hc
    exact (c116_batch_partial f c ops reply hd ht ha (key ops _ hc) h).1

/-- A server with one procedure, which returns its parameters. -/
def echoProcs : Procs := fun m p => if m = "echo".toList then .ok p else .error (.obj [(sCode, .int (-32601))])

/-- The block of the examples: a call, a notification, and a call of a procedure that does not exist. -/
def mixedOps : List BOp := [.callWithId (.text "a".toList) "echo".toList (.int 7), .notify "n".toList .null, .call "none".toList .null]

/-- The reply of the server, with the responses in another order. -/
def mixedReply : Reply := .json (.arr [
  .obj [(sId, .int 2), (sError, .obj [(sCode, .int (-32601))]), (sJsonrpc, .str sVersion)],
  .obj [(sJsonrpc, .str sVersion), (sResult, .int 7), (sId, .str "a".toList)]])

theorem mixed_conforms : ∀ q ∈ (block .init mixedOps none mixedReply).2.2.1, Conforms echoProcs (batchRequest q) mixedReply := by
  have h : (block .init mixedOps none mixedReply).2.2.1 =
      [[⟨"echo".toList, .int 7, some (.text "a".toList)⟩, ⟨"n".toList, .null, none⟩, ⟨"none".toList, .null, some (.num 2)⟩]] := by decide +kernel
  rw [h]
  intro q hq
  rw [List.mem_singleton.mp hq]
  have hw : (List.map Call.json [⟨"echo".toList, .int 7, some (.text "a".toList)⟩, ⟨"n".toList, .null, none⟩, ⟨"none".toList, .null, some (.num 2)⟩]).any
      wantsAnswer = true := by decide +kernel
  simp only [batchRequest, List.map_cons, Conforms]
  simp only [List.map_cons, List.map_nil] at hw
  rw [List.map_nil, if_pos hw]
  refine ⟨[(Call.json ⟨"none".toList, .null, some (.num 2)⟩, [(sId, .int 2), (sError, .obj [(sCode, .int (-32601))]), (sJsonrpc, .str sVersion)]),
    (Call.json ⟨"echo".toList, .int 7, some (.text "a".toList)⟩, [(sJsonrpc, .str sVersion), (sResult, .int 7), (sId, .str "a".toList)])], ?_, ?_, rfl⟩
  · have e : List.filter wantsAnswer [Call.json ⟨"echo".toList, .int 7, some (.text "a".toList)⟩, Call.json ⟨"n".toList, .null, none⟩,
        Call.json ⟨"none".toList, .null, some (.num 2)⟩] =
        [Call.json ⟨"echo".toList, .int 7, some (.text "a".toList)⟩, Call.json ⟨"none".toList, .null, some (.num 2)⟩] := by decide +kernel
    rw [e]
    exact List.Perm.swap _ _ _
  · intro x hx
    rcases List.mem_cons.mp hx with rfl | hx
    · refine ⟨_, .int 2, "none".toList, .null, rfl, by decide +kernel, by decide +kernel, by decide +kernel, by decide +kernel, by decide +kernel, ?_⟩
      have : echoProcs "none".toList .null = .error (.obj [(sCode, .int (-32601))]) := by
        unfold echoProcs; rw [if_neg (by decide +kernel)]
      rw [this]
      constructor <;> decide +kernel
    · rw [List.mem_singleton.mp hx]
      refine ⟨_, .str "a".toList, "echo".toList, .int 7, rfl, by decide +kernel, by decide +kernel, by decide +kernel, by decide +kernel, by decide +kernel, ?_⟩
      have : echoProcs "echo".toList (.int 7) = .ok (.int 7) := by
        unfold echoProcs; rw [if_pos rfl]
      rw [this]
      constructor <;> decide +kernel

example : (getResult (block .init mixedOps none mixedReply).2.1 (.text "a".toList) none).toOption = some (.int 7) ∧
    (getResult (block .init mixedOps none mixedReply).2.1 (.num 2) none).toOption = none ∧
    (expected 1 mixedOps).any (·.id.isSome) = true := by decide +kernel

end Verif.JsonRpc
