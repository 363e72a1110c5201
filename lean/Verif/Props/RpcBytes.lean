import Verif.Model.RpcBytes
import Verif.Spec.RpcBytes
import Verif.Props.JsonRpcWire
import Verif.Props.JsonText
import Verif.Proofs.Library
/-!
C152: calls over the wire, as bytes.
-/
namespace Verif.RpcBytes
open Verif JsonRpc JsonText

theorem replyOf_spells {fval : Text → Json} {reply : Reply} {resp : Option Bytes} (h : Spells fval reply resp) : replyOf fval resp = reply := by
  cases reply with
  | unreachable => rw [show resp = none from h]; rfl
  | notJson => rw [show resp = some [] from h]; rfl
  | json j =>
    obtain ⟨t, rfl, ht⟩ := h
    simp only [replyOf, utf8Decode_encode, (loads_iff fval t j).2 ht]

theorem floatsObj_append (l m : List (Text × Json)) : floatsObj (l ++ m) = floatsObj l ++ floatsObj m := by
  induction l with
  | nil => rfl
  | cons x l ih => obtain ⟨k, v⟩ := x; rw [List.cons_append, floatsObj, floatsObj, ih, List.append_assoc]

theorem floats_call (k : Call) : floats k.json = floats k.params := by
  have h1 : floatsObj [(sJsonrpc, .str sVersion), (sMethod, .str k.method), (sParams, k.params)] = floats k.params := by
    simp only [floatsObj, floats, List.nil_append, List.append_nil]
  rw [Call.json, floats, floatsObj_append, h1]
  cases k.id with
  | none => exact List.append_nil _
  | some id => cases id <;> exact List.append_nil _

theorem floats_batch (ks : List Call) : floats (batchRequest ks) = ks.flatMap fun k => floats k.params := by
  rw [batchRequest, floats]
  induction ks with
  | nil => rfl
  | cons k ks ih => rw [List.map_cons, floatsList, floats_call, ih, List.flatMap_cons]

theorem request_call (k : Call) : IsRequest k.json := by
  obtain ⟨l, h1, _, h3, h4⟩ := json_fields k
  have hv : ∀ l, k.json = .obj l → lookup l sJsonrpc = some (.str sVersion) := by
    intro l hl
    rw [Call.json] at hl
    injection hl with hl
    rw [← hl]
    have g1 : sId ≠ sJsonrpc := by decide +kernel
    have g2 : sMethod ≠ sJsonrpc := by decide +kernel
    have g3 : sParams ≠ sJsonrpc := by decide +kernel
    cases k.id <;> simp [lookup, g1, g2, g3]
  exact ⟨l, k.method, k.params, h1, hv l h1, h3, h4⟩

/-- C152: the answer to a call depends on nothing but the JSON value that the body of the response stands for, in whatever spelling; it is taken for
JSON exactly if it is JSON in UTF-8. -/
theorem c152_reply (fval : Text → Json) (resp : Option Bytes) (j : Json) :
    replyOf fval resp = .json j ↔ ∃ t, resp = some (utf8Encode t) ∧ Document fval t j := by
  constructor
  · intro h
    cases resp with
    | none => exact (nomatch h)
    | some b =>
      cases ht : utf8Decode b with
      | none => simp only [replyOf, ht] at h; exact (nomatch h)
      | some t =>
        cases hl : loads fval t with
        | none => simp only [replyOf, ht, hl] at h; exact (nomatch h)
        | some v =>
          simp only [replyOf, ht, hl] at h
          injection h with h
          subst h
          exact ⟨t, by rw [Library.decode_sound _ b t (Nat.le_refl _) ht], (loads_iff fval t v).1 hl⟩
  · rintro ⟨t, rfl, ht⟩
    simp only [replyOf, utf8Decode_encode, (loads_iff fval t j).2 ht]

/-- C152: a call on a server that reads JSON and follows the specification gives the result of the procedure, or raises its error. -/
theorem c152_call (ftext : Option Int → Nat → Text) (fval : Text → Json) (f : Procs) (server : Bytes → Option Bytes) (h : Serves fval f server)
    (c : Client) (method : Text) (params : Json) (hf : FloatsRead ftext fval (floats params)) :
    (call ftext fval server c method params).2 = outcome f method params := by
  obtain ⟨reply, hc, hs⟩ := h _ _ (.inl (request_call _)) (c151_writes ftext fval (Call.json ⟨method, params, some (.num (newCallId c).2)⟩) (by rwa [floats_call]))
  have hr := replyOf_spells hs
  simp only [call, body, hr]
  exact c116_call f c method params reply hc

/-- C152 for batches with at least one call that is not a notification: nothing is raised, and the result of each call is what its procedure gives. -/
theorem c152_batch (ftext : Option Int → Nat → Text) (fval : Text → Json) (f : Procs) (server : Bytes → Option Bytes) (h : Serves fval f server)
    (c : Client) (ops : List BOp) (hd : (supplied ops).Nodup) (ht : ∀ id ∈ supplied ops, ∃ s, id = .text s) (ha : .abandon ∉ ops)
    (hn : (expected c.callId ops).any (·.id.isSome) = true) (hf : ∀ x ∈ expected c.callId ops, FloatsRead ftext fval (floats x.params)) :
    (block ftext fval server c ops none).2.2 = none ∧
    (∀ x ∈ expected c.callId ops, ∀ id, x.id = some id → getResult (block ftext fval server c ops none).2.1 id none = outcome f x.method x.params) ∧
    ∀ id, (∀ x ∈ expected c.callId ops, x.id ≠ some id) → getResult (block ftext fval server c ops none).2.1 id none = .error .keyError := by
  obtain ⟨_, hcalls, _, _⟩ := addAll_spec c .init ops ⟨fun id _ => by simp [Batch.init], hd⟩
  have hcalls' : (addAll c .init ops).2.1.calls = expected c.callId ops := by rw [hcalls]; rfl
  have hfl : FloatsRead ftext fval (floats (batchRequest (addAll c .init ops).2.1.calls)) := by
    rw [floats_batch, hcalls']
    intro x hx
    obtain ⟨k, hk, hx⟩ := List.mem_flatMap.1 hx
    exact hf k hk x hx
  obtain ⟨reply, hc, hs⟩ := h _ _ (.inr ⟨_, rfl, fun x hx => by
    obtain ⟨k, _, rfl⟩ := List.mem_map.1 hx
    exact request_call k⟩) (c151_writes ftext fval _ hfl)
  have hr := replyOf_spells hs
  simp only [block, body]
  simp only [batchRequest] at hr hc ⊢
  rw [hr]
  refine c116_batch_partial f c ops reply hd ht ha hn fun q hq => ?_
  rw [c72_sent c ops reply hd ha, List.mem_singleton, ← hcalls'] at hq
  rw [hq]
  exact hc

/-! ### A server -/

/-- Texts for floats, for the examples: all floats have different ones. -/
def codeText : Option Int → Nat → Text
  | none, t => natTextF (t + 1) t ++ ['.', '0']
  | some (.ofNat n), t => natTextF (t + 1) t ++ '.' :: '1' :: natTextF (n + 1) n
  | some (.negSucc n), t => natTextF (t + 1) t ++ '.' :: '2' :: natTextF (n + 1) n

/-- The float for a text. -/
def codeVal (s : Text) : Json :=
  .flt (match s.dropWhile isDigit with
    | '.' :: '1' :: n => some (.ofNat (digitsVal n))
    | '.' :: '2' :: n => some (.negSucc (digitsVal n))
    | _ => none) (digitsVal (s.takeWhile isDigit))

theorem codes_read (l : List (Option Int × Nat)) : FloatsRead codeText codeVal l := by
  rintro ⟨a, t⟩ -
  have ht := natText_lit t
  obtain ⟨_, hall, hval⟩ := digits_sound ht.1
  have hdot : ∀ r, Not (fun c => isDigit c = true) ('.' :: r) := by intro r c h; injection h with h; rw [← h]; decide
  have key : ∀ r n, Digits r n → codeText a t = natTextF (t + 1) t ++ '.' :: r →
      (∃ d, codeVal (codeText a t) = .flt d t ∧ d = (match '.' :: r with
        | '.' :: '1' :: n => some (.ofNat (digitsVal n))
        | '.' :: '2' :: n => some (.negSucc (digitsVal n))
        | _ => none)) ∧ FloatLit (codeText a t) := by
    intro r n hr he
    obtain ⟨h1, h2⟩ := take_digits hall (hdot r)
    refine ⟨⟨_, ?_, rfl⟩, ⟨_, '.' :: r, [], t, by rw [he, List.append_nil], .pos ht, .some hr, .none, .inl (by simp)⟩⟩
    rw [he, codeVal, h1, h2, hval]
  have more : ∀ (d : Char) (n : Nat), isDigit d = true → ∃ m, Digits (d :: natTextF (n + 1) n) m := by
    intro d n hd
    refine ⟨_, (digits_iff _ _).2 ⟨by simp, ?_, rfl⟩⟩
    intro c hc
    rcases List.mem_cons.1 hc with rfl | hc
    · exact hd
    · exact (digits_sound (natText_lit n).1).2.1 c hc
  cases a with
  | none =>
    obtain ⟨⟨d, h1, h2⟩, h3⟩ := key ['0'] 0 (.one rfl) rfl
    exact ⟨by rw [h1, h2]; rfl, .inl h3⟩
  | some i =>
    cases i with
    | ofNat n =>
      obtain ⟨m, hm⟩ := more '1' n (by decide)
      obtain ⟨⟨d, h1, h2⟩, h3⟩ := key _ m hm rfl
      refine ⟨?_, .inl h3⟩
      rw [h1, h2]
      simp only [(digits_sound (natText_lit n).1).2.2]
    | negSucc n =>
      obtain ⟨m, hm⟩ := more '2' n (by decide)
      obtain ⟨⟨d, h1, h2⟩, h3⟩ := key _ m hm rfl
      refine ⟨?_, .inl h3⟩
      rw [h1, h2]
      simp only [(digits_sound (natText_lit n).1).2.2]

/-- The response to one request. -/
def respond1 (f : Procs) : Json → List (Text × Json)
  | .obj l => [(sJsonrpc, .str sVersion), (sId, (lookup l sId).getD .null),
      match lookup l sMethod, lookup l sParams with
      | some (.str m), some p => (match f m p with
        | .ok v => (sResult, v)
        | .error e => (sError, e))
      | _, _ => (sError, .null)]
  | _ => []

/-- The response to any request. -/
def respond (f : Procs) : Json → Reply
  | .arr [] => .json (.obj [(sId, .null), (sError, .null)])
  | .arr (q :: qs) => if (q :: qs).any wantsAnswer then .json (.arr (((q :: qs).filter wantsAnswer).map fun q => .obj (respond1 f q))) else .notJson
  | q => if wantsAnswer q then .json (.obj (respond1 f q)) else .notJson

/-- A server for any procedures. -/
def serve (f : Procs) (b : Bytes) : Option Bytes :=
  match (utf8Decode b).bind (loads codeVal) with
  | none => none
  | some q => match respond f q with
    | .json j => some (body codeText j)
    | .notJson => some []
    | .unreachable => none

theorem respond1_answers (f : Procs) {q : Json} (h : IsRequest q) (hw : wantsAnswer q = true) : Answers f q (respond1 f q) := by
  obtain ⟨l, m, p, rfl, -, hm, hp⟩ := h
  obtain ⟨id, hid⟩ := Option.isSome_iff_exists.1 (show (lookup l "id".toList).isSome = true from hw)
  refine ⟨l, id, m, p, rfl, hid, hm, hp, ?_⟩
  have hm' : lookup l sMethod = some (.str m) := hm
  have hp' : lookup l sParams = some p := hp
  have hid' : lookup l sId = some id := hid
  have e1 : "jsonrpc".toList = sJsonrpc := rfl
  have e2 : "id".toList = sId := rfl
  have e3 : "result".toList = sResult := rfl
  have e4 : "error".toList = sError := rfl
  have e5 : "2.0".toList = sVersion := rfl
  have g1 : sId ≠ sJsonrpc := by decide +kernel
  have g2 : sResult ≠ sJsonrpc := by decide +kernel
  have g3 : sError ≠ sJsonrpc := by decide +kernel
  have g4 : sResult ≠ sId := by decide +kernel
  have g5 : sError ≠ sId := by decide +kernel
  have g6 : sError ≠ sResult := by decide +kernel
  rw [e1, e2, e3, e4, e5]
  simp only [respond1, hm', hp', hid', Option.getD_some]
  cases f m p with
  | ok v => simp [lookup, g1, g2, g4, g1.symm, g4.symm, g2.symm, g3.symm, g5.symm, g6.symm]
  | error e => simp [lookup, g1, g3, g5, g6, g1.symm, g4.symm, g2.symm, g3.symm, g5.symm, g6.symm]

theorem respond_conforms (f : Procs) {q : Json} (h : Proper q) : Conforms f q (respond f q) := by
  rcases h with h | ⟨qs, rfl, h⟩
  · obtain ⟨l, m, p, rfl, hx⟩ := h
    by_cases hw : wantsAnswer (.obj l) = true
    · simp only [Conforms, respond, hw, if_true]
      exact ⟨_, rfl, respond1_answers f ⟨l, m, p, rfl, hx⟩ hw⟩
    · simp only [Conforms, respond, if_neg hw]
  · cases qs with
    | nil => exact ⟨_, rfl, rfl, rfl⟩
    | cons q qs =>
      by_cases hw : (q :: qs).any wantsAnswer = true
      · simp only [Conforms, respond, if_pos hw]
        refine ⟨((q :: qs).filter wantsAnswer).map fun q => (q, respond1 f q), ?_, ?_, ?_⟩
        · rw [List.map_map]
          exact List.Perm.of_eq (List.map_id _)
        · intro x hx
          obtain ⟨y, hy, rfl⟩ := List.mem_map.1 hx
          obtain ⟨h1, h2⟩ := List.mem_filter.1 hy
          exact respond1_answers f (h y h1) h2
        · rw [List.map_map]; rfl
      · simp only [Conforms, respond, if_neg hw]

/-- There are servers as the theorems ask for, for any procedures. -/
theorem serve_serves (f : Procs) : Serves codeVal f (serve f) := by
  intro s q hq hs
  refine ⟨respond f q, respond_conforms f hq, ?_⟩
  have hl : (utf8Decode (utf8Encode s)).bind (loads codeVal) = some q := by
    rw [utf8Decode_encode]
    exact (loads_iff codeVal s q).2 hs
  rw [serve, hl]
  dsimp only
  cases respond f q with
  | json j => exact ⟨_, rfl, c151_writes codeText codeVal j (codes_read _)⟩
  | notJson => rfl
  | unreachable => rfl

/-- So against it every call of a procedure gives what the procedure gives. -/
example (f : Procs) (c : Client) (method : Text) (params : Json) : (call codeText codeVal (serve f) c method params).2 = outcome f method params :=
  c152_call codeText codeVal f (serve f) (serve_serves f) c method params (codes_read _)

/-- A call and its answer, as bytes. -/
example : body codeText (Call.json ⟨"echo".toList, .obj [("a".toList, .int 7)], some (.num 2)⟩) =
      asc "{\"jsonrpc\": \"2.0\", \"method\": \"echo\", \"params\": {\"a\": 7}, \"id\": 2}" ∧
    serve echoProcs (body codeText (Call.json ⟨"echo".toList, .obj [("a".toList, .int 7)], some (.num 2)⟩)) =
      some (asc "{\"jsonrpc\": \"2.0\", \"id\": 2, \"result\": {\"a\": 7}}") ∧
    ((call codeText codeVal (serve echoProcs) .init "echo".toList (.obj [("a".toList, .int 7)])).2.toOption = some (.obj [("a".toList, .int 7)])) := by
  decide +kernel

/-- The block of C116, over the wire. -/
example : (getResult (block codeText codeVal (serve echoProcs) .init mixedOps none).2.1 (.text "a".toList) none).toOption = some (.int 7) := by
  decide +kernel

/-- The exception of a call, for the example. -/
def excOf : Except Exc Json → Option Exc
  | .error e => some e
  | .ok _ => none

/-- Bodies that are not UTF-8, or not JSON, and none. -/
example : excOf (call codeText codeVal (fun _ => some [0xff]) .init "m".toList .null).2 = some .unreachable ∧
    excOf (call codeText codeVal (fun _ => some (asc "<html>")) .init "m".toList .null).2 = some .invalidResponse ∧
    excOf (call codeText codeVal (fun _ => none) .init "m".toList .null).2 = some .unreachable := by
  decide +kernel

end Verif.RpcBytes
