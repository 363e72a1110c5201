import Verif.Proofs.JsonRpc
/-!
C68-C74: remote procedure calls.
-/
namespace Verif.JsonRpc
open Verif

/-- A response for the examples. -/
def response (l : List (String × Json)) : Json := .obj (l.map (fun x => (x.1.toList, x.2)))

/-- A text value for the examples. -/
def jtext (s : String) : Json := .str s.toList

/-! ### C68 -/

/-- C68: a call returns a value exactly if the response is an object of version 2.0 with the number of this call as id and without error;
the value is its result, or `None`.  The number is one more than the counter, which is at least 1. -/
theorem c68_returns {c : Client} (hc : 1 ≤ c.callId) (method : Text) (params : Json) (reply : Reply) (v : Json) :
    (call c method params reply).2.2 = .ok v ↔
      ∃ l, reply = .json (.obj l) ∧ lookup l "jsonrpc".toList = some (.str "2.0".toList) ∧
        (∃ id, lookup l "id".toList = some id ∧ IsNumber id (c.callId + 1)) ∧ lookup l "error".toList = none ∧
        ((∃ r, lookup l "result".toList = some r ∧ v = r) ∨ (lookup l "result".toList = none ∧ v = .null)) := by
  change callResult method (c.callId + 1) reply = .ok v ↔ ∃ l, reply = .json (.obj l) ∧ lookup l sJsonrpc = some (.str sVersion) ∧
    (∃ id, lookup l sId = some id ∧ IsNumber id (c.callId + 1)) ∧ lookup l sError = none ∧
    ((∃ r, lookup l sResult = some r ∧ v = r) ∨ (lookup l sResult = none ∧ v = .null))
  have hkey : ∀ id : Json, id.key = some (.num ((c.callId + 1 : Nat) : Int)) ↔ IsNumber id (c.callId + 1) := by
    intro id
    rw [key_num (.inl (by omega))]
    simp
  constructor
  · intro h
    cases reply with
    | unreachable => exact nomatch h
    | notJson => exact nomatch h
    | json j =>
      by_cases hj : ∃ l, j = .obj l
      · obtain ⟨l, rfl⟩ := hj
        rw [callResult_obj] at h
        cases h1 : lookup l sJsonrpc with
        | none => rw [h1] at h; exact nomatch h
        | some version =>
          cases h2 : lookup l sId with
          | none => rw [h1, h2] at h; exact nomatch h
          | some id =>
            rw [h1, h2] at h
            simp only at h
            split at h
            · exact nomatch h
            · rename_i hv
              split at h
              · exact nomatch h
              · rename_i hid
                cases h3 : lookup l sError with
                | some e => rw [h3] at h; exact nomatch h
                | none =>
                  rw [h3] at h
                  simp only at h
                  injection h with h
                  have hv' : version = .str sVersion := isStr_iff.1 (by simpa using hv)
                  have hid' : id.key = some (.num ((c.callId + 1 : Nat) : Int)) := by simpa using hid
                  refine ⟨l, rfl, by rw [hv'] at h1; exact h1, ⟨id, h2, (hkey id).1 hid'⟩, h3, ?_⟩
                  unfold getD at h
                  cases h4 : lookup l sResult with
                  | none => rw [h4] at h; exact .inr ⟨rfl, h.symm⟩
                  | some r => rw [h4] at h; exact .inl ⟨r, rfl, h.symm⟩
      · obtain ⟨e, he, _⟩ := callResult_other method (c.callId + 1) j (fun l e => hj ⟨l, e⟩)
        rw [he] at h
        exact nomatch h
  · rintro ⟨l, rfl, h1, ⟨id, h2, h3⟩, h4, h5⟩
    rw [callResult_obj, h1, h2]
    have hs : isStr sVersion (.str sVersion) = true := isStr_iff.2 rfl
    simp only [hs, Bool.true_eq_false, if_false]
    rw [if_neg (by rw [(hkey id).2 h3]; simp), h4]
    unfold getD
    rcases h5 with ⟨r, h5, rfl⟩ | ⟨h5, rfl⟩
    · rw [h5]; rfl
    · rw [h5]; rfl

/-- The counter is at least 1, whatever was done. -/
theorem c68_counter (ops : List Op) : 1 ≤ (run .init ops).client.callId := by
  have : ∀ w : World, 1 ≤ w.client.callId → 1 ≤ (run w ops).client.callId := by
    induction ops with
    | nil => exact fun w h => h
    | cons op ops ih =>
      intro w h
      refine ih (step w op) ?_
      rcases made_step w op with ⟨_, e⟩ | ⟨_, e⟩
      · rw [e]; exact h
      · rw [e]; omega
  exact this _ (by decide)

example : (call ⟨1⟩ "m".toList .null (.json (response [("jsonrpc", jtext "2.0"), ("id", .int 2), ("result", .int 7)]))).2.2 = .ok (.int 7) := by
  decide +kernel
example : (call ⟨1⟩ "m".toList .null (.json (response [("jsonrpc", jtext "2.0"), ("id", .flt (some 2) 0)]))).2.2 = .ok .null := by decide +kernel
example : (call ⟨1⟩ "m".toList .null (.json (response [("jsonrpc", jtext "2.0"), ("id", .int 3), ("result", .int 7)]))).2.2 =
    .error .protocol := by decide +kernel

/-! ### C69 -/

/-- C69: a standard code gives `RemoteError`, with the standard message if there is none. -/
theorem c69_standard (method : Text) (l : List (Text × Json)) {code : Json} {n : Int} {text : String}
    (hc : lookup l "code".toList = some code) (hn : IsNumber code n) (hs : Standard n text) :
    handleError method (.obj l) = .remote method code ((lookup l "data".toList).getD .null)
      ((lookup l "message".toList).getD (.str text.toList)) := by
  have hc' : getD l sCode .null = code := by
    have : lookup l sCode = some code := hc
    simp [getD, this]
  have hneg : n < 0 := by rcases hs with h | h | h | h | h <;> (have := h.1; omega)
  have hk : code.key = some (.num n) := (key_num (.inr hneg)).2 hn
  have ht : codeText (.num n) = some text.toList := (codeText_num n _).2 ⟨text, hs, rfl⟩
  simp only [handleError, hc', hk, ht]
  rfl

/-- C69, the part that holds: any other code that is not a list or a dict, or none, gives `RemoteMethodError`. -/
theorem c69_other_partial (method : Text) (l : List (Text × Json)) {code : Json}
    (hc : (lookup l "code".toList).getD .null = code) (hsc : Scalar code) (hn : ∀ n text, IsNumber code n → ¬ Standard n text) :
    handleError method (.obj l) = .remoteMethod method code ((lookup l "data".toList).getD .null)
      ((lookup l "message".toList).getD (.str "the server did not supply further information".toList)) := by
  have hc' : getD l sCode .null = code := hc
  have hk := key_scalar.2 hsc
  cases hkey : code.key with
  | none => exact absurd hkey hk
  | some k =>
    have ht : codeText k = none := by
      cases k with
      | num i =>
        cases hx : codeText (.num i) with
        | none => rfl
        | some t =>
          exfalso
          obtain ⟨text, hs, _⟩ := (codeText_num i t).1 hx
          have hneg : i < 0 := by rcases hs with h | h | h | h | h <;> (have := h.1; omega)
          exact hn i text ((key_num (.inr hneg)).1 hkey) hs
      | _ => rfl
    simp only [handleError, hc', hkey, ht]
    rfl

/-- C69: this is what a call raises for a response with an error. -/
theorem c69_raised {c : Client} (hc : 1 ≤ c.callId) (method : Text) (params : Json) (l : List (Text × Json)) {id e : Json}
    (h1 : lookup l "jsonrpc".toList = some (.str "2.0".toList)) (h2 : lookup l "id".toList = some id) (h3 : IsNumber id (c.callId + 1))
    (h4 : lookup l "error".toList = some e) : (call c method params (.json (.obj l))).2.2 = .error (handleError method e) := by
  change callResult method (c.callId + 1) (.json (.obj l)) = _
  have h1' : lookup l sJsonrpc = some (.str sVersion) := h1
  have h2' : lookup l sId = some id := h2
  have h4' : lookup l sError = some e := h4
  have hs : isStr sVersion (.str sVersion) = true := isStr_iff.2 rfl
  have hk : id.key = some (.num ((c.callId + 1 : Nat) : Int)) := by
    rw [key_num (.inl (by omega))]
    simpa using h3
  rw [callResult_obj, h1', h2']
  simp only [hs, Bool.true_eq_false, if_false]
  rw [if_neg (by rw [hk]; simp), h4']

example : handleError "m".toList (response [("code", .int (-32601))]) = .remote "m".toList (.int (-32601)) .null (jtext "Method not found") := by
  decide +kernel
example : handleError "m".toList (response [("code", .int 7), ("data", .int 1), ("message", jtext "no")]) =
    .remoteMethod "m".toList (.int 7) (.int 1) (jtext "no") := by decide +kernel
/-- A float with the value of a standard code counts as standard. -/
example : handleError "m".toList (response [("code", .flt (some (-32700)) 0)]) =
    .remote "m".toList (.flt (some (-32700)) 0) .null (jtext "Parse error") := by decide +kernel

/-- C69, exactly when neither of the two is raised: the error is no object, or its code is a list or an object. -/
theorem c69_neither_iff (method : Text) (e : Json) :
    (∀ m c d t, handleError method e ≠ .remote m c d t ∧ handleError method e ≠ .remoteMethod m c d t) ↔
      (∀ l, e ≠ .obj l) ∨ ∃ l c, e = .obj l ∧ lookup l "code".toList = some c ∧ ¬ Scalar c := by
  constructor
  · intro h
    cases e with
    | obj l =>
      refine .inr ⟨l, ?_⟩
      by_cases hsc : Scalar ((lookup l "code".toList).getD .null)
      · exfalso
        by_cases hst : ∃ n text, IsNumber ((lookup l "code".toList).getD .null) n ∧ Standard n text
        · obtain ⟨n, text, hn, hs⟩ := hst
          cases hl : lookup l "code".toList with
          | none =>
            rw [hl] at hn
            rcases hn with hn | ⟨_, hn⟩ <;> exact nomatch hn
          | some code =>
            rw [hl] at hn
            exact (h _ _ _ _).1 (c69_standard method l hl hn hs)
        · exact (h _ _ _ _).2 (c69_other_partial method l rfl hsc (fun n text hn hs => hst ⟨n, text, hn, hs⟩))
      · cases hl : lookup l "code".toList with
        | none =>
          rw [hl] at hsc
          exact absurd ⟨fun _ h => (nomatch h), fun _ h => (nomatch h)⟩ hsc
        | some c =>
          rw [hl] at hsc
          exact ⟨c, rfl, rfl, hsc⟩
    | _ => exact .inl (fun l h => nomatch h)
  · rintro (h | ⟨l, c, rfl, hl, hc⟩) m c' d t
    · cases e with
      | obj l => exact absurd rfl (h l)
      | _ => exact ⟨fun h => (nomatch h), fun h => (nomatch h)⟩
    · have hc' : getD l sCode .null = c := by
        have : lookup l sCode = some c := hl
        simp [getD, this]
      have hk : c.key = none := by
        cases hk : c.key with
        | none => rfl
        | some k => exact absurd (key_scalar.1 (by rw [hk]; exact fun h => nomatch h)) hc
      have he : handleError method (.obj l) = .typeError := by simp only [handleError, hc', hk]
      rw [he]
      exact ⟨fun h => (nomatch h), fun h => (nomatch h)⟩

/-- C69 is false for errors that are not an object, and for codes that are lists or dicts: they raise neither of the two. -/
theorem c69_false :
    (call .init "m".toList .null (.json (response [("jsonrpc", jtext "2.0"), ("id", .int 2), ("error", jtext "bad")]))).2.2 =
      .error .attributeError ∧
    (call .init "m".toList .null (.json (response [("jsonrpc", jtext "2.0"), ("id", .int 2), ("error", response [("code", .arr [])])]))).2.2 =
      .error .typeError := by decide +kernel

/-! ### C70 -/

/-- C70 is false for two threads that ask for an id at the same time: both get 3.  In the agent the thread of the websocket and the main
thread share a client, though all their calls have ids of their own. -/
theorem c70_race_false : ∃ steps, (Ids.init.run steps).given = [3, 3] :=
  ⟨[.read 0, .write 0, .read 1, .write 1, .ret 0, .ret 1], by decide +kernel⟩

/-- Both may also get 2. -/
example : (Ids.init.run [.read 0, .read 1, .write 0, .write 1, .ret 0, .ret 1]).given = [2, 2] := by decide +kernel

/-- C70, the part that holds: if no two threads are inside `new_call_id` at the same time, all numbers returned are different. -/
theorem c70_exclusive_partial (steps : List IdStep) (h : Exclusive .init steps) : (Ids.init.run steps).given.Nodup := by
  have key : ∀ (steps : List IdStep) (s : Ids), Exclusive s steps → s.given.Nodup → (∀ n ∈ s.given, n ≤ s.counter) →
      (∀ t n, s.place t = .read n → n = s.counter) → (∀ t, s.place t = .written → ∀ n ∈ s.given, n < s.counter) →
      (s.run steps).given.Nodup := by
    intro steps
    induction steps with
    | nil => intro s _ h _ _ _; exact h
    | cons a as ih =>
      intro s ⟨hx, he⟩ h1 h2 h3 h4
      refine ih (s.step a) he ?_ ?_ ?_ ?_
      all_goals cases a with
        | read t =>
          simp only [Ids.step, IdStep.thread] at hx ⊢
          split <;> simp_all [Ids.go] <;> first | assumption | grind
        | write t =>
          simp only [Ids.step, IdStep.thread] at hx ⊢
          split <;> simp_all [Ids.go] <;> first | assumption | grind
        | ret t =>
          simp only [Ids.step, IdStep.thread] at hx ⊢
          split <;> simp_all [Ids.go] <;> first | assumption | grind
  exact key steps .init h .nil (by simp [Ids.init]) (by simp [Ids.init]) (by simp [Ids.init])

example : Exclusive .init [.read 4, .write 4, .ret 4, .read 7, .write 7, .ret 7, .read 4] ∧
    (Ids.init.run [.read 4, .write 4, .ret 4, .read 7, .write 7, .ret 7, .read 4]).given = [3, 2] := by
  refine ⟨?_, by decide +kernel⟩
  simp only [Exclusive, IdStep.thread, Ids.step, Ids.go, Ids.init]
  grind

/-- A call that is not disturbed does what `newCallId`, of which the theorems about calls and batches speak, says. -/
theorem c70_alone (s : Ids) (t : Nat) (h : s.place t = .outside) :
    (s.run [.read t, .write t, .ret t]).counter = (newCallId ⟨s.counter⟩).1.callId ∧
    (s.run [.read t, .write t, .ret t]).given = (newCallId ⟨s.counter⟩).2 :: s.given := by
  simp [Ids.run, Ids.step, h, Ids.go, newCallId]

/-- C70, the part that holds, for whole calls: the numbers given out by a client, to direct calls and in any of its batches, are all different, and at least 2. -/
theorem c70_fresh_partial (ops : List Op) : (trace .init ops).Nodup ∧ ∀ id ∈ trace .init ops, ∃ n, 2 ≤ n ∧ id = .num n := by
  obtain ⟨h1, h2⟩ := trace_fresh .init ops
  refine ⟨h1, fun id hid => ?_⟩
  obtain ⟨k, hk, e⟩ := h2 id hid
  have hk : 1 < k := hk
  exact ⟨k, hk, e⟩

/-- Two batches and a direct call in between. -/
example : trace .init [.add 0 (.call "a".toList .null), .call "b".toList .null .unreachable, .add 1 (.call "c".toList .null),
    .add 0 (.notify "d".toList .null), .add 0 (.call "e".toList .null)] = [.num 2, .num 3, .num 4, .num 5] := by decide +kernel

/-! ### C71 -/

/-- The ids of the calls in a batch. -/
def idsIn (b : Batch) : List CallId := b.calls.filterMap (·.id)

/-- C71: a supplied id is refused exactly if it was supplied before in the same batch. -/
theorem c71_refused_iff (c : Client) (ops : List BOp) :
    ((supplied ops).Nodup → (addAll c .init ops).2.2 = none) ∧ (¬ (supplied ops).Nodup → (addAll c .init ops).2.2 = some .valueError) :=
  ⟨fun h => (addAll_spec c .init ops ⟨by simp [Batch.init], h⟩).1, fun h => addAll_dup c .init ops (fun hc => h hc.2)⟩

/-- C71, the part that holds: where the supplied ids are text, as everywhere in the agent, the ids in a batch are all different. -/
theorem c71_unique_partial (c : Client) (ops : List BOp) (ht : ∀ id ∈ supplied ops, ∃ s, id = .text s)
    (hok : (addAll c .init ops).2.2 = none) : (idsIn (addAll c .init ops).2.1).Nodup := by
  have hd : (supplied ops).Nodup := by
    apply Classical.byContradiction
    intro h
    rw [(c71_refused_iff c ops).2 h] at hok
    exact nomatch hok
  obtain ⟨_, h2, _⟩ := addAll_spec c .init ops ⟨by simp [Batch.init], hd⟩
  unfold idsIn
  rw [h2]
  simpa [Batch.init] using (expected_ids c.callId ops ht hd).1

/-- C71: the ids in a batch are those supplied and the numbers given out. -/
theorem mem_expected_ids (x : CallId) : ∀ (n : Nat) (ops : List BOp),
    x ∈ (expected n ops).filterMap (·.id) ↔ x ∈ supplied ops ∨ ∃ k, n < k ∧ k ≤ n + ops.countP isCall ∧ x = .num k
  | n, [] => by
    simp only [expected, List.filterMap_nil, List.not_mem_nil, supplied, false_or, List.countP_nil, Nat.add_zero]
    exact ⟨fun h => h.elim, fun ⟨k, h1, h2, _⟩ => by omega⟩
  | n, .call m p :: ops => by
    have hs : supplied (.call m p :: ops) = supplied ops := rfl
    have hc : (BOp.call m p :: ops).countP isCall = ops.countP isCall + 1 := by simp [List.countP_cons, isCall]
    simp only [expected, List.filterMap_cons, List.mem_cons, mem_expected_ids x (n + 1) ops, hs, hc]
    constructor
    · rintro (h | h | ⟨k, h1, h2, h3⟩)
      · exact .inr ⟨n + 1, by omega, by omega, h⟩
      · exact .inl h
      · exact .inr ⟨k, by omega, by omega, h3⟩
    · rintro (h | ⟨k, h1, h2, h3⟩)
      · exact .inr (.inl h)
      · by_cases hk : k = n + 1
        · exact .inl (hk ▸ h3)
        · exact .inr (.inr ⟨k, by omega, by omega, h3⟩)
  | n, .callWithId id m p :: ops => by
    have hs : supplied (.callWithId id m p :: ops) = id :: supplied ops := rfl
    have hc : (BOp.callWithId id m p :: ops).countP isCall = ops.countP isCall := by simp [List.countP_cons, isCall]
    simp only [expected, List.filterMap_cons, List.mem_cons, mem_expected_ids x n ops, hs, hc, or_assoc]
  | n, .notify m p :: ops => by
    have hs : supplied (.notify m p :: ops) = supplied ops := rfl
    have hc : (BOp.notify m p :: ops).countP isCall = ops.countP isCall := by simp [List.countP_cons, isCall]
    simp only [expected, List.filterMap_cons, mem_expected_ids x n ops, hs, hc]
  | n, .abandon :: ops => by
    have hs : supplied (.abandon :: ops) = supplied ops := rfl
    have hc : (BOp.abandon :: ops).countP isCall = ops.countP isCall := by simp [List.countP_cons, isCall]
    simp only [expected, mem_expected_ids x n ops, hs, hc]

theorem nodup_expected_ids : ∀ (n : Nat) (ops : List BOp),
    ((expected n ops).filterMap (·.id)).Nodup ↔
      (supplied ops).Nodup ∧ ∀ k, n < k → k ≤ n + ops.countP isCall → .num k ∉ supplied ops
  | n, [] => by simp [expected, supplied]
  | n, .call m p :: ops => by
    have hs : supplied (.call m p :: ops) = supplied ops := rfl
    have hc : (BOp.call m p :: ops).countP isCall = ops.countP isCall + 1 := by simp [List.countP_cons, isCall]
    simp only [expected, List.filterMap_cons, List.nodup_cons, mem_expected_ids, nodup_expected_ids (n + 1) ops, hs, hc]
    constructor
    · rintro ⟨h1, h2, h3⟩
      refine ⟨h2, fun k hk hk' => ?_⟩
      by_cases he : k = n + 1
      · exact fun h => h1 (.inl (he ▸ h))
      · exact h3 k (by omega) (by omega)
    · rintro ⟨h1, h2⟩
      refine ⟨?_, h1, fun k hk hk' => h2 k (by omega) (by omega)⟩
      rintro (h | ⟨k, hk, _, he⟩)
      · exact h2 (n + 1) (by omega) (by omega) h
      · injection he with he
        omega
  | n, .callWithId id m p :: ops => by
    have hs : supplied (.callWithId id m p :: ops) = id :: supplied ops := rfl
    have hc : (BOp.callWithId id m p :: ops).countP isCall = ops.countP isCall := by simp [List.countP_cons, isCall]
    simp only [expected, List.filterMap_cons, List.nodup_cons, mem_expected_ids, nodup_expected_ids n ops, hs, hc]
    constructor
    · rintro ⟨h1, h2, h3⟩
      refine ⟨⟨fun h => h1 (.inl h), h2⟩, fun k hk hk' h => ?_⟩
      rcases List.mem_cons.1 h with h | h
      · exact h1 (.inr ⟨k, hk, hk', h.symm⟩)
      · exact h3 k hk hk' h
    · rintro ⟨⟨h1, h2⟩, h3⟩
      refine ⟨?_, h2, fun k hk hk' h => h3 k hk hk' (List.mem_cons_of_mem _ h)⟩
      rintro (h | ⟨k, hk, hk', he⟩)
      · exact h1 h
      · exact h3 k hk hk' (he ▸ List.mem_cons_self)
  | n, .notify m p :: ops => by
    have hs : supplied (.notify m p :: ops) = supplied ops := rfl
    have hc : (BOp.notify m p :: ops).countP isCall = ops.countP isCall := by simp [List.countP_cons, isCall]
    simp only [expected, List.filterMap_cons, nodup_expected_ids n ops, hs, hc]
  | n, .abandon :: ops => by
    have hs : supplied (.abandon :: ops) = supplied ops := rfl
    have hc : (BOp.abandon :: ops).countP isCall = ops.countP isCall := by simp [List.countP_cons, isCall]
    simp only [expected, nodup_expected_ids n ops, hs, hc]

/-- C71, exactly when the ids in a batch are all different: no number that was supplied is one of those given out in the same batch, which
are the next ones of the client. -/
theorem c71_unique_iff (c : Client) (ops : List BOp) (hok : (addAll c .init ops).2.2 = none) :
    (idsIn (addAll c .init ops).2.1).Nodup ↔ ∀ k, c.callId < k → k ≤ c.callId + ops.countP isCall → .num k ∉ supplied ops := by
  have hd : (supplied ops).Nodup := by
    apply Classical.byContradiction
    intro h
    rw [(c71_refused_iff c ops).2 h] at hok
    exact nomatch hok
  obtain ⟨_, h2, _⟩ := addAll_spec c .init ops ⟨by simp [Batch.init], hd⟩
  unfold idsIn
  rw [h2]
  have : Batch.init.calls ++ expected c.callId ops = expected c.callId ops := rfl
  rw [this, nodup_expected_ids]
  exact ⟨fun h => h.2, fun h => ⟨hd, h⟩⟩

/-- C71 is false: a number may be supplied that was given out before in the same batch, or is given out after. -/
theorem c71_mixed_false :
    (addAll .init .init [.call "a".toList .null, .callWithId (.num 2) "b".toList .null]).2.2 = none ∧
    idsIn (addAll .init .init [.call "a".toList .null, .callWithId (.num 2) "b".toList .null]).2.1 = [.num 2, .num 2] ∧
    (addAll .init .init [.callWithId (.num 2) "b".toList .null, .call "a".toList .null]).2.2 = none ∧
    idsIn (addAll .init .init [.callWithId (.num 2) "b".toList .null, .call "a".toList .null]).2.1 = [.num 2, .num 2] := by decide +kernel

example : (addAll .init .init [.callWithId (.text "x".toList) "a".toList .null, .call "b".toList .null,
    .callWithId (.text "x".toList) "c".toList .null]).2.2 = some .valueError := by decide +kernel

/-! ### C72 -/

/-- C72: a block that ends without exception and was not abandoned sends one message with all calls, in order. -/
theorem c72_sent (c : Client) (ops : List BOp) (reply : Reply) (hd : (supplied ops).Nodup) (ha : .abandon ∉ ops) :
    (block c ops none reply).2.2.1 = [expected c.callId ops] := by
  obtain ⟨h1, h2, h3, _⟩ := addAll_spec c .init ops ⟨by simp [Batch.init], hd⟩
  have h3 : (addAll c .init ops).2.1.abandoned = false := by
    rw [h3]
    simpa [Batch.init] using ha
  simp only [block]
  split
  · rename_i heq; rw [heq] at h1; exact nomatch h1
  · rename_i c' b heq
    rw [heq] at h2 h3
    simp only at h2 h3
    simp only [h3, Bool.false_eq_true, if_false]
    rw [h2]; simp [Batch.init]

/-- C72: otherwise nothing is sent, and the exception leaves the block. -/
theorem c72_not_sent (c : Client) (ops : List BOp) (raised : Option Exc) (reply : Reply)
    (h : ¬ (supplied ops).Nodup ∨ raised ≠ none ∨ .abandon ∈ ops) :
    (block c ops raised reply).2.2.1 = [] ∧
      (block c ops raised reply).2.2.2 = if (supplied ops).Nodup then raised else some .valueError := by
  by_cases hd : (supplied ops).Nodup
  · obtain ⟨h1, _, h3, _⟩ := addAll_spec c .init ops ⟨by simp [Batch.init], hd⟩
    simp only [block, if_pos hd]
    split
    · rename_i heq; rw [heq] at h1; exact nomatch h1
    · rename_i c' b heq
      rw [heq] at h3
      simp only at h3
      cases raised with
      | some e => exact ⟨rfl, rfl⟩
      | none =>
        have ha : BOp.abandon ∈ ops := by
          rcases h with h | h | h
          · exact absurd hd h
          · exact absurd rfl h
          · exact h
        have h3 : b.abandoned = true := by rw [h3]; simp [ha]
        simp [h3]
  · have h1 := addAll_dup c .init ops (fun hc => hd hc.2)
    simp only [block, if_neg hd]
    split
    · rename_i heq; rw [heq] at h1; exact ⟨rfl, h1⟩
    · rename_i heq; rw [heq] at h1; exact nomatch h1

example : (block .init [.callWithId (.text "x".toList) "a".toList .null, .notify "b".toList .null, .call "c".toList .null] none .notJson).2.2 =
    ([[⟨"a".toList, .null, some (.text "x".toList)⟩, ⟨"b".toList, .null, none⟩, ⟨"c".toList, .null, some (.num 2)⟩]], some .valueError) := by
  decide +kernel
example : (block .init [.call "c".toList .null, .abandon] none .notJson).2.2 = ([], none) := by decide +kernel

/-- C72: the attribute `sent` of the batch of a block says whether the message was sent and an answer of the server came. -/
theorem c72_flag (c : Client) (ops : List BOp) (raised : Option Exc) (reply : Reply) :
    (block c ops raised reply).2.1.sent = true ↔ (block c ops raised reply).2.2.1 ≠ [] ∧ reply ≠ .unreachable := by
  have hadd : ∀ (ops : List BOp) (c : Client) (b : Batch), (addAll c b ops).2.1.sent = b.sent := by
    intro ops
    induction ops with
    | nil => intro c b; rfl
    | cons op ops ih =>
      intro c b
      have h1 : (add c b op).2.1.sent = b.sent := by
        cases op with
        | callWithId id m p => simp only [add]; split <;> rfl
        | _ => rfl
      simp only [addAll]
      split
      · rename_i heq; rw [heq] at h1; exact h1
      · rename_i heq; rw [heq] at h1; rw [ih]; exact h1
  have hsent := hadd ops c .init
  have hsend : ∀ b : Batch, b.sent = false → ((send b reply).1.sent = true ↔ reply ≠ .unreachable) := by
    intro b hb
    cases reply with
    | unreachable => simp [send, hb]
    | notJson => simp [send]
    | json j =>
      cases j with
      | arr rs =>
        simp only [send, ne_eq, reduceCtorEq, not_false_eq_true, iff_true]
        repeat' split
        all_goals rfl
      | _ => simp [send]
  simp only [block]
  split
  · rename_i b _ heq; rw [heq] at hsent
    have hsent : b.sent = false := hsent
    simp [hsent]
  · rename_i b heq; rw [heq] at hsent
    have hsent : b.sent = false := hsent
    cases raised with
    | some e => simp [hsent]
    | none =>
      simp only
      split
      · simp [hsent]
      · simpa using hsend b hsent

/-! ### C73 -/

/-- C73: the reply to a batch is accepted exactly if it is a list of objects in which each error has an id and no id is a list or an object. -/
theorem c73_accepted (b : Batch) (reply : Reply) : (send b reply).2 = none ↔
    ∃ rs : List (List (Text × Json)), reply = .json (.arr (rs.map .obj)) ∧ Usable rs := send_none b reply

/-- C73: `ServerUnreachableError` is raised exactly if the server was not reached. -/
theorem c73_unreachable (b : Batch) (reply : Reply) : (send b reply).2 = some .unreachable ↔ reply = .unreachable := by
  constructor
  · intro h
    cases reply with
    | unreachable => rfl
    | notJson => exact nomatch h
    | json j =>
      cases j with
      | arr rs =>
        cases hd : dicts rs with
        | none => simp only [send, hd] at h; exact nomatch h
        | some ds =>
          cases he : errorsOf ds with
          | error x =>
            simp only [send, hd, he] at h
            injection h with h
            exact absurd (h ▸ he) (errorsOf_raises ds)
          | ok es =>
            cases hr : resultsOf ds with
            | error x =>
              simp only [send, hd, he, hr] at h
              injection h with h
              exact absurd (h ▸ hr) (resultsOf_raises ds)
            | ok l => simp only [send, hd, he, hr] at h; exact nomatch h
      | _ => exact nomatch h
  · rintro rfl; rfl

/-- C73: the result of a call is that of the response with its id, whatever the order; if there are several without an error, that of the last. -/
theorem c73_result (b : Batch) {pre post : List (List (Text × Json))} {r : List (Text × Json)} (hu : Usable (pre ++ r :: post)) (id : CallId)
    (default : Option Json) (hr : HasId r id) (he : lookup r "error".toList = none)
    (hl : ∀ r' ∈ post, HasId r' id → lookup r' "error".toList ≠ none) :
    getResult (send b (.json (.arr ((pre ++ r :: post).map .obj)))).1 id default = .ok ((lookup r "result".toList).getD .null) := by
  rw [getResult_eq b hu, results_last (hasId_iff.1 hr) he fun r' hr' hk => hl r' hr' (hasId_iff.2 hk)]
  rfl

/-- C73: the error is raised for exactly the call to which it belongs, if there is no result for it; if there are several, the last one. -/
theorem c73_error (b : Batch) {pre post : List (List (Text × Json))} {r : List (Text × Json)} (hu : Usable (pre ++ r :: post)) (id : CallId)
    {method : Text} {e : Json} (hm : lookup b.methods id = some method) (hr : HasId r id) (he : lookup r "error".toList = some e)
    (hn : ∀ r' ∈ pre ++ r :: post, HasId r' id → lookup r' "error".toList ≠ none) (hl : ∀ r' ∈ post, ¬ HasId r' id) (default : Option Json) :
    getResult (send b (.json (.arr ((pre ++ r :: post).map .obj)))).1 id default = match default with
      | none => .error (handleError method e)
      | some d => .ok d := by
  rw [getResult_eq b hu, results_none fun r' hr' hk => hn r' hr' (hasId_iff.2 hk),
    errors_last (hasId_iff.1 hr) he fun r' hr' hk => absurd (hasId_iff.2 hk) (hl r' hr')]
  cases default with
  | some d => rfl
  | none => simp only [hm]

/-- C73: a call without response raises `KeyError`. -/
theorem c73_missing (b : Batch) {rs : List (List (Text × Json))} (hu : Usable rs) (id : CallId) (default : Option Json)
    (hno : ∀ r ∈ rs, ¬ HasId r id) : getResult (send b (.json (.arr (rs.map .obj)))).1 id default = .error .keyError := by
  rw [getResult_eq b hu, results_none fun r hr hk => absurd (hasId_iff.2 hk) (hno r hr),
    errors_none fun r hr hk => absurd (hasId_iff.2 hk) (hno r hr)]

/-- C73: the method named in an error is the one for which the id was added to the batch. -/
theorem c73_method (c : Client) (ops : List BOp) (hd : (supplied ops).Nodup) (ht : ∀ id ∈ supplied ops, ∃ s, id = .text s) {call : Call}
    {id : CallId} (hc : call ∈ (addAll c .init ops).2.1.calls) (hi : call.id = some id) :
    lookup (addAll c .init ops).2.1.methods id = some call.method := by
  obtain ⟨_, h2, _⟩ := addAll_spec c .init ops ⟨by simp [Batch.init], hd⟩
  rw [h2] at hc
  rw [addAll_methods c .init ops ⟨by simp [Batch.init], hd⟩]
  have hc : call ∈ expected c.callId ops := by simpa [Batch.init] using hc
  refine (lookup_mem ?_ _ _).2 ?_
  · simpa [Batch.init] using nodup_keys _ (expected_ids c.callId ops ht hd).1
  · simp only [Batch.init, List.nil_append, List.mem_filterMap]
    exact ⟨call, hc, by rw [hi]; rfl⟩

/-- Two responses in the reverse order, one with an error. -/
example : (match block .init [.callWithId (.text "a".toList) "m".toList .null, .callWithId (.text "b".toList) "n".toList .null] none
    (.json (.arr [response [("id", jtext "b"), ("error", response [("code", .int 1)])], response [("id", jtext "a"), ("result", .int 5)]])) with
    | (_, b, _, _) => [getResult b (.text "a".toList) none, getResult b (.text "b".toList) none, getResult b (.text "b".toList) (some (.int 0)),
        getResult b (.text "c".toList) none]) =
    [.ok (.int 5), .error (.remoteMethod "n".toList (.int 1) .null (.str unknownErrorMsg)), .ok (.int 0), .error .keyError] := by decide +kernel

/-- Two responses for the same call, the second one with `true` as id, which is 1. -/
example : (let rs := [[("id".toList, Json.int 1), ("result".toList, Json.int 5)], [("id".toList, .bool true), ("result".toList, .int 6)]]
    getResult (send .init (.json (.arr (rs.map .obj)))).1 (.num 1) none) = .ok (.int 6) := by decide +kernel

/-! ### C74 -/

/-- A response that is an object, and in which the error, if any, is an object with a code that is neither a list nor an object. -/
def WellFormed (j : Json) : Prop := ∃ l, j = .obj l ∧ ∀ e, lookup l "error".toList = some e →
  ∃ m, e = .obj m ∧ ∀ code, lookup m "code".toList = some code → Scalar code

/-- C74, the part that holds: if the reply is well formed, or no JSON at all, only documented exceptions are raised. -/
theorem c74_documented_partial (c : Client) (method : Text) (params : Json) (reply : Reply) (hw : ∀ j, reply = .json j → WellFormed j) {e : Exc}
    (h : (call c method params reply).2.2 = .error e) : e.documented := by
  have h : callResult method (c.callId + 1) reply = .error e := h
  cases reply with
  | unreachable => injection h with h; subst h; trivial
  | notJson => injection h with h; subst h; trivial
  | json j =>
    obtain ⟨l, rfl, he⟩ := hw j rfl
    rw [callResult_obj] at h
    split at h
    · split at h
      · injection h with h; subst h; trivial
      · split at h
        · injection h with h; subst h; trivial
        · split at h
          · rename_i err herr
            injection h with h
            subst h
            obtain ⟨m, rfl, hcode⟩ := he err herr
            have hk : (getD m sCode .null).key ≠ none := by
              rw [key_scalar]
              unfold getD
              cases hc : lookup m sCode with
              | none => exact ⟨by simp, by simp⟩
              | some code => exact hcode code hc
            simp only [handleError]
            split
            · rename_i hn; exact absurd hn hk
            · split <;> trivial
          · exact nomatch h
    · injection h with h; subst h; trivial

/-- C74: exactly the replies of `Breaks` make a call raise an exception that is not documented. -/
theorem c74_exact (c : Client) (method : Text) (params : Json) (reply : Reply) :
    (∃ e, (call c method params reply).2.2 = .error e ∧ ¬ e.documented) ↔ ∃ j, reply = .json j ∧ Breaks (c.callId + 1) j := by
  show (∃ e, callResult method (c.callId + 1) reply = .error e ∧ ¬ e.documented) ↔ _
  cases reply with
  | unreachable =>
    constructor
    · rintro ⟨e, h, hd⟩; injection h with h; subst h; exact absurd trivial hd
    · rintro ⟨j, h, _⟩; exact nomatch h
  | notJson =>
    constructor
    · rintro ⟨e, h, hd⟩; injection h with h; subst h; exact absurd trivial hd
    · rintro ⟨j, h, _⟩; exact nomatch h
  | json j =>
    rw [callResult_breaks]
    exact ⟨fun h => ⟨j, rfl, h⟩, fun ⟨j', h1, h2⟩ => by injection h1 with h1; subst h1; exact h2⟩

/-- The empty string and the empty list are refused properly; a string with the two words is not. -/
example : (call .init "m".toList .null (.json (jtext ""))).2.2 = .error .protocol ∧
    (call .init "m".toList .null (.json (.arr []))).2.2 = .error .protocol ∧
    (call .init "m".toList .null (.json (jtext "invalid jsonrpc"))).2.2 = .error .typeError := by decide +kernel

/-- C74 is false: `null`, a number, a list that holds the two words, an error that is no object, and an error whose code is a list give
a `TypeError` or an `AttributeError`. -/
theorem c74_false :
    (call .init "m".toList .null (.json .null)).2.2 = .error .typeError ∧
    (call .init "m".toList .null (.json (.int 5))).2.2 = .error .typeError ∧
    (call .init "m".toList .null (.json (.arr [jtext "id", jtext "jsonrpc"]))).2.2 = .error .typeError ∧
    (call .init "m".toList .null (.json (response [("jsonrpc", jtext "2.0"), ("id", .int 2), ("error", jtext "bad")]))).2.2 =
      .error .attributeError ∧
    (call .init "m".toList .null (.json (response [("jsonrpc", jtext "2.0"), ("id", .int 2), ("error", response [("code", .arr [])])]))).2.2 =
      .error .typeError := by decide +kernel

/-- So the full C74 does not hold. -/
theorem c74_counterexample : ¬ ∀ c method params reply e, (call c method params reply).2.2 = .error e → e.documented := by
  intro h
  exact h _ _ _ _ _ c74_false.1

/-- A batch is worse: a reply that is no JSON raises `ValueError`, a response without id `KeyError`. -/
example : (send .init .notJson).2 = some .valueError ∧ (send .init (.json (.arr [response [("error", .null)]]))).2 = some .keyError ∧
    (send .init (.json (.arr [.null]))).2 = some .attributeError := by decide +kernel

end Verif.JsonRpc
