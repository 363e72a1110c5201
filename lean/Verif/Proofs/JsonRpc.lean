import Verif.Spec.JsonRpc
/-!
Lemmas for C68-C74.
-/
namespace Verif.JsonRpc
open Verif

theorem key_num {j : Json} {n : Int} (hn : 2 ≤ n ∨ n < 0) : j.key = some (.num n) ↔ IsNumber j n := by
  unfold IsNumber
  cases j with
  | bool b => cases b <;> simp [Json.key] <;> omega
  | flt e t => cases e <;> simp [Json.key]
  | _ => simp [Json.key]

theorem key_scalar {j : Json} : j.key ≠ none ↔ Scalar j := by
  unfold Scalar
  cases j with
  | flt e t => cases e <;> simp [Json.key]
  | _ => simp [Json.key]

/-! ### Direct calls -/

theorem callResult_obj (m : Text) (n : Nat) (l : List (Text × Json)) : callResult m n (.json (.obj l)) =
    match lookup l sJsonrpc, lookup l sId with
    | some version, some id =>
      if isStr sVersion version = false then .error .protocol
      else if id.key ≠ some (.num n) then .error .protocol
      else match lookup l sError with
        | some e => .error (handleError m e)
        | none => .ok (getD l sResult .null)
    | _, _ => .error .protocol := by
  simp only [callResult, contains, index]
  cases h1 : lookup l sJsonrpc with
  | none => rfl
  | some version =>
    cases h2 : lookup l sId with
    | none => rfl
    | some id =>
      cases h3 : isStr sVersion version with
      | false => simp [bind, Except.bind, pure, Except.pure, throw, throwThe, MonadExceptOf.throw, h3]
      | true =>
        by_cases h4 : id.key = some (.num n)
        · cases h5 : lookup l sError with
          | none => simp [bind, Except.bind, pure, Except.pure, throw, throwThe, MonadExceptOf.throw, h3, h4]
          | some e => simp [bind, Except.bind, pure, Except.pure, throw, throwThe, MonadExceptOf.throw, h3, h4]
        · simp [bind, Except.bind, pure, Except.pure, throw, throwThe, MonadExceptOf.throw, h3, h4]

theorem callResult_other (m : Text) (n : Nat) (j : Json) (hj : ∀ l, j ≠ .obj l) :
    ∃ e, callResult m n (.json j) = .error e ∧ (e = .typeError ∨ e = .protocol) := by
  cases j with
  | obj l => exact absurd rfl (hj l)
  | arr l =>
    simp only [callResult, contains, index]
    cases h1 : l.any (isStr sJsonrpc) with
    | false => exact ⟨_, rfl, .inr rfl⟩
    | true =>
      cases h2 : l.any (isStr sId) with
      | false => exact ⟨_, rfl, .inr rfl⟩
      | true => exact ⟨_, rfl, .inl rfl⟩
  | str s =>
    simp only [callResult, contains, index]
    cases h1 : occurs sJsonrpc s with
    | false => exact ⟨_, rfl, .inr rfl⟩
    | true =>
      cases h2 : occurs sId s with
      | false => exact ⟨_, rfl, .inr rfl⟩
      | true => exact ⟨_, rfl, .inl rfl⟩
  | _ => exact ⟨_, rfl, .inl rfl⟩

theorem occurs_iff (k : Text) (hk : k ≠ []) (s : Text) : occurs k s = true ↔ k <:+: s := by
  induction s with
  | nil =>
    simp only [occurs, List.infix_nil]
    cases k with
    | nil => exact absurd rfl hk
    | cons a l => simp
  | cons c s ih =>
    simp only [occurs, Bool.or_eq_true, ih, List.isPrefixOf_iff_prefix, List.infix_cons_iff]

theorem key_denotes {j : Json} {n : Int} : j.key = some (.num n) ↔ Denotes j n := by
  constructor
  · intro h
    cases j with
    | null => exact nomatch h
    | bool b => cases b <;> (simp only [Json.key] at h; injection h with h; injection h with h; subst h; constructor)
    | int i => simp only [Json.key] at h; injection h with h; injection h with h; subst h; constructor
    | flt e t =>
      cases e with
      | none => simp [Json.key] at h
      | some e => simp only [Json.key] at h; injection h with h; injection h with h; subst h; constructor
    | str s => simp [Json.key] at h
    | arr l => exact nomatch h
    | obj l => exact nomatch h
  · intro h; cases h <;> rfl

theorem isStr_iff {k : Text} {j : Json} : isStr k j = true ↔ j = .str k := by
  cases j <;> simp [isStr]

/-- The table of codes. -/
theorem codeText_num (i : Int) (t : Text) : codeText (.num i) = some t ↔ ∃ text : String, Standard i text ∧ t = text.toList := by
  simp only [codeText, toStr, lookup, Standard]
  constructor
  · intro h
    split at h
    · rename_i heq
      split at heq
      · rename_i heq2
        split at heq2
        · rename_i heq3
          split at heq3
          · rename_i heq4
            split at heq4
            · rename_i h5
              injection heq4 with e4; injection heq3 with e3; injection heq2 with e2; injection heq with e1; injection h with e0
              exact ⟨"Internal error", by simp [← h5], by rw [← e0, ← e1, ← e2, ← e3, ← e4]⟩
            · exact nomatch heq4
          · split at heq3
            · rename_i h5
              injection heq3 with e3; injection heq2 with e2; injection heq with e1; injection h with e0
              exact ⟨"Invalid params", by simp [← h5], by rw [← e0, ← e1, ← e2, ← e3]⟩
            · exact nomatch heq3
        · split at heq2
          · rename_i h5
            injection heq2 with e2; injection heq with e1; injection h with e0
            exact ⟨"Method not found", by simp [← h5], by rw [← e0, ← e1, ← e2]⟩
          · exact nomatch heq2
      · split at heq
        · rename_i h5
          injection heq with e1; injection h with e0
          exact ⟨"Invalid Request", by simp [← h5], by rw [← e0, ← e1]⟩
        · exact nomatch heq
    · split at h
      · rename_i h5
        injection h with e0
        exact ⟨"Parse error", by simp [← h5], by rw [← e0]⟩
      · exact nomatch h
  · rintro ⟨text, h, rfl⟩
    rcases h with ⟨rfl, rfl⟩ | ⟨rfl, rfl⟩ | ⟨rfl, rfl⟩ | ⟨rfl, rfl⟩ | ⟨rfl, rfl⟩ <;> rfl

/-! ### Batches -/

theorem addAll_spec (c : Client) (b : Batch) (ops : List BOp) :
    (∀ id ∈ supplied ops, id ∉ b.idsUsed) ∧ (supplied ops).Nodup →
      (addAll c b ops).2.2 = none ∧ (addAll c b ops).2.1.calls = b.calls ++ expected c.callId ops ∧
      (addAll c b ops).2.1.abandoned = (b.abandoned || ops.contains .abandon) ∧
      (addAll c b ops).2.1.idsUsed = (supplied ops).reverse ++ b.idsUsed := by
  induction ops generalizing c b with
  | nil => intro _; simp [addAll, expected, supplied]
  | cons op ops ih =>
    intro h
    cases op with
    | call m p =>
      obtain ⟨h1, h2, h3, h4⟩ := ih ⟨c.callId + 1⟩
        { b with calls := b.calls ++ [⟨m, p, some (.num (c.callId + 1))⟩], methods := b.methods ++ [(.num (c.callId + 1), m)] } h
      simp only [addAll, add, newCallId]
      refine ⟨h1, ?_, ?_, ?_⟩
      · rw [h2]; simp [expected]
      · rw [h3]; simp
      · rw [h4]; rfl
    | callWithId id m p =>
      have hs : supplied (.callWithId id m p :: ops) = id :: supplied ops := rfl
      rw [hs] at h
      obtain ⟨ha, hb⟩ := h
      rw [List.nodup_cons] at hb
      have hnot : b.idsUsed.contains id = false := by
        have := ha id (by simp)
        simpa using this
      obtain ⟨h1, h2, h3, h4⟩ := ih c
        { b with calls := b.calls ++ [⟨m, p, some id⟩], idsUsed := id :: b.idsUsed, methods := b.methods ++ [(id, m)] } ⟨by
          intro x hx hc
          simp only [List.mem_cons] at hc
          rcases hc with rfl | hc
          · exact hb.1 hx
          · exact ha x (by simp [hx]) hc, hb.2⟩
      simp only [addAll, add, hnot, Bool.false_eq_true, if_false]
      refine ⟨h1, ?_, ?_, ?_⟩
      · rw [h2]; simp [expected]
      · rw [h3]; simp
      · rw [h4, hs]; simp
    | notify m p =>
      obtain ⟨h1, h2, h3, h4⟩ := ih c { b with calls := b.calls ++ [⟨m, p, none⟩] } h
      simp only [addAll, add]
      refine ⟨h1, ?_, ?_, ?_⟩
      · rw [h2]; simp [expected]
      · rw [h3]; simp
      · rw [h4]; rfl
    | abandon =>
      obtain ⟨h1, h2, h3, h4⟩ := ih c { b with abandoned := true } h
      simp only [addAll, add]
      refine ⟨h1, ?_, ?_, ?_⟩
      · rw [h2]; simp [expected]
      · rw [h3]; simp
      · rw [h4]; rfl

theorem addAll_dup (c : Client) (b : Batch) (ops : List BOp)
    (h : ¬ ((∀ id ∈ supplied ops, id ∉ b.idsUsed) ∧ (supplied ops).Nodup)) : (addAll c b ops).2.2 = some .valueError := by
  induction ops generalizing c b with
  | nil => exact absurd ⟨by simp [supplied], by simp [supplied]⟩ h
  | cons op ops ih =>
    cases op with
    | call m p => exact ih _ _ h
    | notify m p => exact ih _ _ h
    | abandon => exact ih _ _ h
    | callWithId id m p =>
      have hs : supplied (.callWithId id m p :: ops) = id :: supplied ops := rfl
      rw [hs] at h
      cases hc : b.idsUsed.contains id with
      | true => simp only [addAll, add, hc, if_true]
      | false =>
        simp only [addAll, add, hc, Bool.false_eq_true, if_false]
        refine ih _ _ ?_
        rintro ⟨h1, h2⟩
        refine h ⟨?_, ?_⟩
        · intro x hx
          simp only [List.mem_cons] at hx
          rcases hx with rfl | hx
          · intro hm; simp [hm] at hc
          · intro hm; exact h1 x hx (by simp [hm])
        · rw [List.nodup_cons]
          exact ⟨fun hm => h1 id hm (by simp), h2⟩

/-- The ids of the calls of a block, where the supplied ones are text. -/
theorem expected_ids (n : Nat) (ops : List BOp) (ht : ∀ id ∈ supplied ops, ∃ s, id = .text s) (hd : (supplied ops).Nodup) :
    ((expected n ops).filterMap (·.id)).Nodup ∧
      ∀ id ∈ (expected n ops).filterMap (·.id), (∃ k, n < k ∧ id = .num k) ∨ id ∈ supplied ops := by
  induction ops generalizing n with
  | nil => simp [expected]
  | cons op ops ih =>
    cases op with
    | call m p =>
      obtain ⟨h1, h2⟩ := ih (n + 1) ht hd
      simp only [expected, List.filterMap_cons]
      refine ⟨?_, ?_⟩
      · rw [List.nodup_cons]
        refine ⟨?_, h1⟩
        intro hm
        rcases h2 _ hm with ⟨k, hk, e⟩ | hs
        · injection e with e; omega
        · obtain ⟨s, e⟩ := ht _ hs; exact CallId.noConfusion e
      · intro id hid
        simp only [List.mem_cons] at hid
        rcases hid with rfl | hid
        · exact .inl ⟨n + 1, by omega, rfl⟩
        · rcases h2 id hid with ⟨k, hk, e⟩ | hs
          · exact .inl ⟨k, by omega, e⟩
          · exact .inr hs
    | notify m p =>
      obtain ⟨h1, h2⟩ := ih n ht hd
      exact ⟨h1, h2⟩
    | abandon => exact ih n ht hd
    | callWithId id m p =>
      have hs : supplied (.callWithId id m p :: ops) = id :: supplied ops := rfl
      rw [hs] at ht hd
      rw [List.nodup_cons] at hd
      obtain ⟨h1, h2⟩ := ih n (fun x hx => ht x (by simp [hx])) hd.2
      simp only [expected, List.filterMap_cons, hs]
      refine ⟨?_, ?_⟩
      · rw [List.nodup_cons]
        refine ⟨?_, h1⟩
        intro hm
        rcases h2 _ hm with ⟨k, hk, e⟩ | hm'
        · obtain ⟨s, e'⟩ := ht id (by simp)
          rw [e] at e'
          exact CallId.noConfusion e'
        · exact hd.1 hm'
      · intro x hx
        simp only [List.mem_cons] at hx ⊢
        rcases hx with rfl | hx
        · exact .inr (.inl rfl)
        · exact (h2 x hx).imp (fun h => h) .inr

/-! ### Numbers -/

theorem made_step (w : World) (op : Op) :
    (made w op = none ∧ (step w op).client = w.client) ∨
      (made w op = some (.num (w.client.callId + 1)) ∧ (step w op).client.callId = w.client.callId + 1) := by
  cases op with
  | call m p r => right; simp [made, step, call, newCallId]
  | add b op =>
    cases op with
    | call m p => right; simp [made, step, add, newCallId]
    | callWithId id m p =>
      left
      refine ⟨rfl, ?_⟩
      simp only [step, add]
      split <;> simp_all <;> split <;> rfl
    | notify m p => left; exact ⟨rfl, rfl⟩
    | abandon => left; exact ⟨rfl, rfl⟩

theorem trace_fresh (w : World) (ops : List Op) :
    (trace w ops).Nodup ∧ ∀ id ∈ trace w ops, ∃ k, w.client.callId < k ∧ id = .num k := by
  induction ops generalizing w with
  | nil => simp [trace]
  | cons op ops ih =>
    obtain ⟨h1, h2⟩ := ih (step w op)
    simp only [trace]
    rcases made_step w op with ⟨hm, hc⟩ | ⟨hm, hc⟩
    · rw [hm]
      simp only [Option.toList, List.nil_append]
      exact ⟨h1, fun id hid => by rw [← hc]; exact h2 id hid⟩
    · rw [hm]
      simp only [Option.toList, List.singleton_append]
      refine ⟨?_, ?_⟩
      · rw [List.nodup_cons]
        refine ⟨?_, h1⟩
        intro hmem
        obtain ⟨k, hk, e⟩ := h2 _ hmem
        injection e with e
        omega
      · intro id hid
        simp only [List.mem_cons] at hid
        rcases hid with rfl | hid
        · exact ⟨_, by omega, rfl⟩
        · obtain ⟨k, hk, e⟩ := h2 id hid
          exact ⟨k, by omega, e⟩

/-! ### Responses -/

theorem dicts_map (rs : List (List (Text × Json))) : dicts (rs.map Json.obj) = some rs := by
  induction rs with
  | nil => rfl
  | cons r rs ih => simp [dicts, ih]

/-- A dict built from pairs with different keys. -/
theorem lookup_mem {κ α : Type} [DecidableEq κ] {l : List (κ × α)} (h : l.Pairwise (fun a b => a.1 ≠ b.1)) (k : κ) (v : α) :
    lookup l k = some v ↔ (k, v) ∈ l := by
  induction l with
  | nil => simp [lookup]
  | cons x l ih =>
    obtain ⟨k0, v0⟩ := x
    rw [List.pairwise_cons] at h
    have ih := ih h.2
    simp only [lookup, List.mem_cons, Prod.mk.injEq]
    cases hl : lookup l k with
    | some w =>
      rw [hl] at ih
      simp only
      constructor
      · intro e; exact .inr (ih.1 e)
      · rintro (⟨rfl, rfl⟩ | hm)
        · have hm : ∃ w', (k, w') ∈ l := by
            clear ih
            have : ∀ l : List (κ × α), lookup l k = some w → (k, w) ∈ l := by
              intro l
              induction l with
              | nil => simp [lookup]
              | cons y l ih =>
                intro hy
                simp only [lookup] at hy
                cases hz : lookup l k with
                | some w' => rw [hz] at hy; simp only at hy; injection hy with hy; subst hy; exact List.mem_cons_of_mem _ (ih hz)
                | none =>
                  rw [hz] at hy
                  simp only at hy
                  split at hy
                  · rename_i hk
                    injection hy with hy
                    subst hk hy
                    simp
                  · exact nomatch hy
            exact ⟨w, this l hl⟩
          obtain ⟨w', hm⟩ := hm
          exact (h.1 (_, w') hm rfl).elim
        · exact ih.2 hm
    | none =>
      rw [hl] at ih
      simp only
      constructor
      · intro e
        split at e
        · rename_i hk; injection e with e; exact .inl ⟨hk.symm, e.symm⟩
        · exact nomatch e
      · rintro (⟨rfl, rfl⟩ | hm)
        · simp
        · exact absurd (ih.2 hm) (by simp)

/-- The id of a response, as a key. -/
def responseKey (r : List (Text × Json)) : Option Key := (lookup r sId).bind Json.key

/-- Each response has an id that can be one, and no two have the same. -/
def Proper (rs : List (List (Text × Json))) : Prop :=
  (∀ r ∈ rs, responseKey r ≠ none) ∧ rs.Pairwise (fun a b => responseKey a ≠ responseKey b)

theorem responseKey_scalar {r : List (Text × Json)} : responseKey r ≠ none ↔ ∃ j, lookup r sId = some j ∧ Scalar j := by
  unfold responseKey
  cases lookup r sId with
  | none => simp
  | some j => simp only [Option.bind_some, Option.some.injEq, exists_eq_left', ← key_scalar]

theorem usable_key {rs : List (List (Text × Json))} (h : Usable rs) : ∀ r ∈ rs, (lookup r sError ≠ none ∨ lookup r sId ≠ none) →
    responseKey r ≠ none := fun r hr ho => responseKey_scalar.2 (h r hr ho)

theorem hasId_iff {r : List (Text × Json)} {id : CallId} : HasId r id ↔ responseKey r = some id.key := by
  unfold responseKey
  have e : ("id".toList : Text) = sId := rfl
  cases id with
  | num n =>
    simp only [HasId, e, CallId.key]
    cases lookup r sId with
    | none => simp
    | some j =>
      simp only [Option.bind_some, Option.some.injEq, exists_eq_left']
      constructor
      · intro h; cases h <;> simp [Json.key] <;> omega
      · intro h
        cases j with
        | bool b => cases b <;> simp [Json.key] at h <;> rw [← h] <;> first | exact .true | exact .false
        | int i => simp [Json.key] at h; rw [← h]; exact .int _
        | flt o t =>
          cases o with
          | none => simp [Json.key] at h
          | some i => simp [Json.key] at h; rw [← h]; exact .flt _ _
        | _ => simp [Json.key] at h
  | text s =>
    simp only [HasId, e, CallId.key]
    cases lookup r sId with
    | none => simp
    | some j =>
      simp only [Option.bind_some, Option.some.injEq]
      constructor
      · rintro rfl; rfl
      · intro h
        cases j with
        | str t => simp [Json.key] at h; rw [h]
        | flt o t => cases o <;> simp [Json.key] at h
        | _ => simp [Json.key] at h

/-- The pair that a response adds to `errors`. -/
def errorPair (r : List (Text × Json)) : Option (Key × Json) := match responseKey r, lookup r sError with
  | some k, some e => some (k, e)
  | _, _ => none

/-- The pair that a response adds to `results`. -/
def resultPair (r : List (Text × Json)) : Option (Key × List (Text × Json)) := match responseKey r, lookup r sError with
  | some k, none => some (k, r)
  | _, _ => none

theorem errorsOf_eq {rs : List (List (Text × Json))} (h : Usable rs) : errorsOf rs = .ok (rs.filterMap errorPair) := by
  induction rs with
  | nil => rfl
  | cons r rs ih =>
    have ih := ih (fun x hx => h x (by simp [hx]))
    have hr := usable_key h r (by simp)
    simp only [errorsOf, List.filterMap_cons, errorPair, ih]
    simp only [responseKey] at hr ⊢
    cases he : lookup r sError with
    | none => cases hk : (lookup r sId).bind Json.key <;> rfl
    | some e =>
      have hr := hr (.inl (by rw [he]; exact Option.some_ne_none _))
      cases hid : lookup r sId with
      | none => rw [hid] at hr; exact absurd rfl hr
      | some id =>
        rw [hid] at hr
        simp only [Option.bind_some] at hr ⊢
        cases hk : id.key with
        | none => exact absurd hk hr
        | some k => rfl

theorem resultsOf_eq {rs : List (List (Text × Json))} (h : Usable rs) : resultsOf rs = .ok (rs.filterMap resultPair) := by
  induction rs with
  | nil => rfl
  | cons r rs ih =>
    have ih := ih (fun x hx => h x (by simp [hx]))
    have hr := usable_key h r (by simp)
    simp only [resultsOf, List.filterMap_cons, resultPair, ih]
    simp only [responseKey] at hr ⊢
    cases hid : lookup r sId with
    | none => rfl
    | some id =>
      have hr := hr (.inr (by rw [hid]; exact Option.some_ne_none _))
      rw [hid] at hr
      simp only [Option.bind_some] at hr ⊢
      cases he : lookup r sError with
      | some _ => cases hk : id.key <;> rfl
      | none =>
        cases hk : id.key with
        | none => exact absurd hk hr
        | some k => simp only [hk]; rfl

theorem errorPair_key {r : List (Text × Json)} {x} (h : errorPair r = some x) : responseKey r = some x.1 ∧ lookup r sError = some x.2 := by
  unfold errorPair at h
  split at h
  · rename_i h1 h2; injection h with h; subst h; exact ⟨h1, h2⟩
  · exact nomatch h

theorem resultPair_key {r : List (Text × Json)} {x} (h : resultPair r = some x) :
    responseKey r = some x.1 ∧ lookup r sError = none ∧ x.2 = r := by
  unfold resultPair at h
  split at h
  · rename_i h1 h2; injection h with h; subst h; exact ⟨h1, h2, rfl⟩
  · exact nomatch h

theorem errors_lookup {rs : List (List (Text × Json))} (hp : Proper rs) (k : Key) (e : Json) :
    lookup (rs.filterMap errorPair) k = some e ↔ ∃ r ∈ rs, responseKey r = some k ∧ lookup r sError = some e := by
  have hpw : (rs.filterMap errorPair).Pairwise (fun a b => a.1 ≠ b.1) := by
    refine List.Pairwise.filterMap (R := fun a b => responseKey a ≠ responseKey b) _ ?_ hp.2
    intro a a' hne b hb b' hb' e
    exact hne (by rw [(errorPair_key hb).1, (errorPair_key hb').1, e])
  rw [lookup_mem hpw, List.mem_filterMap]
  constructor
  · rintro ⟨r, hm, h⟩
    have := errorPair_key h
    exact ⟨r, hm, this⟩
  · rintro ⟨r, hm, h1, h2⟩
    exact ⟨r, hm, by simp [errorPair, h1, h2]⟩

theorem results_lookup {rs : List (List (Text × Json))} (hp : Proper rs) (k : Key) (r : List (Text × Json)) :
    lookup (rs.filterMap resultPair) k = some r ↔ r ∈ rs ∧ responseKey r = some k ∧ lookup r sError = none := by
  have hpw : (rs.filterMap resultPair).Pairwise (fun a b => a.1 ≠ b.1) := by
    refine List.Pairwise.filterMap (R := fun a b => responseKey a ≠ responseKey b) _ ?_ hp.2
    intro a a' hne b hb b' hb' e
    exact hne (by rw [(resultPair_key hb).1, (resultPair_key hb').1, e])
  rw [lookup_mem hpw, List.mem_filterMap]
  constructor
  · rintro ⟨r', hm, h⟩
    obtain ⟨h1, h2, h3⟩ := resultPair_key h
    simp only at h3
    subst h3
    exact ⟨hm, h1, h2⟩
  · rintro ⟨hm, h1, h2⟩
    exact ⟨r, hm, by simp [resultPair, h1, h2]⟩

/-- The method names kept by a batch. -/
theorem addAll_methods (c : Client) (b : Batch) (ops : List BOp) (h : (∀ id ∈ supplied ops, id ∉ b.idsUsed) ∧ (supplied ops).Nodup) :
    (addAll c b ops).2.1.methods = b.methods ++ (expected c.callId ops).filterMap (fun x => x.id.map (fun id => (id, x.method))) := by
  induction ops generalizing c b with
  | nil => simp [addAll, expected]
  | cons op ops ih =>
    cases op with
    | call m p =>
      simp only [addAll, add, newCallId]
      rw [ih _ _ (by exact h)]; simp [expected]
    | callWithId id m p =>
      have hs : supplied (.callWithId id m p :: ops) = id :: supplied ops := rfl
      rw [hs] at h
      obtain ⟨ha, hb⟩ := h
      rw [List.nodup_cons] at hb
      have hc : b.idsUsed.contains id = false := by simpa using ha id (by simp)
      simp only [addAll, add, hc, Bool.false_eq_true, if_false]
      rw [ih _ _ ⟨fun i hi => ?_, hb.2⟩]
      · simp [expected]
      · simp only [List.mem_cons, not_or]
        exact ⟨fun e => hb.1 (e ▸ hi), ha i (by simp [hi])⟩
    | notify m p =>
      simp only [addAll, add]
      rw [ih _ _ (by exact h)]; simp [expected]
    | abandon =>
      simp only [addAll, add]
      rw [ih _ _ (by exact h)]; simp [expected]

/-- In a list without repetition of keys, two members with the same key are the same. -/
theorem pairwise_key {α β : Type} {f : α → β} {l : List α} (h : l.Pairwise (fun a b => f a ≠ f b)) {a b : α} (ha : a ∈ l) (hb : b ∈ l)
    (e : f a = f b) : a = b := by
  induction l with
  | nil => exact nomatch ha
  | cons x l ih =>
    rw [List.pairwise_cons] at h
    rcases List.mem_cons.1 ha with ea | ha' <;> rcases List.mem_cons.1 hb with eb | hb'
    · rw [ea, eb]
    · exact absurd (ea ▸ e) (h.1 _ hb')
    · exact absurd (eb ▸ e.symm) (h.1 _ ha')
    · exact ih h.2 ha' hb'

/-- No repetition among the keys. -/
theorem nodup_keys (l : List Call) (h : (l.filterMap (·.id)).Nodup) :
    (l.filterMap (fun x => x.id.map (fun id => (id, x.method)))).Pairwise (fun a b => a.1 ≠ b.1) := by
  have : l.filterMap (·.id) = (l.filterMap (fun x => x.id.map (fun id => (id, x.method)))).map (·.1) := by
    rw [List.map_filterMap]
    congr 1
    funext x
    cases x.id <;> rfl
  rw [this] at h
  exact List.pairwise_map.1 h

theorem dicts_some {rs : List Json} {ds : List (List (Text × Json))} (h : dicts rs = some ds) : rs = ds.map .obj := by
  induction rs generalizing ds with
  | nil => simp only [dicts, Option.some.injEq] at h; subst h; rfl
  | cons r rs ih =>
    cases r with
    | obj l =>
      simp only [dicts, Option.map_eq_some_iff] at h
      obtain ⟨d, hd, rfl⟩ := h
      rw [ih hd]; rfl
    | _ => exact nomatch h

/-! ### What comes of a batch -/

theorem errorsOf_ok {rs : List (List (Text × Json))} (h : Usable rs) : ∃ l, errorsOf rs = .ok l := by
  induction rs with
  | nil => exact ⟨_, rfl⟩
  | cons r rs ih =>
    obtain ⟨l, hl⟩ := ih (fun x hx => h x (List.mem_cons_of_mem _ hx))
    have hr := usable_key h r (by simp)
    simp only [errorsOf]
    cases he : lookup r sError with
    | none => exact ⟨l, hl⟩
    | some e =>
      have hk : responseKey r ≠ none := hr (.inl (by
        intro h0
        have h0 : lookup r sError = none := h0
        rw [he] at h0; exact nomatch h0))
      simp only [responseKey] at hk
      cases hi : lookup r sId with
      | none => rw [hi] at hk; exact absurd rfl hk
      | some id =>
        rw [hi] at hk
        cases hkk : id.key with
        | none => simp [hkk] at hk
        | some k => exact ⟨(k, e) :: l, by simp only [hkk, hl]; rfl⟩

/-- The results in a usable list: those with this id and without error. -/
theorem resultsOf_spec {rs : List (List (Text × Json))} (h : Usable rs) :
    ∃ l, resultsOf rs = .ok l ∧ ∀ k, (∃ r, (k, r) ∈ l) ↔ ∃ r ∈ rs, responseKey r = some k ∧ lookup r sError = none := by
  induction rs with
  | nil => exact ⟨[], rfl, by simp⟩
  | cons r rs ih =>
    obtain ⟨l, hl, hs⟩ := ih (fun x hx => h x (List.mem_cons_of_mem _ hx))
    have hr := usable_key h r (by simp)
    simp only [resultsOf]
    cases hi : lookup r sId with
    | none =>
      refine ⟨l, hl, fun k => ?_⟩
      rw [hs]
      constructor
      · rintro ⟨x, hx, hy⟩; exact ⟨x, List.mem_cons_of_mem _ hx, hy⟩
      · rintro ⟨x, hx, hy⟩
        rcases List.mem_cons.1 hx with rfl | hx
        · simp [responseKey, hi] at hy
        · exact ⟨x, hx, hy⟩
    | some id =>
      cases he : lookup r sError with
      | some e =>
        refine ⟨l, hl, fun k => ?_⟩
        rw [hs]
        constructor
        · rintro ⟨x, hx, hy⟩; exact ⟨x, List.mem_cons_of_mem _ hx, hy⟩
        · rintro ⟨x, hx, hy⟩
          rcases List.mem_cons.1 hx with rfl | hx
          · rw [he] at hy; exact nomatch hy.2
          · exact ⟨x, hx, hy⟩
      | none =>
        have hk : responseKey r ≠ none := hr (.inr (by
          intro h0
          have h0 : lookup r sId = none := h0
          rw [hi] at h0; exact nomatch h0))
        have hkid : responseKey r = id.key := by simp [responseKey, hi]
        cases hkk : id.key with
        | none => rw [hkid] at hk; exact absurd hkk hk
        | some k0 =>
          refine ⟨(k0, r) :: l, by simp only [hkk, hl]; rfl, fun k => ?_⟩
          constructor
          · rintro ⟨x, hx⟩
            rcases List.mem_cons.1 hx with e | hx
            · injection e with e1 e2
              subst e1; subst e2
              exact ⟨_, by simp, hkid.trans hkk, he⟩
            · obtain ⟨y, hy, hz⟩ := (hs k).1 ⟨x, hx⟩
              exact ⟨y, List.mem_cons_of_mem _ hy, hz⟩
          · rintro ⟨x, hx, hy⟩
            rcases List.mem_cons.1 hx with rfl | hx
            · rw [hkid, hkk] at hy
              injection hy.1 with e
              exact ⟨x, by simp [e]⟩
            · obtain ⟨y, hy⟩ := (hs k).2 ⟨x, hx, hy⟩
              exact ⟨y, List.mem_cons_of_mem _ hy⟩

theorem errorsOf_some {rs : List (List (Text × Json))} {l : List (Key × Json)} (h : errorsOf rs = .ok l) :
    ∀ r ∈ rs, lookup r sError ≠ none → responseKey r ≠ none := by
  induction rs generalizing l with
  | nil => exact fun r hr => nomatch hr
  | cons x rs ih =>
    simp only [errorsOf] at h
    intro r hr he
    cases hx : lookup x sError with
    | none =>
      rw [hx] at h
      rcases List.mem_cons.1 hr with rfl | hr
      · exact absurd hx he
      · exact ih h r hr he
    | some e =>
      rw [hx] at h
      cases hi : lookup x sId with
      | none => rw [hi] at h; exact nomatch h
      | some id =>
        rw [hi] at h
        cases hk : id.key with
        | none => simp only [hk] at h; exact nomatch h
        | some k =>
          simp only [hk] at h
          cases hrs : errorsOf rs with
          | error _ => rw [hrs] at h; exact nomatch h
          | ok l' =>
            rcases List.mem_cons.1 hr with rfl | hr
            · simp [responseKey, hi, hk]
            · exact ih hrs r hr he

theorem resultsOf_some {rs : List (List (Text × Json))} {l : List (Key × List (Text × Json))} (h : resultsOf rs = .ok l) :
    ∀ r ∈ rs, lookup r sError = none → lookup r sId ≠ none → responseKey r ≠ none := by
  induction rs generalizing l with
  | nil => exact fun r hr => nomatch hr
  | cons x rs ih =>
    simp only [resultsOf] at h
    intro r hr he hid
    cases hi : lookup x sId with
    | none =>
      rw [hi] at h
      rcases List.mem_cons.1 hr with rfl | hr
      · exact absurd hi hid
      · exact ih h r hr he hid
    | some id =>
      cases hx : lookup x sError with
      | some e =>
        rw [hi, hx] at h
        rcases List.mem_cons.1 hr with rfl | hr
        · rw [hx] at he; exact nomatch he
        · exact ih h r hr he hid
      | none =>
        rw [hi, hx] at h
        cases hk : id.key with
        | none => simp only [hk] at h; exact nomatch h
        | some k =>
          simp only [hk] at h
          cases hrs : resultsOf rs with
          | error _ => rw [hrs] at h; exact nomatch h
          | ok l' =>
            rcases List.mem_cons.1 hr with rfl | hr
            · simp [responseKey, hi, hk]
            · exact ih hrs r hr he hid

theorem lookup_isSome {κ α : Type} [DecidableEq κ] (l : List (κ × α)) (k : κ) : (∃ v, lookup l k = some v) ↔ ∃ v, (k, v) ∈ l := by
  induction l with
  | nil => simp [lookup]
  | cons x l ih =>
    obtain ⟨k0, v0⟩ := x
    simp only [lookup]
    cases hl : lookup l k with
    | some v =>
      obtain ⟨w, hw⟩ := ih.1 ⟨v, hl⟩
      simp only [Option.some.injEq, exists_eq', true_iff]
      exact ⟨w, List.mem_cons_of_mem _ hw⟩
    | none =>
      have hno : ¬ ∃ v, (k, v) ∈ l := fun h => by
        obtain ⟨v, hv⟩ := ih.2 h
        rw [hl] at hv; exact nomatch hv
      constructor
      · rintro ⟨v, hv⟩
        by_cases e : k0 = k
        · subst e; exact ⟨v0, by simp⟩
        · simp [e] at hv
      · rintro ⟨v, hv⟩
        rcases List.mem_cons.1 hv with e | hv
        · injection e with e1 e2
          subst e1
          exact ⟨v0, by simp⟩
        · exact absurd ⟨v, hv⟩ hno

/-- A batch is accepted exactly if the reply is a usable list of objects. -/
theorem send_none (b : Batch) (reply : Reply) : (send b reply).2 = none ↔
    ∃ rs : List (List (Text × Json)), reply = .json (.arr (rs.map .obj)) ∧ Usable rs := by
  constructor
  · intro h1
    cases reply with
    | unreachable => exact nomatch h1
    | notJson => exact nomatch h1
    | json j =>
      cases j with
      | arr rs =>
        cases hd : dicts rs with
        | none => simp only [send, hd] at h1; exact nomatch h1
        | some ds =>
          have e := dicts_some hd
          cases he : errorsOf ds with
          | error x => simp only [send, hd, he] at h1; exact nomatch h1
          | ok es =>
            cases hr : resultsOf ds with
            | error x => simp only [send, hd, he, hr] at h1; exact nomatch h1
            | ok l =>
              refine ⟨ds, by rw [e], ?_⟩
              intro r hmem hor
              refine responseKey_scalar.1 ?_
              by_cases hl : lookup r sError = none
              · rcases hor with h | h
                · exact absurd hl h
                · exact resultsOf_some hr r hmem hl h
              · exact errorsOf_some he r hmem hl
      | _ => exact nomatch h1
  · rintro ⟨rs, rfl, hu⟩
    simp only [send, dicts_map, errorsOf_eq hu, resultsOf_eq hu]

/-- What `get_result` looks into. -/
theorem getResult_eq (b : Batch) {rs : List (List (Text × Json))} (hu : Usable rs) (id : CallId) (default : Option Json) :
    getResult (send b (.json (.arr (rs.map .obj)))).1 id default = match lookup (rs.filterMap resultPair) id.key with
      | some r => .ok ((lookup r sResult).getD .null)
      | none => match lookup (rs.filterMap errorPair) id.key with
        | none => .error .keyError
        | some e => match default with
          | some d => .ok d
          | none => match lookup b.methods id with
            | none => .error .keyError
            | some method => .error (handleError method e) := by
  simp only [send, dicts_map, errorsOf_eq hu, resultsOf_eq hu, getResult]
  cases lookup (rs.filterMap resultPair) id.key with
  | some r => rfl
  | none =>
    cases lookup (rs.filterMap errorPair) id.key with
    | none => rfl
    | some e =>
      cases default with
      | some d => rfl
      | none => cases lookup b.methods id <;> rfl

theorem lookup_append {κ α : Type} [DecidableEq κ] (l m : List (κ × α)) (k : κ) : lookup (l ++ m) k = (lookup m k).or (lookup l k) := by
  induction l with
  | nil => simp [lookup]
  | cons x l ih =>
    obtain ⟨k', v⟩ := x
    simp only [List.cons_append, lookup, ih]
    cases lookup m k with
    | some w => rfl
    | none => rfl

theorem lookup_none {κ α : Type} [DecidableEq κ] (l : List (κ × α)) (k : κ) (h : ∀ x ∈ l, x.1 ≠ k) : lookup l k = none := by
  cases hl : lookup l k with
  | none => rfl
  | some v =>
    obtain ⟨w, hw⟩ := (lookup_isSome l k).1 ⟨v, hl⟩
    exact absurd rfl (h _ hw)

theorem results_none {rs : List (List (Text × Json))} {k : Key} (h : ∀ r ∈ rs, responseKey r = some k → lookup r sError ≠ none) :
    lookup (rs.filterMap resultPair) k = none := by
  refine lookup_none _ _ fun x hx he => ?_
  obtain ⟨r, hr, hp⟩ := List.mem_filterMap.1 hx
  obtain ⟨h1, h2, _⟩ := resultPair_key hp
  exact h r hr (he ▸ h1) h2

theorem errors_none {rs : List (List (Text × Json))} {k : Key} (h : ∀ r ∈ rs, responseKey r = some k → lookup r sError = none) :
    lookup (rs.filterMap errorPair) k = none := by
  refine lookup_none _ _ fun x hx he => ?_
  obtain ⟨r, hr, hp⟩ := List.mem_filterMap.1 hx
  obtain ⟨h1, h2⟩ := errorPair_key hp
  have := h r hr (he ▸ h1)
  rw [h2] at this
  exact nomatch this

theorem results_last {pre post : List (List (Text × Json))} {r : List (Text × Json)} {k : Key} (hk : responseKey r = some k)
    (he : lookup r sError = none) (h : ∀ r' ∈ post, responseKey r' = some k → lookup r' sError ≠ none) :
    lookup ((pre ++ r :: post).filterMap resultPair) k = some r := by
  have hp : resultPair r = some (k, r) := by simp only [resultPair, hk, he]
  rw [List.filterMap_append, List.filterMap_cons, hp, lookup_append]
  simp [lookup, results_none h]

theorem errors_last {pre post : List (List (Text × Json))} {r : List (Text × Json)} {k : Key} {e : Json} (hk : responseKey r = some k)
    (he : lookup r sError = some e) (h : ∀ r' ∈ post, responseKey r' = some k → lookup r' sError = none) :
    lookup ((pre ++ r :: post).filterMap errorPair) k = some e := by
  have hp : errorPair r = some (k, e) := by simp only [errorPair, hk, he]
  rw [List.filterMap_append, List.filterMap_cons, hp, lookup_append]
  simp [lookup, errors_none h]

theorem errorsOf_raises (rs : List (List (Text × Json))) : errorsOf rs ≠ .error .unreachable := by
  induction rs with
  | nil => exact fun h => nomatch h
  | cons r rs ih =>
    simp only [errorsOf]
    split
    · exact ih
    · split
      · exact fun h => nomatch h
      · split
        · exact fun h => nomatch h
        · intro h
          cases he : errorsOf rs with
          | error x => rw [he] at h; injection h with h; exact ih (h ▸ he)
          | ok l => rw [he] at h; exact nomatch h

theorem resultsOf_raises (rs : List (List (Text × Json))) : resultsOf rs ≠ .error .unreachable := by
  induction rs with
  | nil => exact fun h => nomatch h
  | cons r rs ih =>
    simp only [resultsOf]
    split
    · split
      · exact fun h => nomatch h
      · intro h
        cases he : resultsOf rs with
        | error x => rw [he] at h; injection h with h; exact ih (h ▸ he)
        | ok l => rw [he] at h; exact nomatch h
    · exact ih

theorem handleError_undocumented (m : Text) (e : Json) : ¬ (handleError m e).documented ↔
    (∀ l, e ≠ .obj l) ∨ ∃ l c, e = .obj l ∧ lookup l sCode = some c ∧ ¬ Scalar c := by
  cases e with
  | obj l =>
    simp only [handleError]
    have h1 : ¬ ∀ l', Json.obj l ≠ .obj l' := fun h => h l rfl
    cases hc : lookup l sCode with
    | none =>
      have : (getD l sCode .null).key = some .null := by simp [getD, hc, Json.key]
      simp only [this]
      constructor
      · intro h
        exfalso; revert h
        split <;> exact fun h => h trivial
      · rintro (h | ⟨l', c, h, h2, -⟩)
        · exact absurd h h1
        · injection h with h; subst h; rw [hc] at h2; exact nomatch h2
    | some c =>
      have e : getD l sCode .null = c := by simp [getD, hc]
      rw [e]
      cases hk : c.key with
      | none =>
        refine ⟨fun _ => .inr ⟨l, c, rfl, hc, fun hs => key_scalar.2 hs hk⟩, fun _ h => h⟩
      | some k =>
        constructor
        · intro h
          exfalso; revert h
          simp only
          split <;> exact fun h => h trivial
        · rintro (h | ⟨l', c', h, h2, h3⟩)
          · exact absurd h h1
          · injection h with h
            subst h
            rw [hc] at h2
            injection h2 with h2
            subst h2
            exact absurd (key_scalar.1 (by rw [hk]; exact Option.some_ne_none _)) h3
  | _ => exact ⟨fun _ => .inl fun l h => (nomatch h), fun _ h => h⟩

theorem breaks_obj {n : Int} {l : List (Text × Json)} : Breaks n (.obj l) ↔ lookup l sJsonrpc = some (.str sVersion) ∧
    ∃ id, lookup l sId = some id ∧ Denotes id n ∧ ∃ e, lookup l sError = some e ∧
      ((∀ m, e ≠ .obj m) ∨ ∃ m c, e = .obj m ∧ lookup m sCode = some c ∧ ¬ Scalar c) := by
  constructor
  · intro h
    cases h with
    | noObject h1 h2 h3 h4 h5 => exact ⟨h1, _, h2, h3, _, h4, .inl h5⟩
    | code h1 h2 h3 h4 h5 h6 => exact ⟨h1, _, h2, h3, _, h4, .inr ⟨_, _, rfl, h5, h6⟩⟩
  · rintro ⟨h1, id, h2, h3, e, h4, h5 | ⟨m, c, rfl, h5, h6⟩⟩
    · exact .noObject h1 h2 h3 h4 h5
    · exact .code h1 h2 h3 h4 h5 h6

theorem callResult_breaks (m : Text) (n : Nat) (j : Json) :
    (∃ e, callResult m n (.json j) = .error e ∧ ¬ e.documented) ↔ Breaks n j := by
  cases j with
  | null => exact ⟨fun _ => .null, fun _ => ⟨.typeError, rfl, fun h => h⟩⟩
  | bool b => exact ⟨fun _ => .bool b, fun _ => ⟨.typeError, rfl, fun h => h⟩⟩
  | int i => exact ⟨fun _ => .int i, fun _ => ⟨.typeError, rfl, fun h => h⟩⟩
  | flt e t => exact ⟨fun _ => .flt e t, fun _ => ⟨.typeError, rfl, fun h => h⟩⟩
  | arr l =>
    have hmem : ∀ k, l.any (isStr k) = true ↔ .str k ∈ l := by
      intro k
      rw [List.any_eq_true]
      exact ⟨fun ⟨x, h1, h2⟩ => isStr_iff.1 h2 ▸ h1, fun h => ⟨_, h, isStr_iff.2 rfl⟩⟩
    constructor
    · rintro ⟨e, h, hd⟩
      simp only [callResult, contains, index] at h
      cases h1 : l.any (isStr sJsonrpc) with
      | false =>
        rw [h1] at h
        have h : Except.error Exc.protocol = Except.error e := h
        injection h with h; subst h; exact absurd trivial hd
      | true =>
        cases h2 : l.any (isStr sId) with
        | false =>
          rw [h1, h2] at h
          have h : Except.error Exc.protocol = Except.error e := h
          injection h with h; subst h; exact absurd trivial hd
        | true => exact .arr ((hmem _).1 h1) ((hmem _).1 h2)
    · intro h
      cases h with
      | arr h1 h2 =>
        refine ⟨.typeError, ?_, fun h => h⟩
        have h1 := (hmem sJsonrpc).2 h1
        have h2 := (hmem sId).2 h2
        simp only [callResult, contains, index, h1, h2]
        rfl
  | str s =>
    constructor
    · rintro ⟨e, h, hd⟩
      simp only [callResult, contains, index] at h
      cases h1 : occurs sJsonrpc s with
      | false =>
        rw [h1] at h
        have h : Except.error Exc.protocol = Except.error e := h
        injection h with h; subst h; exact absurd trivial hd
      | true =>
        cases h2 : occurs sId s with
        | false =>
          rw [h1, h2] at h
          have h : Except.error Exc.protocol = Except.error e := h
          injection h with h; subst h; exact absurd trivial hd
        | true => exact .str ((occurs_iff sJsonrpc (by decide) _).1 h1) ((occurs_iff sId (by decide) _).1 h2)
    · intro h
      cases h with
      | str h1 h2 =>
        refine ⟨.typeError, ?_, fun h => h⟩
        have h1 := (occurs_iff sJsonrpc (by decide) _).2 h1
        have h2 := (occurs_iff sId (by decide) _).2 h2
        simp only [callResult, contains, index, h1, h2]
        rfl
  | obj l =>
    rw [breaks_obj, callResult_obj]
    cases hv : lookup l sJsonrpc with
    | none =>
      constructor
      · rintro ⟨e, h, hd⟩; injection h with h; subst h; exact absurd trivial hd
      · rintro ⟨h, _⟩; exact nomatch h
    | some v =>
      cases hi : lookup l sId with
      | none =>
        constructor
        · rintro ⟨e, h, hd⟩; injection h with h; subst h; exact absurd trivial hd
        · rintro ⟨_, id, h, _⟩; exact nomatch h
      | some id =>
        simp only
        cases hs : isStr sVersion v with
        | false =>
          constructor
          · rintro ⟨e, h, hd⟩
            rw [if_pos rfl] at h
            injection h with h; subst h; exact absurd trivial hd
          · rintro ⟨h, _⟩
            injection h with h
            rw [isStr_iff.2 h] at hs
            exact nomatch hs
        | true =>
          rw [if_neg (fun h => nomatch h)]
          by_cases hk : id.key = some (.num n)
          · rw [if_neg (fun h => h hk)]
            cases he : lookup l sError with
            | none =>
              constructor
              · rintro ⟨e, h, hd⟩; exact nomatch h
              · rintro ⟨_, _, _, _, e, h, _⟩; exact nomatch h
            | some err =>
              constructor
              · rintro ⟨e, h, hd⟩
                injection h with h
                subst h
                exact ⟨by rw [isStr_iff.1 hs], id, rfl, key_denotes.1 hk, err, rfl, (handleError_undocumented m err).1 hd⟩
              · rintro ⟨_, _, _, _, e, h, h2⟩
                injection h with h
                subst h
                exact ⟨_, rfl, (handleError_undocumented m err).2 h2⟩
          · rw [if_pos hk]
            constructor
            · rintro ⟨e, h, hd⟩; injection h with h; subst h; exact absurd trivial hd
            · rintro ⟨_, id', h, h2, _⟩
              injection h with h
              subst h
              exact absurd (key_denotes.2 h2) hk

end Verif.JsonRpc
