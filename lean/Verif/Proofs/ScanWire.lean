import Verif.Spec.ScanWire
import Verif.Proofs.RemoteFiles
import Verif.Proofs.ScanReplies
import Verif.Props.RemoteFiles
import Verif.Props.Instructions
/-!
Lemmas for C120.
-/
namespace Verif.ScanWire
open Verif WSClient RemoteDirectory Instructions
open _root_.Verif.RemoteFiles (Keep reply reply_keep keep_set pass message serve message_decoded serve_reply)

theorem results_append (a b : List Out) : results (a ++ b) = results a ++ results b := by
  simp only [results, sentOf_append, List.filterMap_append]

/-! ### Which messages are results of scans -/

/-- A message of another type is no result of a scan. -/
theorem outgoing_result {n : Nat} {vals : List PyVal} {m : Bytes} (h : Outgoing n vals) (hn : n ≠ 30) (he : Bencode.encode (.list (.int n :: vals)) = .ok m)
    (hm : m.length ≤ maxSize) : scanResult m = none := by
  have hd := (flat_decoded (vals := .int n :: vals) (by cases h <;> simp [Flat]) he hm).1
  unfold scanResult
  rw [hd]
  cases h <;> first | rfl | exact absurd rfl hn

theorem handle_results (env : WSClient.Env) (s num args) :
    (∀ m ∈ sentOf (handle env s num args).2.1, m.length ≤ maxSize → scanResult m = none) ∨
    (env.scanError ≠ none ∧ ∃ m, (handle env s num args).2.1 = [.remote 29 [], .sent m]) := by
  unfold handle
  split
  · split
    · simp [sentOf]
    · rw [syncIdentity_own]; simp
  · split
    · rename_i d m hm
      refine .inl ?_
      intro m' h'
      simp [sentOf] at h'
      subst h'
      exact outgoing_result (.pong _) (by decide) (enc_pong hm)
    · simp [sentOf]
  · rw [chanOuts_own _ _ (receive_quiet _ _ rfl)]; simp
  · rw [chanOuts_own _ _ (receive_quiet _ _ rfl)]; simp
  · simp [sentOf]
  · split
    · simp [sentOf]
    · rw [chanOuts_own _ _ (receive_quiet _ _ rfl)]; simp
  · simp [sentOf]
  · rw [sentOf_map _ _ (by simp)]; simp
  · simp [sentOf]
  · split
    · simp [sentOf]
    · rename_i hse
      split
      · rename_i p hp
        split
        · rename_i m hm
          exact .inr ⟨by rw [hse]; simp, m, rfl⟩
        · simp [sentOf]
      · simp [sentOf]
  all_goals simp [sentOf]

/-- What the receive thread or a service makes the client send: results of scans only in answer to a scan request. -/
theorem client_results (env : WSClient.Env) (s : St) (hs : s.hung = false) (e : Ev)
    (hf : ∀ data, e = .binary data → ¬ Hangs data ∧ data.length ≤ maxSize) (hz : Sized (WSClient.step env s e).2) :
    results (WSClient.step env s e).2 = [] ∨
      (requestIn e = some .scan ∧ env.scanError ≠ none ∧ (results (WSClient.step env s e).2).length ≤ 1) := by
  have nil : (∀ m ∈ sentOf (WSClient.step env s e).2, m.length ≤ maxSize → scanResult m = none) → results (WSClient.step env s e).2 = [] := by
    intro h
    rw [results, List.filterMap_eq_nil_iff]
    exact fun m hm => h m hm (hz m hm)
  have kinds : ∀ {m : Bytes}, (∃ j vals, Outgoing j vals ∧ j ≠ 30 ∧ Bencode.encode (.list (.int j :: vals)) = .ok m) → m.length ≤ maxSize →
      scanResult m = none := by
    rintro m ⟨j, vals, h1, h2, h3⟩ hm
    exact outgoing_result h1 h2 h3 hm
  cases e with
  | binary data =>
    obtain ⟨hh, hl⟩ := hf data rfl
    have hcall := step_requests env s hs (.binary data) hf
    simp only [WSClient.step, Ev.isSocket, if_true, hs, onEvent, Bool.false_eq_true, if_false] at nil hcall ⊢
    cases hb : Dispatcher.onBinary data with
    | hang => exact .inl rfl
    | dropped => exact .inl rfl
    | raised => exact .inl rfl
    | call num args =>
      rw [hb] at nil hcall
      simp only at nil hcall ⊢
      have hlog : ∀ b : Bool, sentOf (if b then [Out.logged] else []) = [] := by intro b; cases b <;> rfl
      rcases handle_results env s num args with h | ⟨h1, m, h2⟩
      · refine .inl (nil ?_)
        intro m hm
        rw [sentOf_append, hlog, List.append_nil] at hm
        exact h m hm
      · refine .inr ⟨?_, h1, ?_⟩
        · rw [h2, List.cons_append, List.filter_cons_of_pos (by rfl), List.map_cons, show passedOn (.remote 29 []) = some .scan from rfl] at hcall
          cases hr : requestIn (.binary data) with
          | none => rw [hr] at hcall; simp at hcall
          | some r =>
            rw [hr] at hcall
            simp only [Option.toList_some, List.map_cons, List.map_nil, List.cons.injEq, Option.some.injEq] at hcall
            rw [← hcall.1]
        · rw [results_append, h2]
          have : results (if (handle env s num args).2.2 = true then [Out.logged] else []) = [] := by
            rw [results, hlog]; rfl
          rw [this, List.append_nil]
          exact List.length_filterMap_le ..
  | chanOp n op =>
    refine .inl (nil ?_)
    simp only [WSClient.step, Ev.isSocket, Bool.false_eq_true, if_false]
    split
    · split
      · simp [sentOf]
      · intro x hx
        obtain ⟨o, _, ho⟩ := sentOf_flatMap n _ hx
        obtain ⟨j, vals, h1, h2, h3⟩ := chanOut_kinds n o x ho
        refine kinds ⟨j, vals, h1, ?_, h3⟩
        rintro rfl
        cases h1
        simp at h2
    · simp [sentOf]
  | ready =>
    refine .inl (nil ?_)
    simp only [WSClient.step, Ev.isSocket, if_true, hs, onEvent, Bool.false_eq_true, if_false]
    split
    · split
      · rename_i m hm
        intro m' h'
        simp [sentOf] at h'
        subst h'
        exact kinds ⟨1, _, .join, by decide, enc_join hm⟩
      · simp [sentOf]
    · split
      · rename_i m hm
        intro m' h'
        simp [sentOf] at h'
        subst h'
        exact kinds ⟨2, _, .identify _, by decide, enc_identify hm⟩
      · simp [sentOf]
  | disconnected =>
    refine .inl (nil ?_)
    simp only [WSClient.step, Ev.isSocket, if_true, hs, onEvent, Bool.false_eq_true, if_false]
    rw [sentOf_append, hardClose_own]
    have : sentOf (s.callbacks.flatMap fun e => e.2.map fun cb => Out.cmdCall cb none) = [] := by
      rw [sentOf, List.filterMap_eq_nil_iff]
      intro o ho
      obtain ⟨a, _, ha⟩ := List.mem_flatMap.1 ho
      obtain ⟨cb, _, rfl⟩ := List.mem_map.1 ha
      rfl
    rw [this]; simp
  | poll =>
    refine .inl (nil ?_)
    simp only [WSClient.step, Ev.isSocket, if_true, hs, onEvent, Bool.false_eq_true, if_false]
    rw [syncIdentity_own]; simp
  | other => refine .inl (nil ?_); simp [WSClient.step, Ev.isSocket, hs, onEvent, sentOf]
  | close => refine .inl (nil ?_); simp [WSClient.step, Ev.isSocket, sentOf]
  | addCallback id cb => refine .inl (nil ?_); simp [WSClient.step, Ev.isSocket, sentOf]
  | getChannel n => refine .inl (nil ?_); simp [WSClient.step, Ev.isSocket, sentOf]

/-- The answers of the remote directory are no results of scans. -/
theorem serve_results (c : Cfg) (env : RemoteFiles.Env) (fs : FS) (num : Nat) (args : List PyVal) :
    ∀ m ∈ (serve c env fs num args).2.filterMap message, m.length ≤ maxSize → scanResult m = none := by
  have key : ∀ cls vals, (serve c env fs num args).2 = [.ok ⟨cls, vals⟩] → Flat vals → (cls.num : Int) ≠ 30 →
      ∀ m ∈ (serve c env fs num args).2.filterMap message, m.length ≤ maxSize → scanResult m = none := by
    intro cls vals he hf hn m hm hl
    rw [he] at hm
    simp only [List.filterMap_cons, List.filterMap_nil] at hm
    cases hmm : message (.ok ⟨cls, vals⟩) with
    | none => rw [hmm] at hm; simp at hm
    | some m' =>
      rw [hmm] at hm
      simp only [List.mem_singleton] at hm
      subst hm
      unfold scanResult
      rw [message_decoded hmm hf hl]
      split
      · rename_i b heq
        simp only [List.cons.injEq, PyVal.int.injEq] at heq
        exact absurd heq.1 hn
      · rfl
  unfold serve at key ⊢
  split
  · rename_i id path
    rcases c57_open (fun _ => "") c env.opn fs id path with ⟨n, h'⟩ | ⟨reason, h'⟩
    · exact key _ _ h' (by simp [Flat]) (by decide)
    · exact key _ _ h' (by simp [Flat]) (by decide)
  · simp
  · rename_i id o n
    rcases c57_read (fun _ => "") c env.rd fs id o n with ⟨d, h'⟩ | ⟨reason, h'⟩
    · exact key _ _ h' (by simp [Flat]) (by decide)
    · exact key _ _ h' (by simp [Flat]) (by decide)
  · rename_i id path device offset data final
    cases hd : utf8Decode device with
    | none => simp [onWrite, hd]
    | some dv =>
      obtain ⟨position, dev, code, reason, h', -⟩ := c57_write_partial (fun _ => "") c env.wr fs id path device offset data final (by simp [hd])
      exact key _ _ (by simp only [h', Option.getD_some]; rfl) (by simp [Flat]) (by decide)
  · simp

theorem pass_results (c : Cfg) (env : RemoteFiles.Env) (outs : List Out) (fs : FS) (hz : Sized (pass c env fs outs).2) :
    results (pass c env fs outs).2 = results outs := by
  induction outs generalizing fs with
  | nil => rfl
  | cons o os ih =>
    have gen : ∀ b : FS × List Out, b = pass c env fs os → pass c env fs (o :: os) = (b.1, o :: b.2) →
        results (pass c env fs (o :: os)).2 = results (o :: os) := by
      intro b hb h
      rw [h] at hz ⊢
      subst hb
      have h1 : Sized (pass c env fs os).2 := fun m hm => hz m (by rw [show o :: (pass c env fs os).2 = [o] ++ (pass c env fs os).2 from rfl, sentOf_append]; simp [hm])
      rw [show o :: (pass c env fs os).2 = [o] ++ (pass c env fs os).2 from rfl, results_append, ih _ h1, ← results_append]
      rfl
    cases o with
    | remote num args =>
      simp only [pass] at hz ⊢
      have e1 : ∀ (x : List Out), Out.remote num args :: (((serve c env fs num args).2.filterMap message).map .sent ++ x) =
          [.remote num args] ++ (((serve c env fs num args).2.filterMap message).map .sent ++ x) := fun _ => rfl
      rw [e1] at hz ⊢
      rw [Sized] at hz
      simp only [sentOf_append, RemoteFiles.sentOf_sent, List.mem_append] at hz
      rw [results_append, results_append, ih _ (fun m hm => hz m (.inr (.inr hm)))]
      have : results (((serve c env fs num args).2.filterMap message).map .sent) = [] := by
        rw [results, RemoteFiles.sentOf_sent, List.filterMap_eq_nil_iff]
        exact fun m hm => serve_results c env fs num args m hm (hz m (.inr (.inl hm)))
      rw [this]
      rfl
    | sent _ => exact gen _ rfl rfl
    | chan _ _ => exact gen _ rfl rfl
    | cmdCall _ _ => exact gen _ rfl rfl
    | announce _ _ => exact gen _ rfl rfl
    | instruction _ _ => exact gen _ rfl rfl
    | logged => exact gen _ rfl rfl

theorem sized_pass (c : Cfg) (env : RemoteFiles.Env) (outs : List Out) (fs : FS) (hz : Sized (pass c env fs outs).2) : Sized outs := by
  induction outs generalizing fs with
  | nil => exact fun m hm => (nomatch hm)
  | cons o os ih =>
    rw [show o :: os = [o] ++ os from rfl, sized_append]
    have gen : ∀ b : FS × List Out, b = pass c env fs os → pass c env fs (o :: os) = (b.1, o :: b.2) → Sized [o] ∧ Sized os := by
      intro b hb h
      rw [h] at hz
      subst hb
      rw [show o :: (pass c env fs os).2 = [o] ++ (pass c env fs os).2 from rfl, sized_append] at hz
      exact ⟨hz.1, ih _ hz.2⟩
    cases o with
    | remote num args =>
      refine ⟨fun m hm => (nomatch hm), ?_⟩
      simp only [pass] at hz
      have e1 : ∀ (x : List Out), Out.remote num args :: (((serve c env fs num args).2.filterMap message).map .sent ++ x) =
          [.remote num args] ++ (((serve c env fs num args).2.filterMap message).map .sent ++ x) := fun _ => rfl
      rw [e1, sized_append, sized_append] at hz
      exact ih _ hz.2.2
    | sent _ => exact gen _ rfl rfl
    | chan _ _ => exact gen _ rfl rfl
    | cmdCall _ _ => exact gen _ rfl rfl
    | announce _ _ => exact gen _ rfl rfl
    | instruction _ _ => exact gen _ rfl rfl
    | logged => exact gen _ rfl rfl

theorem pass_requests (c : Cfg) (env : RemoteFiles.Env) (outs : List Out) (fs : FS) :
    (pass c env fs outs).2.filterMap scanRequest = outs.filterMap scanRequest := by
  induction outs generalizing fs with
  | nil => rfl
  | cons o os ih =>
    have gen : pass c env fs (o :: os) = ((pass c env fs os).1, o :: (pass c env fs os).2) →
        (pass c env fs (o :: os)).2.filterMap scanRequest = (o :: os).filterMap scanRequest := by
      intro h
      rw [h]
      simp only [List.filterMap_cons, ih]
    cases o with
    | remote num args =>
      simp only [pass, List.filterMap_cons, List.filterMap_append, ih]
      have : (((serve c env fs num args).2.filterMap message).map Out.sent).filterMap scanRequest = [] := by
        rw [List.filterMap_eq_nil_iff]
        intro o ho
        obtain ⟨m, _, rfl⟩ := List.mem_map.1 ho
        rfl
      rw [this]
      rfl
    | sent _ => exact gen rfl
    | chan _ _ => exact gen rfl
    | cmdCall _ _ => exact gen rfl
    | announce _ _ => exact gen rfl
    | instruction _ _ => exact gen rfl
    | logged => exact gen rfl

theorem perform_scanned (w : World) (op : Instructions.Op) (h : perform w op = .ok [.scanned]) : op = .scanDirectory := by
  cases op <;> simp only [perform, channelFor, bind, Except.bind, pure, Except.pure] at h
  all_goals first
    | rfl
    | (exfalso; revert h; repeat' split
       all_goals (intro h; first | exact (nomatch h) | (injection h with h; injection h with h; exact (nomatch h))))

/-- The scans that an event asks for. -/
theorem client_requests (env : WSClient.Env) (s : St) (hs : s.hung = false) (e : Ev)
    (hf : ∀ data, e = .binary data → ¬ Hangs data ∧ data.length ≤ maxSize)
    (hni : ∀ sender d, requestIn e = some (.instruction sender d) → ¬ Action d "scan-directory") :
    (WSClient.step env s e).2.filterMap scanRequest = match requestIn e with | some .scan => [true] | _ => [] := by
  have h1 := step_requests env s hs e hf
  have h2 : (WSClient.step env s e).2.filterMap scanRequest = ((WSClient.step env s e).2.filter isRequest).filterMap scanRequest := by
    generalize (WSClient.step env s e).2 = l
    induction l with
    | nil => rfl
    | cons o l ih =>
      by_cases h : isRequest o = true
      · rw [List.filter_cons_of_pos h, List.filterMap_cons, List.filterMap_cons, ih]
      · rw [List.filter_cons_of_neg h, List.filterMap_cons, ih]
        have : scanRequest o = none := by cases o <;> simp [isRequest] at h <;> rfl
        rw [this]
  rw [h2]
  generalize (WSClient.step env s e).2.filter isRequest = l at h1
  cases hr : requestIn e with
  | none =>
    rw [hr] at h1
    have : l = [] := by simpa using h1
    rw [this]
    rfl
  | some r =>
    rw [hr] at h1
    simp only [Option.toList_some, List.map_cons, List.map_nil] at h1
    obtain ⟨o, rfl, ho⟩ : ∃ o, l = [o] ∧ passedOn o = some r := by
      cases l with
      | nil => simp at h1
      | cons a l =>
        cases l with
        | nil => exact ⟨a, rfl, by simpa using h1⟩
        | cons b l => simp at h1
    unfold passedOn at ho
    split at ho
    · rename_i sender d
      injection ho with ho
      subst ho
      have := hni sender d hr
      simp only [List.filterMap_cons, List.filterMap_nil, scanRequest]
      cases hi : instruct ⟨[], false⟩ d with
      | error _ => rfl
      | ok done =>
        simp only
        rw [if_neg]
        intro hm
        obtain ⟨op, x, g1, g2, g3⟩ := c87_nothing_else d ⟨[], false⟩ hi (by rintro rfl; simp at hm)
        rw [g2] at hm
        simp only [List.mem_singleton] at hm
        subst hm
        apply this
        have := perform_scanned _ _ g3
        subst this
        cases g1 with
        | scan h => exact h
    · injection ho with ho; subst ho; rfl
    · injection ho with ho; subst ho; rfl
    · injection ho with ho; subst ho; rfl
    · injection ho with ho; subst ho; rfl
    · injection ho with ho; subst ho; rfl
    · exact (nomatch ho)

end Verif.ScanWire
