import Verif.Spec.Told
import Verif.Proofs.Channel
import Verif.Proofs.Opening
import Verif.Proofs.WSClient3
/-!
Lemmas for C157.
-/
namespace Verif.Channel
open Verif

theorem told_append (a b : List Out) : told (a ++ b) = told a ++ told b := by simp [told]

theorem told_closed {c : Ch} (hc : c.closed = true) (ops : List Op) : told (run c ops).2 = [] := by
  have h := closed_no_calls c ops hc
  rw [told, List.filterMap_eq_nil_iff]
  intro o ho
  have := h o ho
  cases o <;> first | rfl | simp [isCall] at this

theorem step_other {c : Ch} (hc : c.closed = false) {op : Op} (h : op ≠ .onClose) (hs : ∀ d cl ct, op ≠ .setCallbacks d cl ct) :
    (step c op).1.closed = false ∧ (step c op).1.closeCb = c.closeCb ∧ told (step c op).2 = [] := by
  cases op with
  | data d => cases hd : c.dataCb <;> simp [step, hc, hd, told]
  | control d => cases hd : c.ctrlCb <;> simp [step, hc, hd, told]
  | onClose => exact absurd rfl h
  | setCallbacks d cl ct => exact absurd rfl (hs d cl ct)
  | read n => simp [step, readNow, hc, told]
  | readBlocking n b => cases b <;> simp [step, readNow, hc, told]
  | beginWrite d => simp [step, hc, told]
  | beginControl d => simp [step, hc, told]
  | beginClose => simp [step, hc, told]
  | finishWrite i => cases hp : c.pendingWrites[i]? <;> simp [step, hc, hp, told]
  | finishControl i => cases hp : c.pendingControl[i]? <;> simp [step, hc, hp, told]
  | finishClose => cases hp : c.pendingCloses <;> simp [step, hc, hp, told]

theorem told_run (c : Ch) (hc : c.closed = false) (ops : List Op) :
    told (run c ops).2 = if .onClose ∈ ops then (((attached (beforeEnd ops)).getLast?).getD c.closeCb).toList else [] := by
  induction ops generalizing c with
  | nil => simp [run, told]
  | cons op ops ih =>
    simp only [run, told_append]
    by_cases h : op = .onClose
    · subst h
      have h1 : (step c .onClose).1.closed = true := by simp [step, hc]
      rw [told_closed h1]
      have h2 : beforeEnd (.onClose :: ops) = [] := by simp [beforeEnd]
      rw [h2, if_pos List.mem_cons_self]
      cases hd : c.closeCb <;> simp [step, hc, hd, told, attached]
    · have hb : beforeEnd (op :: ops) = op :: beforeEnd ops := by simp [beforeEnd, h]
      have hmem : (.onClose ∈ op :: ops) ↔ .onClose ∈ ops := by simp [Ne.symm h]
      rw [hb]
      by_cases hs : ∃ d cl ct, op = .setCallbacks d cl ct
      · obtain ⟨d, cl, ct, rfl⟩ := hs
        rw [ih _ (by simpa [step] using hc)]
        simp only [hmem]
        have h1 : told (step c (.setCallbacks d cl ct)).2 = [] := rfl
        have h2 : (step c (.setCallbacks d cl ct)).1.closeCb = cl := rfl
        have h3 : attached (.setCallbacks d cl ct :: beforeEnd ops) = cl :: attached (beforeEnd ops) := rfl
        rw [h1, h2, h3, List.nil_append]
        split
        · rw [List.getLast?_cons]; rfl
        · rfl
      · obtain ⟨g1, g2, g3⟩ := step_other hc h (fun d cl ct e => hs ⟨d, cl, ct, e⟩)
        rw [g3, ih _ g1, g2, List.nil_append]
        simp only [hmem]
        have h3 : attached (op :: beforeEnd ops) = attached (beforeEnd ops) := by
          cases op <;> first | rfl | exact absurd ⟨_, _, _, rfl⟩ hs
        rw [h3]

/-- A channel to which nobody attaches and that does not end. -/
theorem run_other (c : Ch) (hc : c.closed = false) (ops : List Op) (h : ∀ op ∈ ops, op ≠ .onClose ∧ ∀ d cl ct, op ≠ .setCallbacks d cl ct) :
    (run c ops).1.closed = false ∧ (run c ops).1.closeCb = c.closeCb ∧ told (run c ops).2 = [] := by
  induction ops generalizing c with
  | nil => simp [run, told, hc]
  | cons op ops ih =>
    obtain ⟨h0, h1⟩ := List.forall_mem_cons.1 h
    obtain ⟨g1, g2, g3⟩ := step_other hc h0.1 h0.2
    obtain ⟨k1, k2, k3⟩ := ih _ g1 h1
    simp only [run, told_append, g3, k3]
    exact ⟨k1, k2.trans g2, rfl⟩

end Verif.Channel

namespace Verif.Opening
open Verif WSClient System
open _root_.Verif.Channel (told)

theorem told_local (os : List Channel.Out) : told (local' os) = told os := by
  induction os with
  | nil => rfl
  | cons o os ih =>
    cases o <;> simp_all [told, local', Channel.isSend]

theorem ops_quiet {n : Int} {e : Ev} (h1 : ¬ Ends n e) (h2 : ∀ d cl ct, e ≠ .chanOp n (.setCallbacks d cl ct)) :
    ∀ op ∈ opsFor n e, op ≠ .onClose ∧ ∀ d cl ct, op ≠ .setCallbacks d cl ct := by
  intro op ho
  cases e with
  | binary data =>
    simp only [opsFor] at ho
    split at ho <;> try split at ho
    all_goals first
      | (simp only [List.mem_singleton] at ho; subst ho; simp)
      | simp at ho
  | disconnected => exact absurd (by simp [Ends]) h1
  | chanOp m o =>
    simp only [opsFor] at ho
    split at ho
    · rename_i hm
      obtain ⟨rfl, hs⟩ := hm
      simp only [List.mem_singleton] at ho
      subst ho
      exact ⟨fun e => by subst e; simp [serviceOp] at hs, fun d cl ct e => h2 d cl ct (by rw [e])⟩
    · simp at ho
  | _ => simp [opsFor] at ho

theorem ends_told {env} {s : WSClient.St} {n c e} (hh : s.hung = false) (hk : (keys s.channels).Nodup) (hc : lookup n s.channels = some c) (ho : c.closed = false)
    (he : Ends n e) (hl : ∀ data, e = .binary data → data.length ≤ maxSize) : told (seenBy n (step env s e).2) = c.closeCb.toList := by
  cases e with
  | disconnected =>
    rw [(step_channel env s .disconnected n c hh hk hc (fun _ h => nomatch h) (fun _ h => nomatch h)).2, told_local]
    cases hd : c.closeCb <;> simp [opsFor, Channel.run, Channel.step, ho, hd, told]
  | binary data =>
    have hcl : closes n data := by simpa [Ends] using he
    have hb := (closes_call (hl data rfl) n).1 hcl
    simp only [step, Ev.isSocket, if_true, hh, Bool.false_eq_true, if_false, onEvent, hb, handle, hc, seenBy_append, seenBy_logged, List.append_nil,
      seenBy_chanOut, told_local]
    cases hd : c.closeCb <;> simp [Channel.step, ho, hd, told]
  | _ => simp [Ends] at he

/-- Whoever has just attached itself to channel `n`. -/
theorem attached_told {n} {s : WSClient.St} (d ct : Option Nat) (f : Nat) (hh : s.hung = false) (hk : (keys s.channels).Nodup)
    (ho : ∀ c, lookup n s.channels = some c → c.closed = false) (more : List (Env × Ev)) (hf : Fair more)
    (hm : ∀ x ∈ more, ¬ Ends n x.2 ∧ ∀ d cl ct, x.2 ≠ .chanOp n (.setCallbacks d cl ct)) (env : Env) (e : Ev) (he : Ends n e)
    (hl : ∀ data, e = .binary data → data.length ≤ maxSize) :
    let r := run (callbacks n d (some f) ct (channel n s)) more
    told (seenBy n r.2) = [] ∧ told (seenBy n (step env r.1 e).2) = [f] := by
  intro r
  have hl0 := lookup_getChannel_self n s.channels
  have hc0 : (getChannel n s.channels).2.closed = false := by
    cases h : lookup n s.channels with
    | none => simp [getChannel, h]
    | some c => rw [getChannel_some h]; exact ho c h
  have hst : callbacks n d (some f) ct (channel n s) =
      { channel n s with channels := update n { (getChannel n s.channels).2 with dataCb := d, closeCb := some f, ctrlCb := ct }
                                       (getChannel n s.channels).1 } := by
    simp [callbacks, step, Ev.isSocket, serviceOp, channel_chs, hl0, Channel.step]
  have hh0 : (callbacks n d (some f) ct (channel n s)).hung = false := by rw [hst]; exact hh
  have hk0 : (keys (callbacks n d (some f) ct (channel n s)).channels).Nodup := by
    rw [hst]
    show (keys (update n _ _)).Nodup
    rw [keys_update]; exact getChannel_keys n _ hk
  have hlk : lookup n (callbacks n d (some f) ct (channel n s)).channels =
      some { (getChannel n s.channels).2 with dataCb := d, closeCb := some f, ctrlCb := ct } := by
    rw [hst]; simp [lookup_update, hl0]
  obtain ⟨g1, g2⟩ := run_channel _ more n _ hh0 hk0 hlk hf (fun x hx data hd hcl => (hm x hx).1 (by rw [hd]; simpa [Ends] using hcl))
  obtain ⟨k1, k2, k3⟩ := Channel.run_other { (getChannel n s.channels).2 with dataCb := d, closeCb := some f, ctrlCb := ct } hc0
    (more.flatMap fun x => opsFor n x.2) (by
      intro op hop
      obtain ⟨x, hx, hox⟩ := List.mem_flatMap.1 hop
      exact ops_quiet (hm x hx).1 (hm x hx).2 op hox)
  refine ⟨by rw [show seenBy n r.2 = _ from g2, told_local, k3], ?_⟩
  rw [ends_told (hh := by rw [run_hung _ _ hf]; exact hh0) (hk := run_keys _ _ hk0 hf) g1 k1 he hl, k2]
  rfl

end Verif.Opening
