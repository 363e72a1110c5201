import Verif.Proofs.TermWire
import Verif.Proofs.Agent
import Verif.Spec.Opening
/-! Lemmas for C132-C135. -/
namespace Verif.TermWire
open Verif WSClient System

/-- The calls under way, by the place of the receive thread. -/
def Closing (c : Channel.Ch) (w : List Channel.Out) (k : Nat) : Option Bool → Prop
  | none => Idle c ∧ w = List.replicate k .requestClose
  | some false => Idle c ∧ w ++ [.requestClose] = List.replicate k .requestClose
  | some true => c.pendingWrites = [] ∧ c.pendingControl = [] ∧ c.pendingCloses = 1 ∧ w ++ [.requestClose] = List.replicate k .requestClose

theorem Closing.same {c c' w k p} (h : Closing c w k p) (hs : SamePending c c') : Closing c' w k p := by
  obtain ⟨h1, h2, h3⟩ := hs
  cases p with
  | none => exact ⟨⟨by rw [h1]; exact h.1.1, by rw [h2]; exact h.1.2.1, by rw [h3]; exact h.1.2.2⟩, h.2⟩
  | some p =>
    cases p with
    | true => exact ⟨by rw [h1]; exact h.1, by rw [h2]; exact h.2.1, by rw [h3]; exact h.2.2.1, h.2.2.2⟩
    | false => exact ⟨⟨by rw [h1]; exact h.1.1, by rw [h2]; exact h.1.2.1, by rw [h3]; exact h.1.2.2⟩, h.2⟩

/-- A terminal without a process: `k` messages were handled. -/
structure WInv (n : Int) (cb : Nat) (s : TermSys) (c : Channel.Ch) (w : List Channel.Out) (k : Nat) (call : CallSys) : Prop where
  live : Live n s.call.sys c
  data : c.dataCb = some cb
  closing : Closing c w k s.closing
  run : s.running = false
  free : s.input.stuck = false
  input : s.input.written = []
  script : s.call.script = call.script
  inside : s.call.inside = call.inside
  calls : s.input.calls = 0
  clean : k = 0 → s.input.closes = 0

theorem wait_move {write fuel n cb s c w k call} (m : TermMove) (h : WInv n cb s c w k call) (hin : ∀ x ∈ s.inbox, Harmless n x.2)
    (hm : m.Waits n) (hz : Sized (termMove write fuel n cb s m).2) :
    ∃ c' new, WInv n cb (termMove write fuel n cb s m).1 c' (w ++ wire n (termMove write fuel n cb s m).2) (k + new.length) call ∧
      routed n s.inbox = new ++ routed n (termMove write fuel n cb s m).1.inbox ∧
      ((termMove write fuel n cb s m).1.inbox = s.inbox ∨ m.isReceive = true ∧ ∃ x, s.inbox = x :: (termMove write fuel n cb s m).1.inbox) := by
  obtain ⟨h1, h2, h3, h4, h5, h6, h7, h8, h9, h10⟩ := h
  cases m with
  | stop => exact absurd hm id
  | start => exact absurd hm id
  | thread => exact absurd hm id
  | other env e =>
    have he : Elsewhere n e := hm
    obtain ⟨g1, g2, g3, _⟩ := event_live (env := env) h1 he.foreign he.keeps (by rintro data rfl; simp [Elsewhere, Ev.isSocket] at he)
    have hwn : wire n (Sys.event n env s.call.sys e).2 = [] := step_own_none env s.call.sys.client e n he.2 hz
    refine ⟨_, [], ⟨g1, g3.trans h2, ?_, h4, h5, h6, h7, h8, h9, h10⟩, rfl, .inl rfl⟩
    simp only [termMove, hwn, List.append_nil]
    exact h3.same g2
  | receive =>
    cases hcl : s.closing with
    | some p =>
      rw [hcl] at h3
      cases p with
      | false =>
        have hst : Channel.step c .beginClose = ({ c with pendingCloses := 1 }, []) := by simp [Channel.step, h1.opened, h3.1.2.2]
        have := use_live .beginClose h1 rfl (by rw [hst]; simp) (by rw [hst]; exact h1.opened)
        rw [hst] at this
        have hmv : termMove write fuel n cb s .receive =
            ({ s with call := { s.call with sys := (s.call.sys.use n .beginClose).1 }, closing := some true }, (s.call.sys.use n .beginClose).2) := by
          simp [termMove, h5, hcl, isClosed_has h1.has, h1.opened]
        rw [hmv]
        refine ⟨_, [], ⟨this.1, h2, ?_, h4, h5, h6, h7, h8, h9, h10⟩, rfl, .inl rfl⟩
        simp only [this.2, List.filter_nil, List.append_nil]
        exact ⟨h3.1.1, h3.1.2.1, rfl, h3.2⟩
      | true =>
        obtain ⟨k1, k2, k3, k4⟩ := h3
        have hst : Channel.step c .finishClose = ({ c with pendingCloses := 0 }, [.requestClose]) := by simp [Channel.step, k3]
        have := use_live .finishClose h1 rfl (by
          rw [hst]; intro o ho d' hd
          simp at ho; subst ho
          simp at hd) (by rw [hst]; exact h1.opened)
        rw [hst] at this
        have hmv : termMove write fuel n cb s .receive =
            ({ s with call := { s.call with sys := (s.call.sys.use n .finishClose).1 }, closing := none }, (s.call.sys.use n .finishClose).2) := by
          simp [termMove, h5, hcl]
        rw [hmv]
        refine ⟨_, [], ⟨this.1, h2, ?_, h4, h5, h6, h7, h8, h9, h10⟩, rfl, .inl rfl⟩
        simp only [this.2]
        exact ⟨⟨k1, k2, rfl⟩, k4⟩
    | none =>
      rw [hcl] at h3
      cases hib : s.inbox with
      | nil =>
        have hst : termMove write fuel n cb s .receive = (s, []) := by simp [termMove, h5, hcl, hib]
        rw [hst]
        exact ⟨c, [], ⟨h1, h2, by simpa [hcl, wire_nil] using h3, h4, h5, h6, h7, h8, h9, h10⟩, by simp [hib], .inl hib⟩
      | cons x rest =>
        obtain ⟨env, e⟩ := x
        have he : Harmless n e := hin (env, e) (by simp [hib])
        have hf := he.foreign
        obtain ⟨g1, g2, g3, g4⟩ := event_live (env := env) h1 hf he.2.1 (fun data hd => (he.2.2 data hd).1)
        have hout : (termMove write fuel n cb s .receive).2 = (Sys.event n env s.call.sys e).2 := by
          simp only [termMove, h5, hcl, hib, Bool.false_eq_true, if_false]
          split <;> rfl
        have hwn : wire n (termMove write fuel n cb s .receive).2 = [] := by
          rw [hout] at hz ⊢
          exact step_own_none env s.call.sys.client e n hf.1 hz
        have hrest : (termMove write fuel n cb s .receive).1.inbox = rest := by
          simp only [termMove, h5, hcl, hib, Bool.false_eq_true, if_false]
          split <;> rfl
        have hcall : called n cb (Sys.event n env s.call.sys e).2 = (routed n [(env, e)]).head? ∧
            (routed n [(env, e)] = [] ∨ ∃ d, routed n [(env, e)] = [d]) := by
          rw [called_seen, g4]
          rcases routed_ops (env := env) hf he.2.1 with ⟨d, ho, hr⟩ | ⟨d, ho, hr⟩ | ⟨ho, hr⟩
          · rw [ho, hr]
            exact ⟨by simp [Channel.run, step_data h1.opened h2, local', Channel.isSend], .inr ⟨d, rfl⟩⟩
          · rw [ho, hr]
            simp only [Channel.run, List.append_nil]
            exact ⟨control_called c d, by simp⟩
          · rw [ho, hr]; exact ⟨rfl, .inl rfl⟩
        obtain ⟨hcall, hr1⟩ := hcall
        refine ⟨(Channel.run c (opsFor n e)).1, routed n [(env, e)], ?_, by rw [hrest, routed_cons], .inr ⟨rfl, (env, e), by rw [hrest]⟩⟩
        rw [hwn, List.append_nil]
        have hi0 : Idle (Channel.run c (opsFor n e)).1 := (Closing.same (w := w) (k := k) (p := none) h3 g2).1
        rcases hr1 with hr | ⟨d, hr⟩
        · rw [hr] at hcall ⊢
          have hst : (termMove write fuel n cb s .receive).1 = { s with call := { s.call with sys := (Sys.event n env s.call.sys e).1 }, inbox := rest } := by
            simp [termMove, h5, hcl, hib, hcall]
          rw [hst]
          exact ⟨g1, g3.trans h2, by simp only [hcl]; exact ⟨hi0, h3.2⟩, h4, h5, h6, h7, h8, h9, h10⟩
        · rw [hr] at hcall ⊢
          have hi : Terminal.onData write fuel s.input s.running d = { s.input with closes := s.input.closes + 1 } := by
            simp [Terminal.onData, h5, h4]
          have hst : (termMove write fuel n cb s .receive).1 =
              { s with call := { s.call with sys := (Sys.event n env s.call.sys e).1 }, inbox := rest,
                       input := { s.input with closes := s.input.closes + 1 }, closing := some false } := by
            simp [termMove, h5, hcl, hib, hcall, hi]
          rw [hst]
          refine ⟨g1, g3.trans h2, ⟨hi0, ?_⟩, h4, h5, h6, h7, h8, h9, fun h => by simp at h⟩
          rw [h3.2]
          simp [List.replicate_succ']

theorem wait_sched {write fuel n cb s c w k call} (ms : List TermMove) (h : WInv n cb s c w k call) (hin : ∀ x ∈ s.inbox, Harmless n x.2)
    (hm : ∀ m ∈ ms, m.Waits n) (hz : Sized (termSched write fuel n cb s ms).2) :
    ∃ c' new, WInv n cb (termSched write fuel n cb s ms).1 c' (w ++ wire n (termSched write fuel n cb s ms).2) (k + new.length) call ∧
      routed n s.inbox = new ++ routed n (termSched write fuel n cb s ms).1.inbox ∧
      ∃ j, j ≤ ms.countP TermMove.isReceive ∧ (termSched write fuel n cb s ms).1.inbox = s.inbox.drop j := by
  induction ms generalizing s c w k with
  | nil => exact ⟨c, [], by simpa [termSched, wire_nil] using h, rfl, 0, Nat.le_refl _, rfl⟩
  | cons m ms ih =>
    simp only [termSched, sized_append] at hz
    obtain ⟨c', new, k1, k2, k3⟩ := wait_move m h hin (hm m (by simp)) hz.1
    have hsub : ∀ x ∈ (termMove write fuel n cb s m).1.inbox, x ∈ s.inbox := by
      intro x hx
      rcases k3 with k3 | ⟨_, y, k3⟩
      · rw [k3] at hx; exact hx
      · rw [k3]; simp [hx]
    obtain ⟨c'', new', g1, g2, j, g3, g4⟩ := ih k1 (fun x hx => hin x (hsub x hx)) (fun m' hm' => hm m' (by simp [hm'])) hz.2
    refine ⟨c'', new ++ new', ?_, ?_, ?_⟩
    · simp only [termSched, wire_append, List.length_append]
      rw [← List.append_assoc, ← Nat.add_assoc]; exact g1
    · simp only [termSched]; rw [k2, g2, List.append_assoc]
    · rcases k3 with k3 | ⟨hrec, y, k3⟩
      · refine ⟨j, by simp only [List.countP_cons]; omega, ?_⟩
        simp only [termSched]; rw [g4, k3]
      · refine ⟨j + 1, by simp only [List.countP_cons, hrec, if_true]; omega, ?_⟩
        simp only [termSched]; rw [g4, k3, List.drop_succ_cons]

/-- How much the receive thread has still to do. -/
def waitLeft (s : TermSys) : Nat := 3 * s.inbox.length + (match s.closing with | none => 0 | some false => 2 | some true => 1)

theorem wait_progress {write fuel n cb s c w k call} (h : WInv n cb s c w k call) :
    waitLeft (termMove write fuel n cb s .receive).1 ≤ waitLeft s - 1 := by
  simp only [termMove, h.free, Bool.false_eq_true, if_false]
  cases hc : s.closing with
  | none =>
    cases hi : s.inbox with
    | nil => simp [waitLeft, hc, hi]
    | cons x rest =>
      obtain ⟨env, e⟩ := x
      dsimp only
      split
      · simp [waitLeft, hc, hi]; omega
      · simp only [waitLeft, hc, hi, List.length_cons]
        split
        · omega
        · simp at *; omega
        · simp at *
  | some p =>
    cases p with
    | false => dsimp only; split <;> simp [waitLeft, hc] <;> omega
    | true => simp [waitLeft, hc]

theorem wait_ends {write fuel n cb s c w k call} (ms : List TermMove) (h : WInv n cb s c w k call) (hin : ∀ x ∈ s.inbox, Harmless n x.2)
    (hm : ∀ m ∈ ms, m.Waits n) (hz : Sized (termSched write fuel n cb s ms).2) :
    waitLeft (termSched write fuel n cb s ms).1 ≤ waitLeft s - ms.countP TermMove.isReceive := by
  induction ms generalizing s c w k with
  | nil => exact Nat.le_refl _
  | cons m ms ih =>
    simp only [termSched, sized_append] at hz
    obtain ⟨c', new, k1, k2, k3⟩ := wait_move m h hin (hm m (by simp)) hz.1
    have hsub : ∀ x ∈ (termMove write fuel n cb s m).1.inbox, x ∈ s.inbox := by
      intro x hx
      rcases k3 with k3 | ⟨_, y, k3⟩
      · rw [k3] at hx; exact hx
      · rw [k3]; simp [hx]
    have g := ih k1 (fun x hx => hin x (hsub x hx)) (fun m' hm' => hm m' (by simp [hm'])) hz.2
    simp only [termSched, List.countP_cons]
    cases m with
    | receive =>
      have := wait_progress (write := write) (fuel := fuel) h
      simp only [TermMove.isReceive, if_true]
      omega
    | other env e =>
      have : waitLeft (termMove write fuel n cb s (.other env e)).1 = waitLeft s := rfl
      simp only [TermMove.isReceive]
      rw [this] at g
      simpa using g
    | thread => exact absurd (hm .thread (by simp)) id
    | start => exact absurd (hm .start (by simp)) id
    | stop => exact absurd (hm .stop (by simp)) id

end Verif.TermWire

namespace Verif.Opening
open Verif WSClient System

theorem channel_chs (n c) : (channel n c).channels = (getChannel n c.channels).1 := rfl

/-- A channel that is given callbacks. -/
theorem open_serving {n s cb} (a b : Option Nat) (hh : s.hung = false) (hk : (keys s.channels).Nodup) (hf : Free n s) :
    Serving n cb ⟨callbacks n (some cb) a b (channel n s), none⟩ := by
  have hl := lookup_getChannel_self n s.channels
  have hc : (getChannel n s.channels).2.closed = false ∧ Idle (getChannel n s.channels).2 := by
    cases h : lookup n s.channels with
    | none => simp [getChannel, h, Idle]
    | some c => rw [getChannel_some h]; exact hf c h
  have hst : callbacks n (some cb) a b (channel n s) =
      { channel n s with channels := update n { (getChannel n s.channels).2 with dataCb := some cb, closeCb := a, ctrlCb := b }
                                       (getChannel n s.channels).1 } := by
    simp [callbacks, step, Ev.isSocket, serviceOp, channel_chs, hl, Channel.step]
  refine ⟨rfl, ?_, ?_, { (getChannel n s.channels).2 with dataCb := some cb, closeCb := a, ctrlCb := b }, ?_, ?_⟩
  · rw [hst]; exact hh
  · rw [hst]
    show (keys (update n _ _)).Nodup
    rw [keys_update]; exact getChannel_keys n _ hk
  · rw [hst]; simp [lookup_update, hl]
  · exact ⟨hc.1, hc.2, rfl⟩

theorem open_ready {n s} (hk : (keys s.channels).Nodup) (hf : Free n s) : Ready n ⟨channel n s, none⟩ := by
  refine ⟨rfl, ?_, _, lookup_getChannel_self n s.channels, ?_⟩
  · exact getChannel_keys n _ hk
  · cases h : lookup n s.channels with
    | none => simp [getChannel, h, Idle]
    | some c => rw [getChannel_some h]; exact hf c h

theorem serving_ready {n cb s} (h : Serving n cb s) : Ready n s := by
  obtain ⟨h1, _, h3, c, h4, h5, h6, _⟩ := h
  exact ⟨h1, h3, c, h4, h5, h6⟩

/-- A message that asks for something. -/
theorem receive_op {w cbs ok env s m op x} (hh : s.client.hung = false) (hm : Sent m op) (hx : Instructions.Meant w op [x]) :
    (receive w cbs ok env s m).1 = (perform cbs ok s x).1 ∧ (receive w cbs ok env s m).2.1 = [(perform cbs ok s x).2] ∧
    (receive w cbs ok env s m).2.2 = (step env s.client (.binary m)).2 := by
  obtain ⟨hl, sender, d, surplus, hd, hkeys, ha⟩ := hm
  have h1 := Instructions.c87_message_partial env s.client hh hl hd hkeys (w := w) ha hx
  have hr : Instructions.requestOf m = some (.instruction sender d) := Instructions.requestOf_list m (.instruction sender d) surplus hd
  have ho := Instructions.call_of_request hl hr
  have h2 : (step env s.client (.binary m)).1 = s.client := by
    simp only [step, Ev.isSocket, if_true, hh, Bool.false_eq_true, if_false, onEvent, ho, Instructions.Request.packet, handle]
  simp only [receive, h1, h2, performAll, and_self]

theorem receive_wire {env s m} (n : Int) (hz : Sized (step env s (.binary m)).2) : wire n (step env s (.binary m)).2 = [] :=
  step_own_none env s (.binary m) n (fun _ h => nomatch h) hz

theorem launch_admits {l : Limiter.Lim} {ok} (h : Admits l ok) : ∃ l', Limiter.increment l = .ok l' ∧ (Limiter.launch l ok).2 = true := by
  obtain ⟨h1, rfl⟩ := h
  have : ¬ (l.value ≥ (l.limit : Int)) := by omega
  exact ⟨{ l with value := l.value + 1 }, by simp [Limiter.increment, this], by rw [Agent.launch_ok h1]⟩

theorem launch_refuses {l : Limiter.Lim} {ok} (h : ¬ Admits l ok) : (Limiter.launch l ok).2 = false := by
  by_cases h1 : l.value < l.limit
  · have : ok = false := by cases ok with | false => rfl | true => exact absurd ⟨h1, rfl⟩ h
    subst this
    simp only [Limiter.launch, Bool.false_eq_true, if_false]
    split
    · rfl
    · split <;> rfl
  · rw [Agent.launch_full ok (by omega)]

/-- A connection is started. -/
theorem connect_admits {cbs ok s n host port} (h : Admits s.services ok) :
    (connect cbs ok s n host port).1.client = callbacks n (some cbs.data) (some cbs.close) (some cbs.ctrl) (channel n s.client) ∧
    (connect cbs ok s n host port).2 = .connection n host port := by
  obtain ⟨l', h1, h2⟩ := launch_admits h
  simp [connect, h1, h2]

/-- No connection is started. -/
theorem connect_refuses {cbs ok s n host port} (h : ¬ Admits s.services ok) (hh : s.client.hung = false) (hk : (keys s.client.channels).Nodup)
    (hf : Free n s.client) :
    Ready n ⟨(connect cbs ok s n host port).1.client, none⟩ ∧
    (connect cbs ok s n host port).2 = .refused n [.write Services.serverBusy, .close] := by
  simp only [connect]
  cases hi : Limiter.increment s.services with
  | error e => exact ⟨open_ready hk hf, rfl⟩
  | ok l => simp only [launch_refuses h]; exact ⟨serving_ready (open_serving _ _ hh hk hf), rfl⟩

theorem services_known {name : String} {port : Int} (h : (name, port) ∈ localServices) :
    ∃ svc, PortForward.getService services name.toList = some svc ∧ svc.host = PortForward.localhost ∧ svc.port = port := by
  simp only [localServices, List.mem_cons, List.not_mem_nil, or_false, Prod.mk.injEq] at h
  rcases h with ⟨rfl, rfl⟩ | ⟨rfl, rfl⟩ | ⟨rfl, rfl⟩ | ⟨rfl, rfl⟩
  all_goals exact ⟨_, rfl, rfl, rfl⟩

theorem services_unknown {name : Text} (h : ∀ x ∈ localServices, x.1.toList ≠ name) : PortForward.getService services name = none := by
  have h1 := h ("web", 80) (by simp [localServices])
  have h2 := h ("ext", 81) (by simp [localServices])
  have h3 := h ("extalt", 8000) (by simp [localServices])
  have h4 := h ("alt", 8080) (by simp [localServices])
  simp only [PortForward.getService, services, PortForward.addAll, PortForward.initServices, List.foldl_cons, List.foldl_nil, PortForward.addService]
  simp only [Ne, eq_comm] at h1 h2 h3 h4
  rw [if_neg h4, if_neg h3, if_neg h2, if_neg h1]

end Verif.Opening
