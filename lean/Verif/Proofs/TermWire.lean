import Verif.Proofs.System
import Verif.Proofs.Terminal
import Verif.Spec.TermWire
/-! Lemmas about the client together with a terminal. -/
namespace Verif.TermWire
open Verif WSClient System

/-- `use` on a live channel. -/
theorem live_use {n s c c'} (op : Channel.Op) (hs : Live n s c) (hop : serviceOp op = true) (hh : Has n (s.use n op).1 c') (hc : c'.closed = false) :
    Live n (s.use n op).1 c' := by
  have hstep : step {} s.client (.chanOp n op) =
      ({ s.client with channels := update n (Channel.step c op).1 s.client.channels }, (Channel.step c op).2.flatMap (chanOut n)) := by
    simp [step, Ev.isSocket, hop, hs.table]
  have hd : (s.use n op).1.dropped = none := by simp [Sys.use, hs.here]
  refine ⟨?_, hd, hh.nodup, ?_, hc⟩
  · have := hh.obj
    simpa [Sys.obj, hd] using this
  · simp only [Sys.use, hs.here, hstep]; exact hs.works

/-- The invariant: `w` is what the server has received, `all` the messages of the whole output, `got` the input handled. -/
structure TInv (n : Int) (cb : Nat) (s : TermSys) (c : Channel.Ch) (w all : List Channel.Out) (got : Bytes) : Prop where
  live : Live n s.call.sys c
  data : c.dataCb = some cb
  under : Under c s.call.inside s.call.script
  out : w ++ s.call.script.map Call.msg = all
  small : ∀ k ∈ s.call.script, k.Small
  run : s.running = true
  free : s.input.stuck = false
  calm : s.closing = none
  input : s.input.written = got

theorem term_move {write : Nat → Terminal.WriteRes} (hw : Terminal.Progress write) {fuel n cb s c w all got} (m : TermMove)
    (h : TInv n cb s c w all got) (hin : ∀ x ∈ s.inbox, Harmless n x.2) (hl : ∀ d ∈ routed n s.inbox, d.length ≤ fuel) (hm : m.Fine n)
    (hz : Sized (termMove write fuel n cb s m).2) :
    ∃ c' new, TInv n cb (termMove write fuel n cb s m).1 c' (w ++ wire n (termMove write fuel n cb s m).2) all (got ++ new.flatten) ∧
      routed n s.inbox = new ++ routed n (termMove write fuel n cb s m).1.inbox ∧ (∀ x ∈ (termMove write fuel n cb s m).1.inbox, x ∈ s.inbox) := by
  obtain ⟨h1, h2, h3, h4, h5, h6, h7, h8, h9⟩ := h
  cases m with
  | stop => exact absurd hm id
  | start => exact ⟨c, [], ⟨h1, h2, h3, by simpa [termMove, wire_nil] using h4, h5, rfl, h7, h8, by simpa [termMove] using h9⟩, rfl, fun x hx => hx⟩
  | other env e =>
    have he : Elsewhere n e := hm
    obtain ⟨g1, g2, g3, _⟩ := event_live (env := env) h1 he.foreign he.keeps (by rintro data rfl; simp [Elsewhere, Ev.isSocket] at he)
    have hwn : wire n (Sys.event n env s.call.sys e).2 = [] := step_own_none env s.call.sys.client e n he.2 hz
    refine ⟨_, [], ⟨g1, g3.trans h2, h3.same g2, ?_, h5, h6, h7, h8, by simpa [termMove] using h9⟩, rfl, fun x hx => hx⟩
    simp only [termMove, hwn, List.append_nil]
    exact h4
  | thread =>
    cases hsc : s.call.script with
    | nil =>
      have hst : termMove write fuel n cb s .thread = (s, []) := by simp [termMove, callThread, hsc]
      rw [hst]
      exact ⟨c, [], ⟨h1, h2, h3, by simpa [wire_nil] using h4, h5, h6, h7, h8, by simpa using h9⟩, rfl, fun x hx => hx⟩
    | cons k rest =>
      have hk0 : k.Small := h5 k (by simp [hsc])
      have hkr : ∀ k' ∈ rest, k'.Small := fun k' h => h5 k' (by simp [hsc, h])
      cases hi : s.call.inside with
      | true =>
        rw [hsc, hi] at h3
        obtain ⟨c', g1, g2, g3, g4⟩ := use_inside h1.has h3 hk0
        have hst : termMove write fuel n cb s .thread =
            ({ s with call := { sys := (s.call.sys.use n k.finish).1, script := rest, inside := false } }, (s.call.sys.use n k.finish).2) := by
          simp [termMove, callThread, hsc, hi]
        rw [hst] at hz ⊢
        have hop : serviceOp k.finish = true := by cases k <;> rfl
        have hdc : c'.dataCb = c.dataCb := by
          have a := (live_use k.finish h1 hop g1 (g3.trans h1.opened)).table
          have hstep : step {} s.call.sys.client (.chanOp n k.finish) =
              ({ s.call.sys.client with channels := update n (Channel.step c k.finish).1 s.call.sys.client.channels },
                (Channel.step c k.finish).2.flatMap (chanOut n)) := by
            simp [step, Ev.isSocket, hop, h1.table]
          simp only [Sys.use, h1.here, hstep, lookup_update, h1.table] at a
          simp at a
          rw [← a]
          cases k <;> simp only [Call.finish, Channel.step]
          all_goals (repeat' split) <;> rfl
        refine ⟨c', [], ⟨live_use _ h1 hop g1 (g3.trans h1.opened), hdc.trans h2, ?_, ?_, hkr, h6, h7, h8, by simpa using h9⟩, rfl, fun x hx => hx⟩
        · simpa [Under] using g2
        · dsimp only
          rw [g4, List.append_assoc]
          rw [hsc] at h4
          simpa using h4
      | false =>
        have hidle : Idle c := by rw [hi] at h3; simpa [Under] using h3
        obtain ⟨c', g1, g2, g3, g4⟩ := use_begin k rest h1.has hidle h1.opened
        have hst : termMove write fuel n cb s .thread =
            ({ s with call := { s.call with sys := (s.call.sys.use n k.begin).1, inside := true } }, (s.call.sys.use n k.begin).2) := by
          simp [termMove, callThread, hsc, hi, isClosed_has h1.has, h1.opened]
        rw [hst] at hz ⊢
        have hop : serviceOp k.begin = true := by cases k <;> rfl
        have hdc : c'.dataCb = c.dataCb := by
          have a := (live_use k.begin h1 hop g1 (g3.trans h1.opened)).table
          have hstep : step {} s.call.sys.client (.chanOp n k.begin) =
              ({ s.call.sys.client with channels := update n (Channel.step c k.begin).1 s.call.sys.client.channels },
                (Channel.step c k.begin).2.flatMap (chanOut n)) := by
            simp [step, Ev.isSocket, hop, h1.table]
          simp only [Sys.use, h1.here, hstep, lookup_update, h1.table] at a
          simp at a
          rw [← a]
          cases k <;> simp only [Call.begin, Channel.step]
          all_goals (repeat' split) <;> rfl
        refine ⟨c', [], ⟨live_use _ h1 hop g1 (g3.trans h1.opened), hdc.trans h2, ?_, ?_, h5, h6, h7, h8, by simpa using h9⟩, rfl, fun x hx => hx⟩
        · simpa [hsc] using g2
        · dsimp only
          rw [g4, List.append_nil]; exact h4
  | receive =>
    cases hib : s.inbox with
    | nil =>
      have hst : termMove write fuel n cb s .receive = (s, []) := by simp [termMove, h7, h8, hib]
      rw [hst]
      exact ⟨c, [], ⟨h1, h2, h3, by simpa [wire_nil] using h4, h5, h6, h7, h8, by simpa using h9⟩, by simp [hib], fun x hx => by rw [← hib]; exact hx⟩
    | cons x rest =>
      obtain ⟨env, e⟩ := x
      have he : Harmless n e := hin (env, e) (by simp [hib])
      have hf := he.foreign
      obtain ⟨g1, g2, g3, g4⟩ := event_live (env := env) h1 hf he.2.1 (fun data hd => (he.2.2 data hd).1)
      have hout : (termMove write fuel n cb s .receive).2 = (Sys.event n env s.call.sys e).2 := by
        simp only [termMove, h7, h8, hib, Bool.false_eq_true, if_false]
        split <;> rfl
      have hwn : wire n (termMove write fuel n cb s .receive).2 = [] := by
        rw [hout] at hz ⊢
        exact step_own_none env s.call.sys.client e n hf.1 hz
      have hcall : called n cb (Sys.event n env s.call.sys e).2 = (routed n [(env, e)]).head? := by
        rw [called_seen, g4]
        rcases routed_ops (env := env) hf he.2.1 with ⟨d, ho, hr⟩ | ⟨d, ho, hr⟩ | ⟨ho, hr⟩
        · rw [ho, hr]
          simp [Channel.run, step_data h1.opened h2, local', Channel.isSend]
        · rw [ho, hr]
          simp only [Channel.run, List.append_nil]
          exact control_called c d
        · rw [ho, hr]; rfl
      have hr1 : routed n [(env, e)] = [] ∨ ∃ d, routed n [(env, e)] = [d] := by
        rcases routed_ops (env := env) hf he.2.1 with ⟨d, _, hr⟩ | ⟨d, _, hr⟩ | ⟨_, hr⟩
        · exact .inr ⟨d, hr⟩
        · exact .inl hr
        · exact .inl hr
      refine ⟨(Channel.run c (opsFor n e)).1, routed n [(env, e)], ?_, ?_, ?_⟩
      · rw [hwn, List.append_nil]
        rcases hr1 with hr | ⟨d, hr⟩
        · rw [hr] at hcall ⊢
          have hst : (termMove write fuel n cb s .receive).1 = { s with call := { s.call with sys := (Sys.event n env s.call.sys e).1 }, inbox := rest } := by
            simp [termMove, h7, h8, hib, hcall]
          rw [hst]
          exact ⟨g1, g3.trans h2, h3.same g2, h4, h5, h6, h7, h8, by simpa using h9⟩
        · rw [hr] at hcall ⊢
          have hd : d.length ≤ fuel := hl d (by rw [hib, routed_cons, hr]; simp)
          obtain ⟨p1, p2⟩ := Terminal.writeMaster_progress write hw fuel s.input.calls d hd
          have hi : (Terminal.onData write fuel s.input s.running d).written = s.input.written ++ d ∧
              (Terminal.onData write fuel s.input s.running d).closes = s.input.closes ∧
              (Terminal.onData write fuel s.input s.running d).stuck = false := by
            simp [Terminal.onData, h7, h6, p1, p2]
          have hst : (termMove write fuel n cb s .receive).1 =
              { s with call := { s.call with sys := (Sys.event n env s.call.sys e).1 }, inbox := rest,
                       input := Terminal.onData write fuel s.input s.running d } := by
            simp [termMove, h7, h8, hib, hcall, hi.2.1]
          rw [hst]
          exact ⟨g1, g3.trans h2, h3.same g2, h4, h5, h6, hi.2.2, h8, by simp [hi.1, h9]⟩
      · rw [routed_cons]
        have : (termMove write fuel n cb s .receive).1.inbox = rest := by
          simp only [termMove, h7, h8, hib, Bool.false_eq_true, if_false]
          split <;> rfl
        rw [this]
      · have : (termMove write fuel n cb s .receive).1.inbox = rest := by
          simp only [termMove, h7, h8, hib, Bool.false_eq_true, if_false]
          split <;> rfl
        rw [this]
        exact fun x hx => by simp [hx]

theorem term_sched {write : Nat → Terminal.WriteRes} (hw : Terminal.Progress write) {fuel n cb s c w all got} (ms : List TermMove)
    (h : TInv n cb s c w all got) (hin : ∀ x ∈ s.inbox, Harmless n x.2) (hl : ∀ d ∈ routed n s.inbox, d.length ≤ fuel) (hm : ∀ m ∈ ms, m.Fine n)
    (hz : Sized (termSched write fuel n cb s ms).2) :
    ∃ c' new, TInv n cb (termSched write fuel n cb s ms).1 c' (w ++ wire n (termSched write fuel n cb s ms).2) all (got ++ new.flatten) ∧
      routed n s.inbox = new ++ routed n (termSched write fuel n cb s ms).1.inbox := by
  induction ms generalizing s c w got with
  | nil => exact ⟨c, [], by simpa [termSched, wire_nil] using h, rfl⟩
  | cons m ms ih =>
    simp only [termSched, sized_append] at hz
    obtain ⟨c', new, k1, k2, k3⟩ := term_move hw m h hin hl (hm m (by simp)) hz.1
    obtain ⟨c'', new', g1, g2⟩ := ih k1 (fun x hx => hin x (k3 x hx)) (fun d hd => hl d (by rw [k2]; simp [hd]))
      (fun m' hm' => hm m' (by simp [hm'])) hz.2
    refine ⟨c'', new ++ new', ?_, ?_⟩
    · simp only [termSched, wire_append, List.flatten_append]
      rw [← List.append_assoc, ← List.append_assoc]; exact g1
    · simp only [termSched]; rw [k2, g2, List.append_assoc]

/-- Each move of the receive thread handles an event, each move of the other thread is half a call. -/
theorem term_progress {write fuel n cb s c w all got} (m : TermMove) (h : TInv n cb s c w all got) :
    (termMove write fuel n cb s m).1.inbox.length ≤ s.inbox.length - (if m.isReceive then 1 else 0) ∧
    callLeft (termMove write fuel n cb s m).1.call ≤ callLeft s.call - (if m.isThread then 1 else 0) := by
  cases m with
  | receive =>
    simp only [termMove, h.free, h.calm, Bool.false_eq_true, if_false, TermMove.isReceive, TermMove.isThread, if_true]
    cases hib : s.inbox with
    | nil => simp [hib]
    | cons x rest =>
      obtain ⟨env, e⟩ := x
      dsimp only
      split <;> exact ⟨by simp, Nat.le_refl _⟩
  | other env e => exact ⟨Nat.le_refl _, Nat.le_refl _⟩
  | start => exact ⟨Nat.le_refl _, Nat.le_refl _⟩
  | stop => exact ⟨Nat.le_refl _, Nat.le_refl _⟩
  | thread =>
    refine ⟨Nat.le_refl _, ?_⟩
    have hu := h.under
    simp only [termMove, callThread, callLeft, TermMove.isThread, if_true]
    cases hs : s.call.script with
    | nil =>
      have : s.call.inside = false := by
        cases hx : s.call.inside with
        | false => rfl
        | true => rw [hx, hs] at hu; exact absurd hu (by simp [Under])
      simp [hs, this]
    | cons k rest =>
      cases hin : s.call.inside
      · cases hcl : s.call.sys.isClosed n
        · simp
        · simp; omega
      · simp; omega

theorem term_ends {write : Nat → Terminal.WriteRes} (hw : Terminal.Progress write) {fuel n cb s c w all got} (ms : List TermMove)
    (h : TInv n cb s c w all got) (hin : ∀ x ∈ s.inbox, Harmless n x.2) (hl : ∀ d ∈ routed n s.inbox, d.length ≤ fuel) (hm : ∀ m ∈ ms, m.Fine n)
    (hz : Sized (termSched write fuel n cb s ms).2) :
    (termSched write fuel n cb s ms).1.inbox.length ≤ s.inbox.length - ms.countP TermMove.isReceive ∧
    callLeft (termSched write fuel n cb s ms).1.call ≤ callLeft s.call - ms.countP TermMove.isThread := by
  induction ms generalizing s c w got with
  | nil => exact ⟨Nat.le_refl _, Nat.le_refl _⟩
  | cons m ms ih =>
    simp only [termSched, sized_append] at hz
    obtain ⟨c', new, k1, k2, k3⟩ := term_move hw m h hin hl (hm m (by simp)) hz.1
    obtain ⟨p1, p2⟩ := term_progress (write := write) (fuel := fuel) m h
    obtain ⟨g1, g2⟩ := ih k1 (fun x hx => hin x (k3 x hx)) (fun d hd => hl d (by rw [k2]; simp [hd])) (fun m' hm' => hm m' (by simp [hm'])) hz.2
    simp only [termSched, List.countP_cons]
    exact ⟨by omega, by omega⟩

/-- What the thread of a terminal writes is data. -/
theorem calls_data (acts : List Terminal.Act) : (dataOf ((outputCalls acts).map Call.msg)).flatten = Terminal.wroteBytes acts := by
  induction acts with
  | nil => rfl
  | cons a acts ih => cases a <;> simp_all [outputCalls, dataOf, Terminal.wroteBytes, Call.msg]

end Verif.TermWire
