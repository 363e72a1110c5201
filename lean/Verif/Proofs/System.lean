import Verif.Proofs.Wire
import Verif.Proofs.Weight
import Verif.Proofs.PortForward
import Verif.Spec.System
/-! Lemmas about the client together with a service. -/
namespace Verif.System
open Verif WSClient

/-- The calls under way are the same. -/
def SamePending (c c' : Channel.Ch) : Prop :=
  c'.pendingWrites = c.pendingWrites ∧ c'.pendingControl = c.pendingControl ∧ c'.pendingCloses = c.pendingCloses

theorem SamePending.refl (c) : SamePending c c := ⟨rfl, rfl, rfl⟩

/-- What the receive thread does to a channel. -/
theorem receive_step (c : Channel.Ch) (op : Channel.Op) (h : serviceOp op = false) :
    SamePending c (Channel.step c op).1 ∧ (Channel.step c op).1.closed = (c.closed || decide (op = .onClose)) ∧
    (Channel.step c op).1.dataCb = c.dataCb := by
  cases op <;> simp [serviceOp] at h <;> simp only [Channel.step]
  · split
    · simp_all [SamePending]
    · split <;> simp_all [SamePending]
  · split
    · simp_all [SamePending]
    · split <;> simp_all [SamePending]
  · split <;> simp_all [SamePending]

theorem foreign_ops {n e} (hf : Foreign n e) : opsFor n e = [] ∨ ∃ op, opsFor n e = [op] ∧ serviceOp op = false ∧ (op = .onClose → e = .disconnected) := by
  cases e with
  | binary data =>
    simp only [opsFor]
    split
    · split
      · exact .inr ⟨_, rfl, rfl, by simp⟩
      · exact .inl rfl
    · split
      · exact .inr ⟨_, rfl, rfl, by simp⟩
      · exact .inl rfl
    · exact .inl rfl
  | disconnected => exact .inr ⟨_, rfl, rfl, fun _ => rfl⟩
  | chanOp m op =>
    have hm : m ≠ n := by rintro rfl; exact hf.1 op rfl
    simp [opsFor, hm]
  | _ => exact .inl rfl

/-- Everything the proofs below need to know of a state. -/
structure Has (n : Int) (s : Sys) (c : Channel.Ch) : Prop where
  obj : s.obj n = some c
  nodup : (keys s.client.channels).Nodup

theorem hung_step (env s e) (hh : s.hung = true) (he : e.isSocket = true) : step env s e = (s, []) := by simp [step, he, hh]

/-- An event of the client and the service's channel object. -/
theorem event_has {n env s e c} (hs : Has n s c) (hf : Foreign n e) :
    ∃ c', Has n (s.event n env e).1 c' ∧ SamePending c c' ∧ c'.dataCb = c.dataCb ∧ (c.closed = true → c'.closed = true) ∧
      (¬ Ends n e → c'.closed = c.closed) := by
  obtain ⟨ho, hk⟩ := hs
  have hk' : (keys (s.event n env e).1.client.channels).Nodup := step_keys env s.client e hk hf.2
  unfold Sys.obj at ho
  cases hd : s.dropped with
  | some d =>
    rw [hd] at ho
    simp only [Option.some.injEq] at ho
    subst ho
    exact ⟨d, ⟨by simp [Sys.obj, Sys.event, hd], hk'⟩, .refl _, rfl, id, fun _ => rfl⟩
  | none =>
    rw [hd] at ho
    simp only at ho
    by_cases hcase : s.client.hung = true ∧ e.isSocket = true
    · refine ⟨c, ⟨?_, hk'⟩, .refl _, rfl, id, fun _ => rfl⟩
      simp [Sys.obj, Sys.event, hd, hung_step env _ _ hcase.1 hcase.2, ho]
    · by_cases hcl : ∃ data, e = .binary data ∧ closes n data
      · obtain ⟨data, rfl, hcl⟩ := hcl
        have hh : s.client.hung = false := by simpa [Ev.isSocket] using hcase
        have hb := (closes_call (hf.2 data rfl) n).1 hcl
        have h1 : (step env s.client (.binary data)).1.channels = remove n s.client.channels := by
          simp [step, Ev.isSocket, hh, onEvent, hb, handle, ho]
        have h2 := receive_step c .onClose rfl
        refine ⟨(Channel.step c .onClose).1, ⟨?_, hk'⟩, h2.1, h2.2.2, fun _ => by rw [h2.2.1]; simp, fun h => absurd (Or.inr ⟨data, rfl, hcl⟩) h⟩
        simp [Sys.obj, Sys.event, hd, ho, h1, lookup_remove_self n _ hk]
      · have hl : lookup n (step env s.client e).1.channels = some (Channel.run c (opsFor n e)).1 := by
          by_cases hh : s.client.hung = true
          · have he : e.isSocket = false := by
              cases h : e.isSocket
              · rfl
              · exact absurd ⟨hh, h⟩ hcase
            have hops : opsFor n e = [] := by
              rcases foreign_ops hf with h | ⟨op, h, hop, _⟩
              · exact h
              · cases e <;> simp [Ev.isSocket] at he <;> simp [opsFor] at h
                rename_i m op' _
                have hm : m ≠ n := by rintro rfl; exact hf.1 op' rfl
                simp [hm] at h
            rw [hops]
            cases e <;> simp [Ev.isSocket] at he
            · exact ho
            · exact ho
            · rename_i m
              simp only [step, Ev.isSocket, Bool.false_eq_true, if_false, Channel.run]
              by_cases hm : m = n
              · subst hm; rw [getChannel_some ho]; exact ho
              · rw [lookup_getChannel_ne _ _ _ hm]; exact ho
            · rename_i m op
              have hm : m ≠ n := by rintro rfl; exact hf.1 op rfl
              simp only [step, Ev.isSocket, Bool.false_eq_true, if_false, Channel.run]
              split
              · split
                · exact ho
                · simp only [lookup_update, if_neg hm]; exact ho
              · exact ho
          · exact (step_channel env s.client e n c (by simpa using hh) hk ho hf.2 (fun data hd h => hcl ⟨data, hd, h⟩)).1
        refine ⟨(Channel.run c (opsFor n e)).1, ⟨by simp [Sys.obj, Sys.event, hd, ho, hl], hk'⟩, ?_⟩
        rcases foreign_ops hf with h | ⟨op, h, hop, hdis⟩
        · rw [h]; exact ⟨.refl _, rfl, id, fun _ => rfl⟩
        · rw [h]
          have h2 := receive_step c op hop
          simp only [Channel.run]
          refine ⟨h2.1, h2.2.2, fun hc => by rw [h2.2.1, hc]; rfl, fun hne => ?_⟩
          rw [h2.2.1]
          have : op ≠ .onClose := fun h => hne (.inl (hdis h))
          simp [this]

/-- The service uses its channel object. -/
theorem use_has {n s c} (op : Channel.Op) (hs : Has n s c) (hop : serviceOp op = true) (ho : ∀ o ∈ (Channel.step c op).2, OutSized o) :
    Has n (s.use n op).1 (Channel.step c op).1 ∧ wire n (s.use n op).2 = (Channel.step c op).2.filter Channel.isSend := by
  obtain ⟨h, hk⟩ := hs
  unfold Sys.obj at h
  cases hd : s.dropped with
  | some d =>
    rw [hd] at h
    simp only [Option.some.injEq] at h
    subst h
    refine ⟨⟨by simp [Sys.obj, Sys.use, hd], by simpa [Sys.use, hd] using hk⟩, ?_⟩
    simp only [Sys.use, hd]
    rw [chanOuts_wire n n _ ho, if_pos rfl]
  | none =>
    rw [hd] at h
    simp only at h
    have hstep : step {} s.client (.chanOp n op) =
        ({ s.client with channels := update n (Channel.step c op).1 s.client.channels }, (Channel.step c op).2.flatMap (chanOut n)) := by
      simp [step, Ev.isSocket, hop, h]
    refine ⟨⟨?_, ?_⟩, ?_⟩
    · simp [Sys.obj, Sys.use, hd, hstep, lookup_update, h]
    · simp only [Sys.use, hd, hstep, keys_update]; exact hk
    · simp only [Sys.use, hd, hstep]
      rw [chanOuts_wire n n _ ho, if_pos rfl]

theorem isClosed_has {n s c} (hs : Has n s c) : s.isClosed n = c.closed := by simp [Sys.isClosed, hs.obj]

theorem ready_has {n s} (h : Ready n s) : ∃ c, Has n s c ∧ c.closed = false ∧ Idle c := by
  obtain ⟨h1, h2, c, h3, h4, h5⟩ := h
  exact ⟨c, ⟨by simp [Sys.obj, h1, h3], h2⟩, h4, h5⟩

/-! ### File service -/

/-- Pieces of a file. -/
def Pieces (ds : List Bytes) : Prop := ∀ d ∈ ds, d ≠ [] ∧ d.length ≤ Services.chunkSize

/-- Data messages only, and `left` is still to come (all of it, while the channel is open). -/
def Going (content : Bytes) (c : Channel.Ch) (w : List Channel.Out) (left : Bytes) : Prop :=
  ∃ ds lost, w = ds.map .sendData ∧ Pieces ds ∧ ds.flatten ++ lost ++ left = content ∧ (c.closed = false → lost = [])

/-- No more data will come; `ok`: no operation failed. -/
def Over (content : Bytes) (c : Channel.Ch) (w : List Channel.Out) (ok : Bool) : Prop :=
  ∃ ds ctl, w = ds.map .sendData ++ ctl ∧ Pieces ds ∧ ds.flatten <+: content ∧ (ctl = [] ∨ ∃ r, ctl = [.sendControl r]) ∧
    (ok = true → ctl = [] ∧ (c.closed = false → ds.flatten = content))

/-- The invariant of a schedule: `w` is what the server has received for the channel, `ok` says that no operation failed. -/
def Inv (content : Bytes) (c : Channel.Ch) (w : List Channel.Out) (ok : Bool) : FilePc → Prop
  | .opening => Idle c ∧ w = []
  | .reading rest => Idle c ∧ Going content c w rest
  | .looking chunk rest | .writing chunk rest =>
    Idle c ∧ chunk ≠ [] ∧ chunk.length ≤ Services.chunkSize ∧ Going content c w (chunk ++ rest)
  | .sending rest => ∃ chunk, c.pendingWrites = [chunk] ∧ c.pendingControl = [] ∧ c.pendingCloses = 0 ∧
      chunk ≠ [] ∧ chunk.length ≤ Services.chunkSize ∧ ∃ ds, w = ds.map .sendData ∧ Pieces ds ∧ ds.flatten ++ (chunk ++ rest) = content
  | .failed _ => Idle c ∧ ok = false ∧ ∃ ds, w = ds.map .sendData ∧ Pieces ds ∧ ds.flatten <+: content
  | .reporting => ok = false ∧ (∃ r, c.pendingWrites = [] ∧ c.pendingControl = [r] ∧ c.pendingCloses = 0 ∧ r.length ≤ maxSize) ∧
      ∃ ds, w = ds.map .sendData ∧ Pieces ds ∧ ds.flatten <+: content
  | .closing => Idle c ∧ Over content c w ok
  | .requesting => (c.pendingWrites = [] ∧ c.pendingControl = [] ∧ c.pendingCloses = 1) ∧ Over content c w ok
  | .ended => Idle c ∧ ∃ w' cl, w = w' ++ cl ∧ (cl = [] ∨ cl = [.requestClose]) ∧ Over content c w' ok ∧ (c.closed = false → cl = [.requestClose])

theorem Idle.same {c c'} (h : Idle c) (hs : SamePending c c') : Idle c' := by
  obtain ⟨h1, h2, h3⟩ := h
  obtain ⟨g1, g2, g3⟩ := hs
  exact ⟨by rw [g1, h1], by rw [g2, h2], by rw [g3, h3]⟩

theorem Going.mono {content c c' w left} (h : Going content c w left) (hc : c.closed = true → c'.closed = true) : Going content c' w left := by
  obtain ⟨ds, lost, h1, h2, h3, h4⟩ := h
  refine ⟨ds, lost, h1, h2, h3, fun h => h4 ?_⟩
  cases hx : c.closed
  · rfl
  · rw [hc hx] at h; exact absurd h (by simp)

theorem Over.mono {content c c' w ok} (h : Over content c w ok) (hc : c.closed = true → c'.closed = true) : Over content c' w ok := by
  obtain ⟨ds, ctl, h1, h2, h3, h4, h5⟩ := h
  refine ⟨ds, ctl, h1, h2, h3, h4, fun hk => ⟨(h5 hk).1, fun h => (h5 hk).2 ?_⟩⟩
  cases hx : c.closed
  · rfl
  · rw [hc hx] at h; exact absurd h (by simp)

theorem Inv.mono {content c c' w ok pc} (h : Inv content c w ok pc) (hs : SamePending c c') (hc : c.closed = true → c'.closed = true) :
    Inv content c' w ok pc := by
  have hs' := hs
  obtain ⟨g1, g2, g3⟩ := hs'
  cases pc with
  | opening => exact ⟨h.1.same hs, h.2⟩
  | reading rest => exact ⟨h.1.same hs, h.2.mono hc⟩
  | looking chunk rest => exact ⟨h.1.same hs, h.2.1, h.2.2.1, h.2.2.2.mono hc⟩
  | writing chunk rest => exact ⟨h.1.same hs, h.2.1, h.2.2.1, h.2.2.2.mono hc⟩
  | sending rest =>
    obtain ⟨chunk, a1, a2, a3, a4, a5, a6⟩ := h
    exact ⟨chunk, by rw [g1, a1], by rw [g2, a2], by rw [g3, a3], a4, a5, a6⟩
  | failed f => exact ⟨h.1.same hs, h.2⟩
  | reporting =>
    obtain ⟨h0, ⟨r, a1, a2, a3, a4⟩, h2⟩ := h
    exact ⟨h0, ⟨r, by rw [g1, a1], by rw [g2, a2], by rw [g3, a3], a4⟩, h2⟩
  | closing => exact ⟨h.1.same hs, h.2.mono hc⟩
  | requesting =>
    obtain ⟨⟨a1, a2, a3⟩, h2⟩ := h
    exact ⟨⟨by rw [g1, a1], by rw [g2, a2], by rw [g3, a3]⟩, h2.mono hc⟩
  | ended =>
    obtain ⟨h1, w', cl, h2, h3, h4, h5⟩ := h
    refine ⟨h1.same hs, w', cl, h2, h3, h4.mono hc, fun h => h5 ?_⟩
    cases hx : c.closed
    · rfl
    · rw [hc hx] at h; exact absurd h (by simp)

theorem Going.over {content c w} (h : Going content c w []) (ok) : Over content c w ok := by
  obtain ⟨ds, lost, h1, h2, h3, h4⟩ := h
  rw [List.append_nil] at h3
  exact ⟨ds, [], by simp [h1], h2, ⟨lost, h3⟩, .inl rfl, fun _ => ⟨rfl, fun hc => by rw [← h3, h4 hc, List.append_nil]⟩⟩

theorem Going.prefix {content c w left} (h : Going content c w left) : ∃ ds, w = ds.map .sendData ∧ Pieces ds ∧ ds.flatten <+: content := by
  obtain ⟨ds, lost, h1, h2, h3, _⟩ := h
  exact ⟨ds, h1, h2, ⟨lost ++ left, by rw [← h3]; simp⟩⟩

theorem Going.closedOver {content c w left} (h : Going content c w left) (hc : c.closed = true) (ok) : Over content c w ok := by
  obtain ⟨ds, h1, h2, h3⟩ := h.prefix
  exact ⟨ds, [], by simp [h1], h2, h3, .inl rfl, fun _ => ⟨rfl, fun h => by rw [hc] at h; exact absurd h (by simp)⟩⟩

theorem Pieces.append {ds d} (h : Pieces ds) (h1 : d ≠ []) (h2 : d.length ≤ Services.chunkSize) : Pieces (ds ++ [d]) := by
  intro x hx
  rcases List.mem_append.1 hx with hx | hx
  · exact h x hx
  · simp at hx; subst hx; exact ⟨h1, h2⟩

theorem wire_nil (n) : wire n [] = [] := rfl

/-- One statement of the thread. -/
theorem thread_inv {n content report s fail c w ok} (hr : ∀ f, (report f).length ≤ maxSize) (hs : Has n s.sys c) (h : Inv content c w ok s.pc) :
    ∃ c', Has n (fileThread n content report s fail).1.sys c' ∧ c'.closed = c.closed ∧
      Inv content c' (w ++ wire n (fileThread n content report s fail).2) (ok && fail.isNone) (fileThread n content report s fail).1.pc := by
  have hclosed := isClosed_has hs
  have hchunk : ∀ rest : Bytes, rest.isEmpty = false → rest.take Services.chunkSize ≠ [] ∧ (rest.take Services.chunkSize).length ≤ Services.chunkSize := by
    intro rest hrest
    cases rest with
    | nil => simp at hrest
    | cons a r => exact ⟨by simp [Services.chunkSize], List.length_take_le _ _⟩
  unfold fileThread
  cases hpc : s.pc with
  | opening =>
    rw [hpc] at h
    cases fail with
    | some f => exact ⟨c, hs, rfl, h.1, by simp, [], by simp [wire_nil, h.2], by simp [Pieces], by simp⟩
    | none => exact ⟨c, hs, rfl, h.1, [], [], by simp [wire_nil, h.2], by simp [Pieces], by simp, fun _ => rfl⟩
  | reading rest =>
    rw [hpc] at h
    cases fail with
    | some f =>
      obtain ⟨ds, h1, h2, h3⟩ := h.2.prefix
      exact ⟨c, hs, rfl, h.1, by simp, ds, by simp [wire_nil, h1], h2, h3⟩
    | none =>
      simp only [Option.isNone_none, Bool.and_true]
      split
      · rename_i he
        have he : rest = [] := by simpa using he
        subst he
        exact ⟨c, hs, rfl, h.1, by simpa [wire_nil] using h.2.over ok⟩
      · rename_i he
        have := hchunk rest (by simpa using he)
        refine ⟨c, hs, rfl, h.1, this.1, this.2, ?_⟩
        rw [List.take_append_drop]
        simpa [wire_nil] using h.2
  | looking chunk rest =>
    rw [hpc] at h
    simp only [hclosed]
    split
    · rename_i hc
      exact ⟨c, hs, rfl, h.1, by simpa [wire_nil] using h.2.2.2.closedOver hc _⟩
    · exact ⟨c, hs, rfl, h.1, h.2.1, h.2.2.1, by simpa [wire_nil] using h.2.2.2⟩
  | writing chunk rest =>
    rw [hpc] at h
    cases fail with
    | some f =>
      obtain ⟨ds, h1, h2, h3⟩ := h.2.2.2.prefix
      exact ⟨c, hs, rfl, h.1, by simp, ds, by simp [wire_nil, h1], h2, h3⟩
    | none =>
      simp only [Option.isNone_none, Bool.and_true, hclosed]
      split
      · rename_i hc
        refine ⟨c, hs, rfl, h.1, ?_⟩
        obtain ⟨ds, lost, h1, h2, h3, _⟩ := h.2.2.2
        exact ⟨ds, lost ++ chunk, by simp [wire_nil, h1], h2, by rw [← h3]; simp, fun h => by rw [hc] at h; exact absurd h (by simp)⟩
      · rename_i hc
        obtain ⟨⟨p1, p2, p3⟩, h2, h3, h4⟩ := h
        have hst : Channel.step c (.beginWrite chunk) = ({ c with pendingWrites := [chunk] }, []) := by simp [Channel.step, hc, p1]
        have := use_has (.beginWrite chunk) hs rfl (by rw [hst]; simp)
        rw [hst] at this
        refine ⟨_, this.1, rfl, chunk, rfl, p2, p3, h2, h3, ?_⟩
        simp only [this.2, List.filter_nil, List.append_nil]
        obtain ⟨ds, lost, g1, g2, g3, g4⟩ := h4
        rw [g4 (by simpa using hc), List.append_nil] at g3
        exact ⟨ds, g1, g2, g3⟩
  | sending rest =>
    rw [hpc] at h
    obtain ⟨chunk, p1, p2, p3, h2, h3, ds, g1, g2, g3⟩ := h
    have hst : Channel.step c (.finishWrite 0) = ({ c with pendingWrites := [] }, [.sendData chunk]) := by simp [Channel.step, p1]
    have := use_has (.finishWrite 0) hs rfl (by
      rw [hst]; intro o ho d hd
      simp at ho; subst ho
      simp at hd; subst hd
      exact Nat.le_trans h3 (by decide))
    rw [hst] at this
    refine ⟨_, this.1, rfl, ⟨rfl, p2, p3⟩, ?_⟩
    exact ⟨ds ++ [chunk], [], by simp [g1, this.2, Channel.isSend], g2.append h2 h3, by rw [← g3]; simp, fun _ => rfl⟩
  | failed f =>
    rw [hpc] at h
    obtain ⟨h1, rfl, ds, h2, h3, h4⟩ := h
    have hover : Over content c (w ++ wire n []) (false && fail.isNone) :=
      ⟨ds, [], by simp [wire_nil, h2], h3, h4, .inl rfl, by simp⟩
    have hrep : ∀ f, f ≠ .webSocket → ∃ c', Has n
        (if s.sys.isClosed n then (({ s with pc := .closing } : FileSys), ([] : List Out)) else
          (({ sys := (s.sys.use n (.beginControl (report f))).1, pc := .reporting } : FileSys), (s.sys.use n (.beginControl (report f))).2)).1.sys c' ∧
        c'.closed = c.closed ∧ Inv content c' (w ++ wire n
        (if s.sys.isClosed n then (({ s with pc := .closing } : FileSys), ([] : List Out)) else
          (({ sys := (s.sys.use n (.beginControl (report f))).1, pc := .reporting } : FileSys), (s.sys.use n (.beginControl (report f))).2)).2)
        (false && fail.isNone)
        (if s.sys.isClosed n then (({ s with pc := .closing } : FileSys), ([] : List Out)) else
          (({ sys := (s.sys.use n (.beginControl (report f))).1, pc := .reporting } : FileSys), (s.sys.use n (.beginControl (report f))).2)).1.pc := by
      intro f _
      rw [hclosed]
      by_cases hc : c.closed = true
      · simp only [hc, if_true]
        exact ⟨c, hs, hc, h1, hover⟩
      · obtain ⟨p1, p2, p3⟩ := h1
        have hst : Channel.step c (.beginControl (report f)) = ({ c with pendingControl := [report f] }, []) := by simp [Channel.step, hc, p2]
        have := use_has (.beginControl (report f)) hs rfl (by rw [hst]; simp)
        rw [hst] at this
        simp only [hc, Bool.false_eq_true, if_false]
        refine ⟨_, this.1, by simpa using hc, by simp, ⟨report f, p1, rfl, p3, hr f⟩, ds, ?_, h3, h4⟩
        simp [this.2, h2]
    cases f with
    | webSocket => exact ⟨c, hs, rfl, h1, hover⟩
    | io => exact hrep .io (by simp)
    | other => exact hrep .other (by simp)
  | reporting =>
    rw [hpc] at h
    obtain ⟨rfl, ⟨r, p1, p2, p3, p4⟩, ds, h2, h3, h4⟩ := h
    have hst : Channel.step c (.finishControl 0) = ({ c with pendingControl := [] }, [.sendControl r]) := by simp [Channel.step, p2]
    have := use_has (.finishControl 0) hs rfl (by
      rw [hst]; intro o ho d hd
      simp at ho; subst ho
      simp at hd; subst hd
      exact p4)
    rw [hst] at this
    refine ⟨_, this.1, rfl, ⟨p1, rfl, p3⟩, ds, [.sendControl r], ?_, h3, h4, .inr ⟨r, rfl⟩, by simp⟩
    simp [this.2, h2, Channel.isSend]
  | closing =>
    rw [hpc] at h
    obtain ⟨h1, h2⟩ := h
    have hover : Over content c w (ok && fail.isNone) := by
      obtain ⟨ds, ctl, g1, g2, g3, g4, g5⟩ := h2
      exact ⟨ds, ctl, g1, g2, g3, g4, fun h => g5 (by simp at h; exact h.1)⟩
    simp only [hclosed]
    split
    · rename_i hc
      exact ⟨c, hs, rfl, h1, w, [], by simp [wire_nil], .inl rfl, hover, fun h => by rw [hc] at h; exact absurd h (by simp)⟩
    · rename_i hc
      obtain ⟨p1, p2, p3⟩ := h1
      have hst : Channel.step c .beginClose = ({ c with pendingCloses := 1 }, []) := by simp [Channel.step, hc, p3]
      have := use_has .beginClose hs rfl (by rw [hst]; simp)
      rw [hst] at this
      refine ⟨_, this.1, rfl, ⟨p1, p2, rfl⟩, ?_⟩
      simp only [this.2, List.filter_nil, List.append_nil]
      exact hover.mono id
  | requesting =>
    rw [hpc] at h
    obtain ⟨⟨p1, p2, p3⟩, h2⟩ := h
    have hst : Channel.step c .finishClose = ({ c with pendingCloses := 0 }, [.requestClose]) := by simp [Channel.step, p3]
    have := use_has .finishClose hs rfl (by
      rw [hst]; intro o ho d hd
      simp at ho; subst ho
      simp at hd)
    rw [hst] at this
    refine ⟨_, this.1, rfl, ⟨p1, p2, rfl⟩, w, [.requestClose], by simp [this.2, Channel.isSend], .inr rfl, ?_, fun _ => rfl⟩
    obtain ⟨ds, ctl, g1, g2, g3, g4, g5⟩ := h2
    exact ⟨ds, ctl, g1, g2, g3, g4, fun h => g5 (by simp at h; exact h.1)⟩
  | ended =>
    rw [hpc] at h
    obtain ⟨h1, w', cl, h2, h3, ⟨ds, ctl, g1, g2, g3, g4, g5⟩, h5⟩ := h
    exact ⟨c, hs, rfl, by simpa [hpc] using ⟨h1, w', cl, by simp [wire_nil, h2], h3, ⟨ds, ctl, g1, g2, g3, g4, fun h => g5 (by simp at h; exact h.1)⟩, h5⟩⟩

theorem sched_inv {n content report s c w ok} (ms : List FileMove) (hr : ∀ f, (report f).length ≤ maxSize) (hs : Has n s.sys c)
    (h : Inv content c w ok s.pc) (hf : ∀ m ∈ ms, m.Fine n) (hz : Sized (fileSched n content report s ms).2) :
    ∃ c', Has n (fileSched n content report s ms).1.sys c' ∧ ((∀ m ∈ ms, m.Keeps n) → c'.closed = c.closed) ∧
      Inv content c' (w ++ wire n (fileSched n content report s ms).2) (ok && ms.all FileMove.ok) (fileSched n content report s ms).1.pc := by
  induction ms generalizing s c w ok with
  | nil => exact ⟨c, hs, fun _ => rfl, by simpa [fileSched, wire_nil] using h⟩
  | cons m ms ih =>
    simp only [fileSched, sized_append] at hz
    have key : ∃ c', Has n (fileMove n content report s m).1.sys c' ∧ (m.Keeps n → c'.closed = c.closed) ∧
        Inv content c' (w ++ wire n (fileMove n content report s m).2) (ok && m.ok) (fileMove n content report s m).1.pc := by
      cases m with
      | client env e =>
        have hfe : Foreign n e := hf (.client env e) (by simp)
        obtain ⟨c', h1, h2, _, h3, h4⟩ := event_has (env := env) hs hfe
        have hw : wire n (Sys.event n env s.sys e).2 = [] := step_own_none env s.sys.client e n hfe.1 hz.1
        refine ⟨c', h1, h4, ?_⟩
        simp only [fileMove, hw, List.append_nil, FileMove.ok, Bool.and_true]
        exact h.mono h2 h3
      | thread fail =>
        obtain ⟨c', h1, h2, h3⟩ := thread_inv (report := report) (fail := fail) hr hs h
        exact ⟨c', h1, fun _ => h2, h3⟩
    obtain ⟨c', k1, k2, k3⟩ := key
    obtain ⟨c'', h1, h2, h3⟩ := ih k1 k3 (fun m' hm' => hf m' (by simp [hm'])) hz.2
    refine ⟨c'', h1, fun hk => (h2 (fun m' hm' => hk m' (by simp [hm']))).trans (k2 (hk m (by simp))), ?_⟩
    simp only [fileSched, wire_append, List.all_cons]
    rw [← List.append_assoc, ← Bool.and_assoc]
    exact h3

/-! ### A channel that stays open -/

/-- The channel is in the table, open, and the client works. -/
structure Live (n : Int) (s : Sys) (c : Channel.Ch) : Prop where
  table : lookup n s.client.channels = some c
  here : s.dropped = none
  nodup : (keys s.client.channels).Nodup
  works : s.client.hung = false
  opened : c.closed = false

theorem Live.has {n s c} (h : Live n s c) : Has n s c := ⟨by simp [Sys.obj, h.here, h.table], h.nodup⟩

/-- An event that does not end the channel. -/
theorem event_live {n env s e c} (hs : Live n s c) (hf : Foreign n e) (hk : ¬ Ends n e) (hh : ∀ data, e = .binary data → ¬ Hangs data) :
    Live n (s.event n env e).1 (Channel.run c (opsFor n e)).1 ∧ SamePending c (Channel.run c (opsFor n e)).1 ∧
    (Channel.run c (opsFor n e)).1.dataCb = c.dataCb ∧
    seenBy n (s.event n env e).2 = local' (Channel.run c (opsFor n e)).2 := by
  have h1 := step_channel env s.client e n c hs.works hs.nodup hs.table hf.2 (fun data hd h => hk (.inr ⟨data, hd, h⟩))
  have h2 : Channel.run c (opsFor n e) = (c, []) ∨ ∃ op, Channel.run c (opsFor n e) = Channel.step c op ∧ serviceOp op = false ∧ op ≠ .onClose := by
    rcases foreign_ops hf with h | ⟨op, h, hop, hd⟩
    · rw [h]; exact .inl rfl
    · rw [h]; exact .inr ⟨op, by simp [Channel.run], hop, fun h => hk (.inl (hd h))⟩
  have h3 : SamePending c (Channel.run c (opsFor n e)).1 ∧ (Channel.run c (opsFor n e)).1.closed = c.closed ∧
      (Channel.run c (opsFor n e)).1.dataCb = c.dataCb := by
    rcases h2 with h | ⟨op, h, hop, hne⟩
    · rw [h]; exact ⟨.refl _, rfl, rfl⟩
    · rw [h]
      have := receive_step c op hop
      exact ⟨this.1, by rw [this.2.1]; simp [hne], this.2.2⟩
  refine ⟨⟨h1.1, ?_, step_keys _ _ _ hs.nodup hf.2, ?_, by rw [h3.2.1]; exact hs.opened⟩, h3.1, h3.2.2, h1.2⟩
  · simp [Sys.event, hs.here, hs.table, h1.1]
  · simp only [Sys.event]; rw [step_hung _ _ _ hh]; exact hs.works

theorem use_live {n s c} (op : Channel.Op) (hs : Live n s c) (hop : serviceOp op = true) (ho : ∀ o ∈ (Channel.step c op).2, OutSized o)
    (hc : (Channel.step c op).1.closed = false) :
    Live n (s.use n op).1 (Channel.step c op).1 ∧ wire n (s.use n op).2 = (Channel.step c op).2.filter Channel.isSend := by
  have h := use_has op hs.has hop ho
  have hstep : step {} s.client (.chanOp n op) =
      ({ s.client with channels := update n (Channel.step c op).1 s.client.channels }, (Channel.step c op).2.flatMap (chanOut n)) := by
    simp [step, Ev.isSocket, hop, hs.table]
  refine ⟨⟨?_, ?_, h.1.nodup, ?_, hc⟩, h.2⟩
  · simp [Sys.use, hs.here, hstep, lookup_update, hs.table]
  · simp [Sys.use, hs.here]
  · simp only [Sys.use, hs.here, hstep]; exact hs.works

theorem serving_live {n cb s} (h : Serving n cb s) : ∃ c, Live n s c ∧ Idle c ∧ c.dataCb = some cb := by
  obtain ⟨h1, h2, h3, c, h4, h5, h6, h7⟩ := h
  exact ⟨c, ⟨h4, h1, h3, h2, h5⟩, h6, h7⟩

theorem Harmless.foreign {n e} (h : Harmless n e) : Foreign n e :=
  ⟨by rintro op rfl; simp [Harmless, Ev.isSocket] at h, fun data hd => (h.2.2 data hd).2⟩

theorem Elsewhere.foreign {n e} (h : Elsewhere n e) : Foreign n e :=
  ⟨h.2, by rintro data rfl; simp [Elsewhere, Ev.isSocket] at h⟩

theorem Elsewhere.keeps {n e} (h : Elsewhere n e) : ¬ Ends n e := by
  rintro (rfl | ⟨data, rfl, _⟩) <;> simp [Elsewhere, Ev.isSocket] at h

theorem Elsewhere.ops {n e} (h : Elsewhere n e) : opsFor n e = [] := by
  cases e <;> simp [Elsewhere, Ev.isSocket] at h <;> simp [opsFor]
  exact fun h1 => absurd h1 h

/-! ### What the server sent -/

theorem routed_size {n env e d} (hl : ∀ data, e = .binary data → data.length ≤ maxSize) (h : d ∈ routed n [(env, e)]) : d.length ≤ maxSize := by
  simp only [routed, List.filterMap_cons, List.filterMap_nil] at h
  cases e with
  | binary data =>
    simp only at h
    cases hd : decoded data with
    | nil => simp [hd] at h
    | cons x xs =>
      have hw : Bencode.decode data = .ok (.list (x :: xs)) := by
        simp only [decoded] at hd
        split at hd
        · rename_i ys hy; rw [hy, hd]
        · exact absurd hd (by simp)
      have := decode_weight hw
      rw [hd] at h
      split at h
      · exact absurd h (by simp)
      · rename_i d' hm
        simp at h
        subst h
        split at hm
        · rename_i m d'' _ heq
          split at hm
          · simp only [Option.some.injEq] at hm
            subst hm
            rw [heq] at this
            simp only [PyVal.weight, weightList] at this
            have := hl data rfl
            omega
          · exact (nomatch hm)
        · exact (nomatch hm)
  | _ => simp at h

theorem routed_cons (n x xs) : routed n (x :: xs) = routed n [x] ++ routed n xs := by
  show routed n ([x] ++ xs) = _
  simp only [routed, List.filterMap_append]

/-- The operation on the channel and the data routed. -/
theorem routed_ops {n env e} (hf : Foreign n e) (hk : ¬ Ends n e) :
    (∃ d, opsFor n e = [.data d] ∧ routed n [(env, e)] = [d]) ∨ (∃ d, opsFor n e = [.control d] ∧ routed n [(env, e)] = []) ∨
    (opsFor n e = [] ∧ routed n [(env, e)] = []) := by
  cases e with
  | binary data =>
    simp only [opsFor, routed, List.filterMap_cons, List.filterMap_nil]
    split
    · split
      · exact .inl ⟨_, rfl, by simp_all⟩
      · exact .inr (.inr ⟨rfl, by simp_all⟩)
    · split
      · exact .inr (.inl ⟨_, rfl, by simp_all⟩)
      · exact .inr (.inr ⟨rfl, by simp_all⟩)
    · rename_i h6 _
      refine .inr (.inr ⟨rfl, ?_⟩)
      split
      · rfl
      · rename_i d hm
        split at hm
        · rename_i m d' r heq; exact absurd heq (h6 m d' r)
        · exact (nomatch hm)
  | disconnected => exact absurd (.inl rfl) hk
  | chanOp m op =>
    have hm : m ≠ n := by rintro rfl; exact hf.1 op rfl
    exact .inr (.inr ⟨by simp [opsFor, hm], rfl⟩)
  | _ => exact .inr (.inr ⟨rfl, rfl⟩)

theorem called_seen (n cb outs) : called n cb outs = (seenBy n outs).findSome? (fun | .dataCall c d => if c = cb then some d else none | _ => none) := by
  induction outs with
  | nil => rfl
  | cons o outs ih =>
    cases o with
    | chan m x =>
      by_cases hm : m = n
      · cases x with
        | dataCall c d => by_cases hc : c = cb <;> simp [called, seenBy, hm, hc, ih]
        | _ => simp [called, seenBy, hm, ih]
      · cases x with
        | dataCall c d => simp [called, seenBy, hm, ih]
        | _ => simp [called, seenBy, hm, ih]
    | _ => simp [called, seenBy, ih]

theorem step_data {c : Channel.Ch} {cb d} (hc : c.closed = false) (hcb : c.dataCb = some cb) : Channel.step c (.data d) = (c, [.dataCall cb d]) := by
  simp [Channel.step, hc, hcb]

theorem control_called (c : Channel.Ch) (d : Bytes) : (local' (Channel.step c (.control d)).2).findSome?
    (fun | .dataCall c d => if c = cb then some d else none | _ => none) = none := by
  simp only [Channel.step]
  split
  · rfl
  · split <;> simp [local', Channel.isSend]

/-! ### Echo service -/

/-- `all` is what the server has sent so far, `w` what it has received. -/
def EInv (c : Channel.Ch) (w : List Channel.Out) (all : List Bytes) : Option (Option Bytes) → Prop
  | none => c.pendingWrites = [] ∧ w = all.map .sendData
  | some (some d) => c.pendingWrites = [] ∧ d.length ≤ maxSize ∧ w ++ [.sendData d] = all.map .sendData
  | some none => ∃ d, c.pendingWrites = [d] ∧ d.length ≤ maxSize ∧ w ++ [.sendData d] = all.map .sendData

theorem EInv.same {c c' w all p} (h : EInv c w all p) (hs : SamePending c c') : EInv c' w all p := by
  cases p with
  | none => exact ⟨by rw [hs.1]; exact h.1, h.2⟩
  | some p =>
    cases p with
    | none => obtain ⟨d, h1, h2⟩ := h; exact ⟨d, by rw [hs.1, h1], h2⟩
    | some d => exact ⟨by rw [hs.1]; exact h.1, h.2⟩

theorem echo_move {n cb s c w all} (m : EchoMove) (hs : Live n s.sys c) (hcb : c.dataCb = some cb) (h : EInv c w all s.callback)
    (hin : ∀ x ∈ s.inbox, Harmless n x.2) (hm : m.Fine n) (hz : Sized (echoMove n cb s m).2) :
    ∃ c' new, Live n (echoMove n cb s m).1.sys c' ∧ c'.dataCb = some cb ∧ routed n s.inbox = new ++ routed n (echoMove n cb s m).1.inbox ∧
      EInv c' (w ++ wire n (echoMove n cb s m).2) (all ++ new) (echoMove n cb s m).1.callback ∧
      (∀ x ∈ (echoMove n cb s m).1.inbox, x ∈ s.inbox) := by
  cases m with
  | other env e =>
    have he : Elsewhere n e := hm
    obtain ⟨h1, h2, h3, _⟩ := event_live (env := env) hs he.foreign he.keeps (by rintro data rfl; simp [Elsewhere, Ev.isSocket] at he)
    have hw : wire n (Sys.event n env s.sys e).2 = [] := step_own_none env s.sys.client e n he.2 hz
    refine ⟨_, [], h1, h3.trans hcb, by simp [echoMove], ?_, fun x hx => hx⟩
    simp only [echoMove, hw, List.append_nil]
    exact h.same h2
  | receive =>
    simp only [echoMove] at hz ⊢
    cases hcall : s.callback with
    | none =>
      rw [hcall] at h hz
      cases hi : s.inbox with
      | nil => exact ⟨c, [], hs, hcb, by simp [hi], by simpa [hcall, wire_nil] using h, by simp [hi]⟩
      | cons x rest =>
        obtain ⟨env, e⟩ := x
        rw [hi] at hin hz
        have he : Harmless n e := hin (env, e) (by simp)
        have hf := he.foreign
        obtain ⟨h1, h2, h3, h4⟩ := event_live (env := env) hs hf he.2.1 (fun data hd => (he.2.2 data hd).1)
        have hw : wire n (Sys.event n env s.sys e).2 = [] := step_own_none env s.sys.client e n hf.1 hz
        refine ⟨_, routed n [(env, e)], h1, h3.trans hcb, routed_cons _ _ _, ?_, fun x hx => by simp; exact .inr hx⟩
        simp only [hw, List.append_nil, called_seen, h4]
        rcases routed_ops (env := env) hf he.2.1 with ⟨d, ho, hr⟩ | ⟨d, ho, hr⟩ | ⟨ho, hr⟩
        · rw [ho] at h2 ⊢
          rw [hr]
          have hsize := routed_size (n := n) (env := env) (d := d) (fun data hd => (he.2.2 data hd).2) (by simp [hr])
          simp only [Channel.run, step_data hs.opened hcb, List.append_nil, local', Channel.isSend]
          simp
          exact ⟨h.1, hsize, by rw [h.2]; simp⟩
        · rw [ho] at h2 ⊢
          rw [hr]
          simp only [Channel.run, List.append_nil] at h2 ⊢
          rw [control_called]
          exact EInv.same (p := none) (by simpa using h) h2
        · rw [ho] at h2 ⊢
          rw [hr]
          simp only [Channel.run, List.append_nil] at h2 ⊢
          exact h
    | some p =>
      rw [hcall] at h
      cases p with
      | some d =>
        obtain ⟨h1, h2, h3⟩ := h
        simp only [isClosed_has hs.has, hs.opened, Bool.false_eq_true, if_false]
        have hst : Channel.step c (.beginWrite d) = ({ c with pendingWrites := [d] }, []) := by simp [Channel.step, hs.opened, h1]
        have := use_live (.beginWrite d) hs rfl (by rw [hst]; simp) (by rw [hst]; exact hs.opened)
        rw [hst] at this
        refine ⟨_, [], this.1, hcb, by simp, ?_, fun x hx => hx⟩
        simp only [this.2, List.filter_nil, List.append_nil]
        exact ⟨d, rfl, h2, h3⟩
      | none =>
        obtain ⟨d, h1, h2, h3⟩ := h
        have hst : Channel.step c (.finishWrite 0) = ({ c with pendingWrites := [] }, [.sendData d]) := by simp [Channel.step, h1]
        have := use_live (.finishWrite 0) hs rfl (by
          rw [hst]; intro o ho d' hd
          simp at ho; subst ho
          simp at hd; subst hd
          exact h2) (by rw [hst]; exact hs.opened)
        rw [hst] at this
        refine ⟨_, [], this.1, hcb, by simp, ?_, fun x hx => hx⟩
        simp only [this.2, List.append_nil]
        exact ⟨rfl, h3⟩

theorem echo_sched {n cb s c w all} (ms : List EchoMove) (hs : Live n s.sys c) (hcb : c.dataCb = some cb) (h : EInv c w all s.callback)
    (hin : ∀ x ∈ s.inbox, Harmless n x.2) (hm : ∀ m ∈ ms, m.Fine n) (hz : Sized (echoSched n cb s ms).2) :
    ∃ c' new, EInv c' (w ++ wire n (echoSched n cb s ms).2) (all ++ new) (echoSched n cb s ms).1.callback ∧
      routed n s.inbox = new ++ routed n (echoSched n cb s ms).1.inbox := by
  induction ms generalizing s c w all with
  | nil => exact ⟨c, [], by simpa [echoSched, wire_nil] using h, by simp [echoSched]⟩
  | cons m ms ih =>
    simp only [echoSched, sized_append] at hz
    obtain ⟨c', new, k1, k2, k3, k4, k5⟩ := echo_move m hs hcb h hin (hm m (by simp)) hz.1
    obtain ⟨c'', new', g1, g2⟩ := ih k1 k2 k4 (fun x hx => hin x (k5 x hx)) (fun m' hm' => hm m' (by simp [hm'])) hz.2
    refine ⟨c'', new ++ new', ?_, ?_⟩
    · simp only [echoSched, wire_append]
      rw [← List.append_assoc, ← List.append_assoc]; exact g1
    · simp only [echoSched]; rw [k3, g2, List.append_assoc]

/-- How much the receive thread has still to do. -/
def echoLeft (s : EchoSys) : Nat := 3 * s.inbox.length + (match s.callback with | none => 0 | some (some _) => 2 | some none => 1)

theorem echo_progress (n cb s) : echoLeft (echoMove n cb s .receive).1 ≤ echoLeft s - 1 := by
  simp only [echoMove]
  cases hc : s.callback with
  | none =>
    cases hi : s.inbox with
    | nil => simp [echoLeft, hc, hi]
    | cons x rest =>
      obtain ⟨env, e⟩ := x
      simp only [echoLeft, hc, hi, List.length_cons]
      cases called n cb (s.sys.event n env e).2 <;> simp <;> omega
  | some p =>
    cases p with
    | none => simp [echoLeft, hc]
    | some d => simp only []; split <;> simp [echoLeft, hc] <;> omega

theorem echo_other (n cb s env e) : echoLeft (echoMove n cb s (.other env e)).1 = echoLeft s := rfl

theorem echo_ends (n cb s) (ms : List EchoMove) : echoLeft (echoSched n cb s ms).1 ≤ echoLeft s - ms.countP EchoMove.isReceive := by
  induction ms generalizing s with
  | nil => simp [echoSched]
  | cons m ms ih =>
    have h1 := ih (echoMove n cb s m).1
    cases m with
    | receive =>
      have h2 := echo_progress n cb s
      simp only [echoSched, List.countP_cons, EchoMove.isReceive, if_true]
      omega
    | other env e =>
      rw [echo_other] at h1
      simpa [echoSched, List.countP_cons, EchoMove.isReceive] using h1

/-! ### The end of the file service -/

/-- How many moves the thread needs at most. -/
def fileLeft (content : Bytes) : FilePc → Nat
  | .opening => 4 * content.length + 6
  | .reading rest => 4 * rest.length + 5
  | .looking _ rest => 4 * rest.length + 8
  | .writing _ rest => 4 * rest.length + 7
  | .sending rest => 4 * rest.length + 6
  | .failed _ => 4
  | .reporting => 3
  | .closing => 2
  | .requesting => 1
  | .ended => 0

theorem file_progress (n content report s fail) : fileLeft content (fileThread n content report s fail).1.pc ≤ fileLeft content s.pc - 1 := by
  unfold fileThread
  cases hpc : s.pc with
  | opening => cases fail <;> simp [fileLeft]
  | reading rest =>
    cases fail with
    | some f => simp [fileLeft]
    | none =>
      simp only []
      split
      · simp [fileLeft]
      · rename_i he
        have : 0 < rest.length := by cases rest <;> simp_all
        have h2 : 0 < Services.chunkSize := by decide
        simp only [fileLeft, List.length_drop]
        omega
  | looking chunk rest => simp only []; split <;> simp [fileLeft]
  | writing chunk rest =>
    cases fail with
    | some f => simp [fileLeft]
    | none => simp only []; split <;> simp [fileLeft]
  | sending rest => simp [fileLeft]
  | failed f =>
    cases f with
    | webSocket => simp [fileLeft]
    | io => simp only []; split <;> simp [fileLeft]
    | other => simp only []; split <;> simp [fileLeft]
  | reporting => simp [fileLeft]
  | closing => simp only []; split <;> simp [fileLeft]
  | requesting => simp [fileLeft]
  | ended => simp [fileLeft, hpc]

theorem file_ends (n content report s) (ms : List FileMove) :
    fileLeft content (fileSched n content report s ms).1.pc ≤ fileLeft content s.pc - ms.countP FileMove.isThread := by
  induction ms generalizing s with
  | nil => simp [fileSched]
  | cons m ms ih =>
    have h1 := ih (fileMove n content report s m).1
    cases m with
    | thread fail =>
      have h2 := file_progress n content report s fail
      simp only [fileSched, List.countP_cons, FileMove.isThread, if_true]
      simp only [fileMove] at h1 ⊢
      omega
    | client env e =>
      simpa [fileSched, fileMove, List.countP_cons, FileMove.isThread] using h1

/-! ### Forwarded connection -/

theorem fwdReact_seen (accept n cb ccb w outs) : fwdReact accept n cb ccb w outs =
    (seenBy n outs).foldl (fun w o => match o with
      | .dataCall c d => if c = cb then PortForward.wstep accept w (.data d) else w
      | .closeCall c => if c = ccb then PortForward.wstep accept w .onClose else w
      | _ => w) w := by
  induction outs generalizing w with
  | nil => rfl
  | cons o outs ih =>
    cases o with
    | chan m x =>
      by_cases hm : m = n
      · cases x <;> simp [fwdReact, seenBy, hm, ih]
      · cases x <;> simp [fwdReact, seenBy, hm, ih]
    | _ => simp [fwdReact, seenBy, ih]

/-- `got` is what the local socket has given, `w` what the server has received. -/
def FInv (c : Channel.Ch) (w : List Channel.Out) (got : List Bytes) : FwdPc → Prop
  | .loop => Idle c ∧ w = got.map .sendData
  | .writing d => Idle c ∧ d.length ≤ maxSize ∧ w ++ [.sendData d] = got.map .sendData
  | .sending => ∃ d, c.pendingWrites = [d] ∧ c.pendingControl = [] ∧ c.pendingCloses = 0 ∧ d.length ≤ maxSize ∧ w ++ [.sendData d] = got.map .sendData
  | .closing => Idle c ∧ w = got.map .sendData
  | .requesting => c.pendingWrites = [] ∧ c.pendingControl = [] ∧ c.pendingCloses = 1 ∧ w = got.map .sendData
  | .ended => Idle c ∧ w = got.map .sendData ++ [.requestClose]

theorem FInv.same {c c' w got pc} (h : FInv c w got pc) (hs : SamePending c c') : FInv c' w got pc := by
  have hs' := hs
  obtain ⟨g1, g2, g3⟩ := hs'
  cases pc with
  | loop => exact ⟨h.1.same hs, h.2⟩
  | writing d => exact ⟨h.1.same hs, h.2⟩
  | sending => obtain ⟨d, h1, h2, h3, h4⟩ := h; exact ⟨d, by rw [g1, h1], by rw [g2, h2], by rw [g3, h3], h4⟩
  | closing => exact ⟨h.1.same hs, h.2⟩
  | requesting => obtain ⟨h1, h2, h3, h4⟩ := h; exact ⟨by rw [g1, h1], by rw [g2, h2], by rw [g3, h3], h4⟩
  | ended => exact ⟨h.1.same hs, h.2⟩

/-- What has been routed is with the local socket or waits, when the socket accepts everything. -/
def DInv (w : PortForward.WSide) (all : List Bytes) : Prop := w.closed = false ∧ w.sent ++ w.buffer.flatten = all.flatten

theorem wside_step {accept : Nat → Option Nat} (h : ∀ n, accept n = none) {w all} (hd : DInv w all) (op : PortForward.WOp) (ho : op ≠ .onClose) :
    DInv (PortForward.wstep accept w op) (all ++ (match op with | .data d => [d] | _ => [])) := by
  obtain ⟨h1, h2, _⟩ := PortForward.wstep_ok accept h w op
  refine ⟨by rw [h2, hd.1]; simp [ho], ?_⟩
  rw [h1, hd.2, hd.1]
  cases op <;> simp [PortForward.routed]

/-- The side towards the server. -/
theorem fwd_up {accept n cb ccb s c w got} (m : FwdMove) (hs : Live n s.sys c) (h : FInv c w got s.pc)
    (hp : ∀ d ∈ s.incoming, d.length ≤ maxSize) (hin : ∀ x ∈ s.inbox, Harmless n x.2) (hm : m.Fine n)
    (hz : Sized (fwdMove accept n cb ccb s m).2) :
    ∃ c' new, Live n (fwdMove accept n cb ccb s m).1.sys c' ∧ c'.dataCb = c.dataCb ∧
      s.incoming = new ++ (fwdMove accept n cb ccb s m).1.incoming ∧
      FInv c' (w ++ wire n (fwdMove accept n cb ccb s m).2) (got ++ new) (fwdMove accept n cb ccb s m).1.pc ∧
      (∀ x ∈ (fwdMove accept n cb ccb s m).1.inbox, x ∈ s.inbox) := by
  have stay : ∀ s' : FwdSys, s'.sys = s.sys → s'.pc = s.pc → s'.incoming = s.incoming → s'.inbox = s.inbox →
      ∃ c' new, Live n s'.sys c' ∧ c'.dataCb = c.dataCb ∧ s.incoming = new ++ s'.incoming ∧
      FInv c' (w ++ wire n []) (got ++ new) s'.pc ∧ (∀ x ∈ s'.inbox, x ∈ s.inbox) := by
    intro s' h1 h2 h3 h4
    refine ⟨c, [], by rw [h1]; exact hs, rfl, by rw [h3]; rfl, ?_, by rw [h4]; exact fun x hx => hx⟩
    rw [h2, wire_nil, List.append_nil, List.append_nil]; exact h
  cases m with
  | other env e =>
    have he : Elsewhere n e := hm
    obtain ⟨h1, h2, h3, _⟩ := event_live (env := env) hs he.foreign he.keeps (by rintro data rfl; simp [Elsewhere, Ev.isSocket] at he)
    have hw : wire n (Sys.event n env s.sys e).2 = [] := step_own_none env s.sys.client e n he.2 hz
    refine ⟨_, [], h1, h3, by simp [fwdMove], ?_, fun x hx => hx⟩
    simp only [fwdMove, hw, List.append_nil]
    exact h.same h2
  | receive =>
    cases hi : s.inbox with
    | nil =>
      have := stay s rfl rfl rfl rfl
      simpa only [fwdMove, hi] using this
    | cons x rest =>
      obtain ⟨env, e⟩ := x
      simp only [fwdMove, hi] at hz ⊢
      have he : Harmless n e := hin (env, e) (by simp [hi])
      have hf := he.foreign
      obtain ⟨h1, h2, h3, h4⟩ := event_live (env := env) hs hf he.2.1 (fun data hd => (he.2.2 data hd).1)
      have hw : wire n (Sys.event n env s.sys e).2 = [] := step_own_none env s.sys.client e n hf.1 hz
      refine ⟨_, [], h1, h3, by simp, ?_, fun x hx => by simp; exact .inr hx⟩
      simp only [hw, List.append_nil]
      exact h.same h2
  | setSocket => exact stay _ rfl rfl rfl rfl
  | flush => exact stay _ rfl rfl rfl rfl
  | recv =>
    cases hpc : s.pc with
    | loop =>
      cases hi : s.incoming with
      | nil =>
        have := stay s rfl rfl rfl rfl
        simp only [fwdMove, hpc, hi] at this ⊢
        exact this
      | cons d rest =>
        rw [hpc] at h
        simp only [fwdMove, hpc, hi]
        refine ⟨c, [d], hs, rfl, rfl, ⟨h.1, hp d (by simp [hi]), ?_⟩, fun x hx => hx⟩
        simp [wire_nil, h.2]
    | _ =>
      have := stay s rfl rfl rfl rfl
      simpa only [fwdMove, hpc] using this
  | leave =>
    cases hpc : s.pc with
    | loop =>
      rw [hpc] at h
      simp only [fwdMove, hpc]
      exact ⟨c, [], hs, rfl, by simp, ⟨h.1, by simp [wire_nil, h.2]⟩, fun x hx => hx⟩
    | _ =>
      have := stay s rfl rfl rfl rfl
      simpa only [fwdMove, hpc] using this
  | go =>
    cases hpc : s.pc with
    | loop =>
      have := stay s rfl rfl rfl rfl
      simpa only [fwdMove, hpc] using this
    | ended =>
      have := stay s rfl rfl rfl rfl
      simpa only [fwdMove, hpc] using this
    | writing d =>
      rw [hpc] at h
      obtain ⟨⟨p1, p2, p3⟩, h2, h3⟩ := h
      simp only [fwdMove, hpc, isClosed_has hs.has, hs.opened, Bool.false_eq_true, if_false]
      have hst : Channel.step c (.beginWrite d) = ({ c with pendingWrites := [d] }, []) := by simp [Channel.step, hs.opened, p1]
      have := use_live (.beginWrite d) hs rfl (by rw [hst]; simp) (by rw [hst]; exact hs.opened)
      rw [hst] at this
      refine ⟨_, [], this.1, rfl, by simp, ?_, fun x hx => hx⟩
      simp only [this.2, List.filter_nil, List.append_nil]
      exact ⟨d, rfl, p2, p3, h2, h3⟩
    | sending =>
      rw [hpc] at h
      obtain ⟨d, p1, p2, p3, h2, h3⟩ := h
      simp only [fwdMove, hpc]
      have hst : Channel.step c (.finishWrite 0) = ({ c with pendingWrites := [] }, [.sendData d]) := by simp [Channel.step, p1]
      have := use_live (.finishWrite 0) hs rfl (by
        rw [hst]; intro o ho d' hd
        simp at ho; subst ho
        simp at hd; subst hd
        exact h2) (by rw [hst]; exact hs.opened)
      rw [hst] at this
      refine ⟨_, [], this.1, rfl, by simp, ?_, fun x hx => hx⟩
      simp only [this.2, List.append_nil]
      exact ⟨⟨rfl, p2, p3⟩, h3⟩
    | closing =>
      rw [hpc] at h
      obtain ⟨⟨p1, p2, p3⟩, h2⟩ := h
      simp only [fwdMove, hpc, isClosed_has hs.has, hs.opened, Bool.false_eq_true, if_false]
      have hst : Channel.step c .beginClose = ({ c with pendingCloses := 1 }, []) := by simp [Channel.step, hs.opened, p3]
      have := use_live .beginClose hs rfl (by rw [hst]; simp) (by rw [hst]; exact hs.opened)
      rw [hst] at this
      refine ⟨_, [], this.1, rfl, by simp, ?_, fun x hx => hx⟩
      simp only [this.2, List.filter_nil, List.append_nil]
      exact ⟨p1, p2, rfl, h2⟩
    | requesting =>
      rw [hpc] at h
      obtain ⟨p1, p2, p3, h2⟩ := h
      simp only [fwdMove, hpc]
      have hst : Channel.step c .finishClose = ({ c with pendingCloses := 0 }, [.requestClose]) := by simp [Channel.step, p3]
      have := use_live .finishClose hs rfl (by
        rw [hst]; intro o ho d' hd
        simp at ho; subst ho
        simp at hd) (by rw [hst]; exact hs.opened)
      rw [hst] at this
      refine ⟨_, [], this.1, rfl, by simp, ?_, fun x hx => hx⟩
      simp only [this.2, List.append_nil]
      exact ⟨⟨p1, p2, rfl⟩, by rw [h2]; rfl⟩

/-- The side towards the local socket. -/
theorem fwd_down {accept : Nat → Option Nat} (ha : ∀ n, accept n = none) {n cb ccb s c all} (m : FwdMove) (hs : Live n s.sys c)
    (hcb : c.dataCb = some cb) (h : DInv s.wside all) (hin : ∀ x ∈ s.inbox, Harmless n x.2) :
    ∃ new, routed n s.inbox = new ++ routed n (fwdMove accept n cb ccb s m).1.inbox ∧
      DInv (fwdMove accept n cb ccb s m).1.wside (all ++ new) := by
  have stay : ∀ s' : FwdSys, s'.wside = s.wside → s'.inbox = s.inbox → ∃ new, routed n s.inbox = new ++ routed n s'.inbox ∧ DInv s'.wside (all ++ new) := by
    intro s' h1 h2
    exact ⟨[], by rw [h2]; rfl, by rw [h1, List.append_nil]; exact h⟩
  cases m with
  | other env e => exact stay _ rfl rfl
  | setSocket => exact ⟨[], rfl, wside_step ha h .setSocket (by simp)⟩
  | flush => exact ⟨[], rfl, wside_step ha h .flush (by simp)⟩
  | recv =>
    simp only [fwdMove]
    split <;> exact stay _ rfl rfl
  | leave =>
    simp only [fwdMove]
    split <;> exact stay _ rfl rfl
  | go =>
    simp only [fwdMove]
    split
    · split <;> exact stay _ rfl rfl
    · exact stay _ rfl rfl
    · split <;> exact stay _ rfl rfl
    · exact stay _ rfl rfl
    · exact stay _ rfl rfl
  | receive =>
    cases hi : s.inbox with
    | nil => simp only [fwdMove, hi]; exact ⟨[], rfl, by rw [List.append_nil]; exact h⟩
    | cons x rest =>
      obtain ⟨env, e⟩ := x
      simp only [fwdMove, hi]
      have he : Harmless n e := hin (env, e) (by simp [hi])
      obtain ⟨_, _, _, h4⟩ := event_live (env := env) hs he.foreign he.2.1 (fun data hd => (he.2.2 data hd).1)
      refine ⟨routed n [(env, e)], routed_cons _ _ _, ?_⟩
      rw [fwdReact_seen, h4]
      rcases routed_ops (env := env) he.foreign he.2.1 with ⟨d, ho, hr⟩ | ⟨d, ho, hr⟩ | ⟨ho, hr⟩
      · rw [ho, hr]
        simp only [Channel.run, step_data hs.opened hcb, List.append_nil, local', Channel.isSend]
        simp
        exact wside_step ha h (.data d) (by simp)
      · rw [ho, hr]
        simp only [Channel.run, List.append_nil]
        have : local' (Channel.step c (.control d)).2 = [] ∨ ∃ f, local' (Channel.step c (.control d)).2 = [.ctrlCall f d] := by
          simp only [Channel.step]
          split
          · exact .inl rfl
          · split
            · exact .inr ⟨_, rfl⟩
            · exact .inl rfl
        rcases this with h' | ⟨f, h'⟩ <;> rw [h'] <;> exact h
      · rw [ho, hr, List.append_nil]; exact h

theorem fwd_sched {accept : Nat → Option Nat} {n cb ccb s c w got all} (ms : List FwdMove) (hs : Live n s.sys c)
    (hcb : c.dataCb = some cb) (h : FInv c w got s.pc) (hp : ∀ d ∈ s.incoming, d.length ≤ maxSize)
    (hin : ∀ x ∈ s.inbox, Harmless n x.2) (hm : ∀ m ∈ ms, m.Fine n) (hz : Sized (fwdSched accept n cb ccb s ms).2) :
    ∃ c' new, FInv c' (w ++ wire n (fwdSched accept n cb ccb s ms).2) (got ++ new) (fwdSched accept n cb ccb s ms).1.pc ∧
      s.incoming = new ++ (fwdSched accept n cb ccb s ms).1.incoming ∧
      ((∀ n, accept n = none) → DInv s.wside all → ∃ new', routed n s.inbox = new' ++ routed n (fwdSched accept n cb ccb s ms).1.inbox ∧
        DInv (fwdSched accept n cb ccb s ms).1.wside (all ++ new')) := by
  induction ms generalizing s c w got all with
  | nil => exact ⟨c, [], by simpa [fwdSched, wire_nil] using h, by simp [fwdSched], fun _ hd => ⟨[], by simp [fwdSched], by simpa [fwdSched] using hd⟩⟩
  | cons m ms ih =>
    simp only [fwdSched, sized_append] at hz
    obtain ⟨c', new, k1, k2, k3, k4, k5⟩ := fwd_up (accept := accept) (cb := cb) (ccb := ccb) m hs h hp hin (hm m (by simp)) hz.1
    have hp' : ∀ d ∈ (fwdMove accept n cb ccb s m).1.incoming, d.length ≤ maxSize := fun d hd => hp d (by rw [k3]; simp [hd])
    obtain ⟨c'', new', g1, g2, g3⟩ := ih (all := all ++ (routed n s.inbox).take ((routed n s.inbox).length - (routed n (fwdMove accept n cb ccb s m).1.inbox).length))
      k1 (k2.trans hcb) k4 hp' (fun x hx => hin x (k5 x hx)) (fun m' hm' => hm m' (by simp [hm'])) hz.2
    refine ⟨c'', new ++ new', ?_, ?_, ?_⟩
    · simp only [fwdSched, wire_append]
      rw [← List.append_assoc, ← List.append_assoc]; exact g1
    · simp only [fwdSched]; rw [k3, g2, List.append_assoc]
    · intro ha hd
      obtain ⟨x, h1, h2⟩ := fwd_down (ccb := ccb) ha m hs hcb hd hin
      have hx : (routed n s.inbox).take ((routed n s.inbox).length - (routed n (fwdMove accept n cb ccb s m).1.inbox).length) = x := by
        rw [h1]; simp
      rw [hx] at g3
      obtain ⟨y, h3, h4⟩ := g3 ha h2
      refine ⟨x ++ y, ?_, ?_⟩
      · simp only [fwdSched]; rw [h1, h3, List.append_assoc]
      · simp only [fwdSched]; rw [← List.append_assoc]; exact h4

/-! ### A closed channel object -/

theorem closed_step {c : Channel.Ch} (op : Channel.Op) (hop : serviceOp op = true) (hc : c.closed = true) (hi : Idle c) :
    (Channel.step c op).1.closed = true ∧ Idle (Channel.step c op).1 ∧ ∀ o ∈ (Channel.step c op).2, Channel.isSend o = false := by
  obtain ⟨h1, h2, h3⟩ := hi
  cases op <;> simp [serviceOp] at hop <;> simp [Channel.step, hc, h1, h2, h3, Idle, Channel.readNow, Channel.isSend]
  split <;> simp [hc, h1, h2, h3, Channel.isSend]

theorem closed_sched {n s c} (ms : List Move) (hs : Has n s c) (hc : c.closed = true) (hi : Idle c) (hm : ∀ m ∈ ms, m.Fine n)
    (hz : Sized (sched n s ms).2) : wire n (sched n s ms).2 = [] := by
  induction ms generalizing s c with
  | nil => rfl
  | cons m ms ih =>
    simp only [sched, sized_append] at hz
    simp only [sched, wire_append]
    cases m with
    | event env e =>
      have hf : Foreign n e := hm (.event env e) (by simp)
      obtain ⟨c', h1, h2, _, h3, _⟩ := event_has (env := env) hs hf
      have hw : wire n (Sys.event n env s e).2 = [] := step_own_none env s.client e n hf.1 hz.1
      simp only [hw, List.nil_append]
      exact ih h1 (h3 hc) (hi.same h2) (fun m' hm' => hm m' (by simp [hm'])) hz.2
    | use op =>
      have hop : serviceOp op = true := hm (.use op) (by simp)
      obtain ⟨h1, h2, h3⟩ := closed_step op hop hc hi
      have := use_has op hs hop (by
        intro o ho d hd
        have := h3 o ho
        rcases hd with rfl | rfl <;> simp [Channel.isSend] at this)
      have hw : wire n (Sys.use n s op).2 = [] := by
        rw [this.2, List.filter_eq_nil_iff]
        intro o ho; rw [h3 o ho]; simp
      simp only [hw, List.nil_append]
      exact ih this.1 h1 h2 (fun m' hm' => hm m' (by simp [hm'])) hz.2

/-! ### Any service thread -/

/-- The calls under way, as the thread sees them. -/
def Under (c : Channel.Ch) (inside : Bool) (script : List Call) : Prop :=
  if inside then match script with
    | [] => False
    | .write d :: _ => c.pendingWrites = [d] ∧ c.pendingControl = [] ∧ c.pendingCloses = 0
    | .control d :: _ => c.pendingWrites = [] ∧ c.pendingControl = [d] ∧ c.pendingCloses = 0
    | .close :: _ => c.pendingWrites = [] ∧ c.pendingControl = [] ∧ c.pendingCloses = 1
  else Idle c

theorem Under.same {c c' i s} (h : Under c i s) (hp : SamePending c c') : Under c' i s := by
  obtain ⟨h1, h2, h3⟩ := hp
  unfold Under Idle at *
  rw [h1, h2, h3]; exact h

/-- `w`: what the server has received; `all`: the messages of the whole script. -/
def CInv (c : Channel.Ch) (w all : List Channel.Out) (s : CallSys) : Prop :=
  Under c s.inside s.script ∧
  if c.closed then (s.inside = false ∧ w <+: all) ∨ w ++ s.script.map Call.msg = all else w ++ s.script.map Call.msg = all

theorem use_inside {n s c k rest} (hs : Has n s c) (hu : Under c true (k :: rest)) (hk : k.Small) :
    ∃ c', Has n (s.use n k.finish).1 c' ∧ Idle c' ∧ c'.closed = c.closed ∧ wire n (s.use n k.finish).2 = [k.msg] := by
  cases k with
  | write d =>
    simp only [Under, if_true] at hu
    obtain ⟨h1, h2, h3⟩ := hu
    have hst : Channel.step c (.finishWrite 0) = ({ c with pendingWrites := [] }, [.sendData d]) := by simp [Channel.step, h1]
    have := use_has (.finishWrite 0) hs rfl (by
      rw [hst]; intro o ho d' hd; simp at ho; subst ho; rcases hd with hd | hd <;> injection hd; subst_vars; exact hk)
    rw [hst] at this
    exact ⟨_, this.1, ⟨rfl, h2, h3⟩, rfl, this.2⟩
  | control d =>
    simp only [Under, if_true] at hu
    obtain ⟨h1, h2, h3⟩ := hu
    have hst : Channel.step c (.finishControl 0) = ({ c with pendingControl := [] }, [.sendControl d]) := by simp [Channel.step, h2]
    have := use_has (.finishControl 0) hs rfl (by
      rw [hst]; intro o ho d' hd; simp at ho; subst ho; rcases hd with hd | hd <;> injection hd; subst_vars; exact hk)
    rw [hst] at this
    exact ⟨_, this.1, ⟨h1, rfl, h3⟩, rfl, this.2⟩
  | close =>
    simp only [Under, if_true] at hu
    obtain ⟨h1, h2, h3⟩ := hu
    have hst : Channel.step c .finishClose = ({ c with pendingCloses := 0 }, [.requestClose]) := by simp [Channel.step, h3]
    have := use_has .finishClose hs rfl (by
      rw [hst]; intro o ho d' hd; simp at ho; subst ho; rcases hd with hd | hd <;> injection hd)
    rw [hst] at this
    exact ⟨_, this.1, ⟨h1, h2, rfl⟩, rfl, this.2⟩

theorem use_begin {n s c} (k : Call) (rest : List Call) (hs : Has n s c) (hi : Idle c) (hc : c.closed = false) :
    ∃ c', Has n (s.use n k.begin).1 c' ∧ Under c' true (k :: rest) ∧ c'.closed = c.closed ∧ wire n (s.use n k.begin).2 = [] := by
  obtain ⟨h1, h2, h3⟩ := hi
  cases k with
  | write d =>
    have hst : Channel.step c (.beginWrite d) = ({ c with pendingWrites := [d] }, []) := by simp [Channel.step, hc, h1]
    have := use_has (.beginWrite d) hs rfl (by rw [hst]; simp)
    rw [hst] at this
    exact ⟨_, this.1, ⟨rfl, h2, h3⟩, rfl, this.2⟩
  | control d =>
    have hst : Channel.step c (.beginControl d) = ({ c with pendingControl := [d] }, []) := by simp [Channel.step, hc, h2]
    have := use_has (.beginControl d) hs rfl (by rw [hst]; simp)
    rw [hst] at this
    exact ⟨_, this.1, ⟨h1, rfl, h3⟩, rfl, this.2⟩
  | close =>
    have hst : Channel.step c .beginClose = ({ c with pendingCloses := 1 }, []) := by simp [Channel.step, hc, h3]
    have := use_has .beginClose hs rfl (by rw [hst]; simp)
    rw [hst] at this
    exact ⟨_, this.1, ⟨h1, h2, rfl⟩, rfl, this.2⟩

theorem call_sched {n s c w all} (ms : List CallMove) (hs : Has n s.sys c) (hi : CInv c w all s) (hk : ∀ k ∈ s.script, k.Small)
    (hm : ∀ m ∈ ms, m.Fine n) (hz : Sized (callSched n s ms).2) :
    ∃ c', Has n (callSched n s ms).1.sys c' ∧ CInv c' (w ++ wire n (callSched n s ms).2) all (callSched n s ms).1 ∧
      ((∀ m ∈ ms, m.Keeps n) → c'.closed = c.closed) := by
  induction ms generalizing s c w with
  | nil => exact ⟨c, hs, by simpa [callSched, wire, sentOf] using hi, fun _ => rfl⟩
  | cons m ms ih =>
    simp only [callSched, sized_append] at hz
    simp only [callSched, wire_append]
    have hm' : ∀ m' ∈ ms, m'.Fine n := fun m' h => hm m' (by simp [h])
    cases m with
    | client env e =>
      have hf : Foreign n e := hm (.client env e) (by simp)
      obtain ⟨c', h1, h2, _, h3, h4⟩ := event_has (env := env) hs hf
      have hw : wire n (s.sys.event n env e).2 = [] := step_own_none env s.sys.client e n hf.1 hz.1
      obtain ⟨hu, hcl⟩ := hi
      have hi' : CInv c' w all { s with sys := (s.sys.event n env e).1 } := by
        refine ⟨hu.same h2, ?_⟩
        cases hcc : c'.closed
        · have : c.closed = false := by cases hx : c.closed with
            | false => rfl
            | true => rw [h3 hx] at hcc; exact nomatch hcc
          rw [this] at hcl; simpa using hcl
        · simp only [if_true]
          cases hx : c.closed
          · rw [hx] at hcl; exact .inr hcl
          · rw [hx] at hcl; exact hcl
      obtain ⟨c'', g1, g2, g3⟩ := ih h1 hi' hk hm' hz.2
      refine ⟨c'', g1, ?_, fun hkeep => ?_⟩
      · simp only [callMove, hw, List.nil_append]; exact g2
      · rw [g3 (fun m' h => hkeep m' (by simp [h])), h4 (hkeep (.client env e) (by simp))]
    | thread =>
      obtain ⟨hu, hcl⟩ := hi
      cases hsc : s.script with
      | nil =>
        have hst : callMove n s .thread = (s, []) := by simp [callMove, callThread, hsc]
        rw [hst] at hz ⊢
        obtain ⟨c'', g1, g2, g3⟩ := ih hs ⟨hu, hcl⟩ hk hm' hz.2
        exact ⟨c'', g1, by simpa [wire, sentOf] using g2, fun hkeep => g3 (fun m' h => hkeep m' (by simp [h]))⟩
      | cons k rest =>
        have hk0 : k.Small := hk k (by simp [hsc])
        have hkr : ∀ k' ∈ rest, k'.Small := fun k' h => hk k' (by simp [hsc, h])
        cases hin : s.inside with
        | true =>
          rw [hsc, hin] at hu
          obtain ⟨c', h1, h2, h3, h4⟩ := use_inside hs hu hk0
          have hst : callMove n s .thread = ({ sys := (s.sys.use n k.finish).1, script := rest, inside := false }, (s.sys.use n k.finish).2) := by
            simp [callMove, callThread, hsc, hin]
          rw [hst] at hz ⊢
          have hall : w ++ s.script.map Call.msg = all := by
            cases hx : c.closed
            · rw [hx] at hcl; exact hcl
            · rw [hx, hin] at hcl; simpa using hcl
          have hi' : CInv c' (w ++ [k.msg]) all { sys := (s.sys.use n k.finish).1, script := rest, inside := false } := by
            refine ⟨h2, ?_⟩
            rw [hsc] at hall
            split
            · right; simpa using hall
            · simpa using hall
          obtain ⟨c'', g1, g2, g3⟩ := ih h1 hi' hkr hm' hz.2
          refine ⟨c'', g1, ?_, fun hkeep => by rw [g3 (fun m' h => hkeep m' (by simp [h])), h3]⟩
          simp only [h4]; rw [← List.append_assoc]; exact g2
        | false =>
          rw [hin] at hu
          have hidle : Idle c := by simpa [Under] using hu
          cases hx : c.closed with
          | true =>
            have hst : callMove n s .thread = ({ s with script := rest }, []) := by
              simp [callMove, callThread, hsc, hin, isClosed_has hs, hx]
            rw [hst] at hz ⊢
            have hpre : w <+: all := by
              rw [hx] at hcl
              rcases hcl with h | h
              · exact h.2
              · exact ⟨_, h⟩
            have hi' : CInv c w all { s with script := rest } := by
              refine ⟨by simpa [Under, hin] using hidle, ?_⟩
              rw [hx]; exact .inl ⟨hin, hpre⟩
            obtain ⟨c'', g1, g2, g3⟩ := ih (s := { s with script := rest }) hs hi' hkr hm' hz.2
            exact ⟨c'', g1, by simpa [wire, sentOf] using g2, fun hkeep => (g3 (fun m' h => hkeep m' (by simp [h]))).trans hx⟩
          | false =>
            obtain ⟨c', h1, h2, h3, h4⟩ := use_begin k rest hs hidle hx
            have hst : callMove n s .thread = ({ s with sys := (s.sys.use n k.begin).1, inside := true }, (s.sys.use n k.begin).2) := by
              simp [callMove, callThread, hsc, hin, isClosed_has hs, hx]
            rw [hst] at hz ⊢
            rw [hx] at hcl
            have hi' : CInv c' w all { s with sys := (s.sys.use n k.begin).1, inside := true } := by
              refine ⟨by simpa [hsc] using h2, ?_⟩
              rw [h3, hx]; exact hcl
            obtain ⟨c'', g1, g2, g3⟩ := ih h1 hi' hk hm' hz.2
            refine ⟨c'', g1, ?_, fun hkeep => by rw [g3 (fun m' h => hkeep m' (by simp [h])), h3, hx]⟩
            simp only [h4, List.nil_append]; exact g2

/-- How many moves the thread still needs at most. -/
def callLeft (s : CallSys) : Nat := 2 * s.script.length - (if s.inside then 1 else 0)

theorem call_ends (n s) (ms : List CallMove) (hi : s.inside = true → s.script ≠ []) :
    callLeft (callSched n s ms).1 ≤ callLeft s - ms.countP CallMove.isThread ∧
    ((callSched n s ms).1.inside = true → (callSched n s ms).1.script ≠ []) := by
  induction ms generalizing s with
  | nil => exact ⟨by simp [callSched], hi⟩
  | cons m ms ih =>
    cases m with
    | client env e =>
      have h := ih { s with sys := (s.sys.event n env e).1 } hi
      refine ⟨?_, h.2⟩
      simp only [callSched, callMove, List.countP_cons, CallMove.isThread, Bool.false_eq_true, if_false, Nat.add_zero]
      exact h.1
    | thread =>
      have h2 : callLeft (callThread n s).1 ≤ callLeft s - 1 ∧ ((callThread n s).1.inside = true → (callThread n s).1.script ≠ []) := by
        simp only [callThread, callLeft]
        cases hs : s.script with
        | nil =>
          have : s.inside = false := by cases hx : s.inside with
            | false => rfl
            | true => exact absurd hs (hi hx)
          simp [hs, this]
        | cons k rest =>
          cases hin : s.inside
          · cases hcl : s.sys.isClosed n
            · simp
            · simp; omega
          · simp; omega
      have h1 := ih (callThread n s).1 h2.2
      refine ⟨?_, h1.2⟩
      simp only [callSched, callMove, List.countP_cons, CallMove.isThread, if_true]
      omega

/-! ### The connection -/

/-- The dropped object is closed. -/
def DropClosed (s : Sys) : Prop := ∀ d, s.dropped = some d → d.closed = true

/-- Calls under way are not too large. -/
def PendSmall (c : Channel.Ch) : Prop := (∀ d ∈ c.pendingWrites, d.length ≤ maxSize) ∧ ∀ d ∈ c.pendingControl, d.length ≤ maxSize

theorem step_closed {c : Channel.Ch} (op : Channel.Op) (hc : c.closed = true) : (Channel.step c op).1.closed = true := by
  cases op <;> simp only [Channel.step, hc, if_true] <;> first | rfl | (split <;> first | exact hc | rfl) | (simp [Channel.readNow, hc])

theorem drop_event {n env s e} (hd : DropClosed s) : DropClosed (s.event n env e).1 := by
  intro d h
  simp only [Sys.event] at h
  split at h
  · rename_i c hc; injection h with h; subst h; exact hd c hc
  · split at h
    · injection h with h; subst h
      simp only [Channel.step]; split <;> simp_all
    · exact nomatch h

theorem drop_use {n s} (op) (hd : DropClosed s) : DropClosed (s.use n op).1 := by
  intro d h
  unfold Sys.use at h
  split at h
  · rename_i c hc; simp only [Option.some.injEq] at h; subst h; exact step_closed op (hd c hc)
  · rename_i hc; exact hd d h

theorem disconnect_closes {n env s c} (hs : Has n s c) (hd : DropClosed s) (hh : s.client.hung = false) :
    ∀ c', (s.event n env .disconnected).1.obj n = some c' → c'.closed = true := by
  intro c' h
  have ho := hs.obj
  unfold Sys.obj at ho
  cases hdr : s.dropped with
  | some d =>
    simp [Sys.obj, Sys.event, hdr] at h
    subst h; exact hd d hdr
  | none =>
    rw [hdr] at ho; simp only at ho
    have hl := (step_channel env s.client .disconnected n c hh hs.nodup ho (by simp) (by simp)).1
    simp [Sys.obj, Sys.event, hdr, ho, hl, opsFor, Channel.run] at h
    subst h
    simp only [Channel.step]; split <;> simp_all

theorem pend_step {c : Channel.Ch} (op : Channel.Op) (hp : PendSmall c)
    (hs : ∀ d, op = .beginWrite d ∨ op = .beginControl d → d.length ≤ maxSize) :
    PendSmall (Channel.step c op).1 ∧ ∀ o ∈ (Channel.step c op).2, OutSized o := by
  obtain ⟨h1, h2⟩ := hp
  have keep : ∀ c' : Channel.Ch, c'.pendingWrites = c.pendingWrites → c'.pendingControl = c.pendingControl → PendSmall c' := by
    intro c' e1 e2; exact ⟨by rw [e1]; exact h1, by rw [e2]; exact h2⟩
  have sized : ∀ o : Channel.Out, Channel.isSend o = false → OutSized o := by
    intro o ho d hd; rcases hd with rfl | rfl <;> simp [Channel.isSend] at ho
  cases op with
  | data d =>
    simp only [Channel.step]; split
    · exact ⟨⟨h1, h2⟩, by simp⟩
    · split
      · exact ⟨⟨h1, h2⟩, fun o ho => sized o (by simp at ho; subst ho; rfl)⟩
      · exact ⟨keep _ rfl rfl, by simp⟩
  | control d =>
    simp only [Channel.step]; split
    · exact ⟨⟨h1, h2⟩, by simp⟩
    · split
      · exact ⟨⟨h1, h2⟩, fun o ho => sized o (by simp at ho; subst ho; rfl)⟩
      · exact ⟨⟨h1, h2⟩, by simp⟩
  | onClose =>
    simp only [Channel.step]; split
    · exact ⟨⟨h1, h2⟩, by simp⟩
    · refine ⟨keep _ rfl rfl, fun o ho => ?_⟩
      split at ho
      · exact sized o (by simp at ho; subst ho; rfl)
      · simp at ho
  | setCallbacks a b d => exact ⟨keep _ rfl rfl, by simp [Channel.step]⟩
  | read k => exact ⟨keep _ rfl rfl, fun o ho => sized o (by simp [Channel.step, Channel.readNow] at ho; subst ho; rfl)⟩
  | readBlocking k b =>
    simp only [Channel.step]; split
    · exact ⟨keep _ rfl rfl, fun o ho => sized o (by simp [Channel.readNow] at ho; subst ho; rfl)⟩
    · exact ⟨⟨h1, h2⟩, fun o ho => sized o (by simp at ho; subst ho; rfl)⟩
  | beginWrite d =>
    simp only [Channel.step]; split
    · exact ⟨⟨h1, h2⟩, by simp⟩
    · refine ⟨⟨fun x hx => ?_, h2⟩, by simp⟩
      rcases List.mem_append.1 hx with hx | hx
      · exact h1 x hx
      · simp at hx; subst hx; exact hs _ (.inl rfl)
  | beginControl d =>
    simp only [Channel.step]; split
    · exact ⟨⟨h1, h2⟩, by simp⟩
    · refine ⟨⟨h1, fun x hx => ?_⟩, by simp⟩
      rcases List.mem_append.1 hx with hx | hx
      · exact h2 x hx
      · simp at hx; subst hx; exact hs _ (.inr rfl)
  | finishWrite i =>
    simp only [Channel.step]
    cases hg : c.pendingWrites[i]? with
    | none => exact ⟨⟨h1, h2⟩, by simp⟩
    | some d =>
      refine ⟨⟨fun x hx => h1 x (List.mem_of_mem_eraseIdx hx), h2⟩, fun o ho d' hd => ?_⟩
      simp at ho; subst ho
      rcases hd with hd | hd <;> injection hd
      subst_vars; exact h1 _ (List.mem_of_getElem? hg)
  | finishControl i =>
    simp only [Channel.step]
    cases hg : c.pendingControl[i]? with
    | none => exact ⟨⟨h1, h2⟩, by simp⟩
    | some d =>
      refine ⟨⟨h1, fun x hx => h2 x (List.mem_of_mem_eraseIdx hx)⟩, fun o ho d' hd => ?_⟩
      simp at ho; subst ho
      rcases hd with hd | hd <;> injection hd
      subst_vars; exact h2 _ (List.mem_of_getElem? hg)
  | beginClose =>
    simp only [Channel.step]; split
    · exact ⟨⟨h1, h2⟩, by simp⟩
    · exact ⟨keep _ rfl rfl, by simp⟩
  | finishClose =>
    simp only [Channel.step]; split
    · exact ⟨keep _ rfl rfl, fun o ho d hd => by simp at ho; subst ho; rcases hd with hd | hd <;> injection hd⟩
    · exact ⟨⟨h1, h2⟩, by simp⟩

theorem sched_one (n s m) : sched n s [m] = match m with
    | .event env e => s.event n env e
    | .use op => s.use n op := by
  cases m <;> simp [sched]

/-- One move. -/
theorem one_move {n s c m} (hs : Has n s c) (hd : DropClosed s) (hp : PendSmall c) (hm : LinkMove.Fine n (.move m)) (hz : Sized (sched n s [m]).2) :
    ∃ c', Has n (sched n s [m]).1 c' ∧ DropClosed (sched n s [m]).1 ∧ PendSmall c' ∧
      (c.closed = true → Idle c → c'.closed = true ∧ Idle c' ∧ wire n (sched n s [m]).2 = []) ∧
      (∀ env, m = .event env .disconnected → (s.client.hung = false → c'.closed = true) ∧ SamePending c c') ∧
      (∀ env e, m = .event env e → wire n (sched n s [m]).2 = []) := by
  rw [sched_one] at hz ⊢
  cases m with
  | event env e =>
    have hf : Foreign n e := hm.1
    obtain ⟨c', h1, h2, _, h3, _⟩ := event_has (env := env) hs hf
    have hw : wire n (s.event n env e).2 = [] := step_own_none env s.client e n hf.1 hz
    refine ⟨c', h1, drop_event hd, ⟨by rw [h2.1]; exact hp.1, by rw [h2.2.1]; exact hp.2⟩, fun hc hi => ⟨h3 hc, hi.same h2, hw⟩, ?_, fun _ _ _ => hw⟩
    intro env' he
    injection he with he1 he2
    subst he1 he2
    exact ⟨fun hh => disconnect_closes hs hd hh c' h1.obj, h2⟩
  | use op =>
    have hop : serviceOp op = true := hm.1
    have hps := pend_step op hp (fun d h => hm.2 d (by rcases h with rfl | rfl <;> simp))
    have := use_has op hs hop hps.2
    refine ⟨_, this.1, drop_use op hd, hps.1, fun hc hi => ?_, by intro _ h; exact (nomatch h), by intro _ _ h; exact (nomatch h)⟩
    obtain ⟨g1, g2, g3⟩ := closed_step op hop hc hi
    refine ⟨g1, g2, ?_⟩
    rw [this.2, List.filter_eq_nil_iff]
    intro o ho; rw [g3 o ho]; simp

theorem wire_if (n : Int) (b : Prop) [Decidable b] (o : List Out) (h : wire n o = []) : wire n (if b then o else []) = [] := by
  split
  · exact h
  · rfl

/-- Nothing is sent any more. -/
theorem link_closed {n s c l} (ms : List LinkMove) (hs : Has n s c) (hd : DropClosed s) (hp : PendSmall c) (hc : c.closed = true) (hi : Idle c)
    (hm : ∀ m ∈ ms, m.Fine n) (hz : Sized (linkSched n s l ms).1) : wire n (linkSched n s l ms).2 = [] := by
  induction ms generalizing s c l with
  | nil => rfl
  | cons m ms ih =>
    have hm' : ∀ m' ∈ ms, m'.Fine n := fun m' h => hm m' (by simp [h])
    cases m with
    | lose => exact ih hs hd hp hc hi hm' hz
    | move m =>
      simp only [linkSched, sized_append] at hz
      simp only [linkSched, wire_append]
      obtain ⟨c', h1, h2, h3, h4, _⟩ := one_move hs hd hp (hm (.move m) (by simp)) hz.1
      obtain ⟨g1, g2, g3⟩ := h4 hc hi
      rw [ih h1 h2 h3 g1 g2 hm' hz.2, List.append_nil]
      exact wire_if _ _ _ g3

/-- After a loss nothing arrives any more. -/
theorem link_lost {n s c} (ms : List LinkMove) (hs : Has n s c) (hd : DropClosed s) (hp : PendSmall c)
    (hm : ∀ m ∈ ms, m.Fine n) (hq : QuietLoss n s ms) (hz : Sized (linkSched n s .lost ms).1) : wire n (linkSched n s .lost ms).2 = [] := by
  induction ms generalizing s c with
  | nil => rfl
  | cons m ms ih =>
    have hm' : ∀ m' ∈ ms, m'.Fine n := fun m' h => hm m' (by simp [h])
    cases m with
    | lose => exact ih hs hd hp hm' hq hz
    | move m =>
      simp only [linkSched, sized_append] at hz
      simp only [linkSched, wire_append]
      obtain ⟨c', h1, h2, h3, _, h5, _⟩ := one_move hs hd hp (hm (.move m) (by simp)) hz.1
      by_cases hcase : s.client.hung = false ∧ ∃ env, m = .event env .disconnected
      · obtain ⟨hh, env, rfl⟩ := hcase
        obtain ⟨g1, g2⟩ := h5 env rfl
        have hidle : Idle c := hq.1 env rfl c hs.obj
        have := link_closed ms h1 h2 h3 (g1 hh) (hidle.same g2) hm' hz.2
        rw [this]
        simp [hh, Link.next, wire, sentOf]
      · have hl : (if s.client.hung then Link.lost else Link.next .lost m) = .lost := by
          cases hh : s.client.hung
          · simp only [Bool.false_eq_true, if_false]
            unfold Link.next
            split
            · exact absurd ⟨hh, _, rfl⟩ hcase
            · rfl
            · rfl
          · rfl
        rw [hl] at hz ⊢
        rw [ih h1 h2 h3 hm' hq.2 hz.2]
        rfl

/-- What arrives is the beginning of what was sent. -/
theorem link_up {n s c} (ms : List LinkMove) (hs : Has n s c) (hd : DropClosed s) (hp : PendSmall c)
    (hm : ∀ m ∈ ms, m.Fine n) (hq : QuietLoss n s ms) (hz : Sized (linkSched n s .up ms).1) :
    wire n (linkSched n s .up ms).2 <+: wire n (linkSched n s .up ms).1 := by
  induction ms generalizing s c with
  | nil => exact List.prefix_refl _
  | cons m ms ih =>
    have hm' : ∀ m' ∈ ms, m'.Fine n := fun m' h => hm m' (by simp [h])
    cases m with
    | lose =>
      have : linkSched n s .up (.lose :: ms) = linkSched n s .lost ms := rfl
      rw [this] at hz ⊢
      rw [link_lost ms hs hd hp hm' hq hz]; exact List.nil_prefix
    | move m =>
      simp only [linkSched, sized_append] at hz
      simp only [linkSched, wire_append]
      obtain ⟨c', h1, h2, h3, _, h5, h6⟩ := one_move hs hd hp (hm (.move m) (by simp)) hz.1
      by_cases hcase : s.client.hung = false ∧ ∃ env, m = .event env .disconnected
      · obtain ⟨hh, env, rfl⟩ := hcase
        obtain ⟨g1, g2⟩ := h5 env rfl
        have hidle : Idle c := hq.1 env rfl c hs.obj
        rw [link_closed ms h1 h2 h3 (g1 hh) (hidle.same g2) hm' hz.2]
        simp [hh, Link.next, wire, sentOf]
      · have hl : (if s.client.hung then Link.up else Link.next .up m) = .up := by
          cases hh : s.client.hung
          · simp only [Bool.false_eq_true, if_false]
            unfold Link.next
            split
            · exact absurd ⟨hh, _, rfl⟩ hcase
            · rfl
            · rfl
          · rfl
        rw [hl] at hz ⊢
        simp only [if_true]
        rw [List.prefix_append_right_inj]
        exact ih h1 h2 h3 hm' hq.2 hz.2

theorem closed_uses {n s c} (ops : List Channel.Op) (hs : Has n s c) (hc : c.closed = true) (hi : Idle c) (hm : ∀ op ∈ ops, serviceOp op = true) :
    wire n (sched n s (ops.map .use)).2 = [] := by
  induction ops generalizing s c with
  | nil => rfl
  | cons op ops ih =>
    obtain ⟨h1, h2, h3⟩ := closed_step op (hm op (by simp)) hc hi
    have := use_has op hs (hm op (by simp)) (by
      intro o ho d hd
      have := h3 o ho
      rcases hd with rfl | rfl <;> simp [Channel.isSend] at this)
    simp only [List.map_cons, sched, wire_append]
    have hw : wire n (Sys.use n s op).2 = [] := by
      rw [this.2, List.filter_eq_nil_iff]
      intro o ho; rw [h3 o ho]; simp
    rw [hw, List.nil_append]
    exact ih this.1 h1 h2 (fun op' hm' => hm op' (by simp [hm']))

/-! ### What a closed channel object still sends -/

theorem erase_perm {α} : ∀ (l : List α) (i : Nat) (x : α), l[i]? = some x → (x :: l.eraseIdx i).Perm l
  | [], _, _, h => by simp at h
  | a :: l, 0, x, h => by simp at h; subst h; simp
  | a :: l, i + 1, x, h => by
    simp only [List.getElem?_cons_succ] at h
    rw [List.eraseIdx_cons_succ]
    exact (List.Perm.swap a x _).trans ((erase_perm l i x h).cons a)

theorem underWay_step {c : Channel.Ch} (op : Channel.Op) (hop : serviceOp op = true) (hc : c.closed = true) :
    (Channel.step c op).1.closed = true ∧
    ((Channel.step c op).2.filter Channel.isSend ++ underWay (Channel.step c op).1).Perm (underWay c) := by
  cases op <;> simp [serviceOp] at hop
  case read n => simp [Channel.step, hc, Channel.readNow, Channel.isSend, underWay]
  case readBlocking n b => cases b <;> simp [Channel.step, hc, Channel.readNow, Channel.isSend, underWay]
  case setCallbacks a b d => simp [Channel.step, hc, underWay]
  case beginWrite d => simp [Channel.step, hc]
  case beginControl d => simp [Channel.step, hc]
  case beginClose => simp [Channel.step, hc]
  case finishWrite i =>
    simp only [Channel.step]
    cases h : c.pendingWrites[i]? with
    | none => simp [hc]
    | some d =>
      have := (erase_perm _ _ _ h).map Channel.Out.sendData
      refine ⟨hc, ?_⟩
      simp only [List.filter_cons, Channel.isSend, if_true, List.filter_nil, underWay, List.append_assoc, List.singleton_append, ← List.cons_append]
      exact List.Perm.append_right _ (by simpa using this)
  case finishControl i =>
    simp only [Channel.step]
    cases h : c.pendingControl[i]? with
    | none => simp [hc]
    | some d =>
      have := (erase_perm _ _ _ h).map Channel.Out.sendControl
      refine ⟨hc, ?_⟩
      simp only [List.filter_cons, Channel.isSend, if_true, List.filter_nil, underWay, List.append_assoc, List.singleton_append]
      refine List.perm_middle.symm.trans (List.Perm.append_left _ ?_)
      rw [← List.cons_append]
      exact List.Perm.append_right _ (by simpa using this)
  case finishClose =>
    simp only [Channel.step]
    cases h : c.pendingCloses with
    | zero => simp [hc]
    | succ k =>
      refine ⟨hc, ?_⟩
      simp only [List.filter_cons, Channel.isSend, if_true, List.filter_nil, underWay, h, List.singleton_append, List.replicate_succ]
      exact List.perm_middle.symm

theorem underWay_same {c c'} (hs : SamePending c c') : underWay c' = underWay c := by
  obtain ⟨g1, g2, g3⟩ := hs
  simp only [underWay, g1, g2, g3]

theorem underWay_sched {n s c} (ms : List Move) (hs : Has n s c) (hc : c.closed = true) (hu : ∀ o ∈ underWay c, OutSized o) (hm : ∀ m ∈ ms, m.Fine n)
    (hz : Sized (sched n s ms).2) :
    ∃ c', (sched n s ms).1.obj n = some c' ∧ (wire n (sched n s ms).2 ++ underWay c').Perm (underWay c) := by
  induction ms generalizing s c with
  | nil => exact ⟨c, hs.1, by simp [sched, wire_nil]⟩
  | cons m ms ih =>
    simp only [sched, sized_append] at hz
    simp only [sched, wire_append]
    cases m with
    | event env e =>
      have hf : Foreign n e := hm (.event env e) (by simp)
      obtain ⟨c', h1, h2, _, h3, _⟩ := event_has (env := env) hs hf
      have hw : wire n (Sys.event n env s e).2 = [] := step_own_none env s.client e n hf.1 hz.1
      simp only [hw, List.nil_append]
      rw [← underWay_same h2] at hu ⊢
      exact ih h1 (h3 hc) hu (fun m' hm' => hm m' (by simp [hm'])) hz.2
    | use op =>
      have hop : serviceOp op = true := hm (.use op) (by simp)
      obtain ⟨h1, h2⟩ := underWay_step op hop hc
      have := use_has op hs hop (by
        intro o ho
        cases hsend : Channel.isSend o with
        | true => exact hu o (h2.mem_iff.1 (List.mem_append_left _ (List.mem_filter.2 ⟨ho, hsend⟩)))
        | false =>
          intro d hd
          rcases hd with rfl | rfl <;> simp [Channel.isSend] at hsend)
      have hu' : ∀ o ∈ underWay (Channel.step c op).1, OutSized o := fun o ho => hu o (h2.mem_iff.1 (List.mem_append_right _ ho))
      obtain ⟨c', g1, g2⟩ := ih this.1 h1 hu' (fun m' hm' => hm m' (by simp [hm'])) hz.2
      refine ⟨c', g1, ?_⟩
      simp only [this.2, List.append_assoc]
      exact (List.Perm.append_left _ g2).trans h2

/-- The first call under way ends: what it sends. -/
theorem underWay_one {c : Channel.Ch} (h : ¬ Idle c) : ∃ op o, serviceOp op = true ∧ o ∈ underWay c ∧ (Channel.step c op).2 = [o] := by
  cases hw : c.pendingWrites with
  | cons d l => exact ⟨.finishWrite 0, .sendData d, rfl, by simp [underWay, hw], by simp [Channel.step, hw]⟩
  | nil =>
    cases hk : c.pendingControl with
    | cons d l => exact ⟨.finishControl 0, .sendControl d, rfl, by simp [underWay, hk], by simp [Channel.step, hk]⟩
    | nil =>
      cases hp : c.pendingCloses with
      | succ k => exact ⟨.finishClose, .requestClose, rfl, by simp [underWay, hp], by simp [Channel.step, hp]⟩
      | zero => exact absurd ⟨hw, hk, hp⟩ h

theorem underWay_sent {n s c} (hs : Has n s c) (hi : ¬ Idle c) (hu : ∀ o ∈ underWay c, OutSized o) :
    ∃ op, serviceOp op = true ∧ wire n (sched n s [.use op]).2 ≠ [] := by
  obtain ⟨op, o, h1, h2, h3⟩ := underWay_one hi
  have := use_has op hs h1 (by rw [h3]; intro x hx; rw [List.mem_singleton.1 hx]; exact hu o h2)
  refine ⟨op, h1, ?_⟩
  simp only [sched, List.append_nil]
  rw [this.2, h3]
  have : Channel.isSend o = true := by
    simp only [underWay, List.mem_append, List.mem_map, List.mem_replicate] at h2
    rcases h2 with (⟨d, _, rfl⟩ | ⟨d, _, rfl⟩) | ⟨_, rfl⟩ <;> rfl
  simp [this]

end Verif.System
