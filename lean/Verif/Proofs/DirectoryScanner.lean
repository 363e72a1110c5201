import Verif.Spec.DirectoryScanner
/-!
Lemmas for C65-C67.
-/
namespace Verif.DirectoryScanner
open Verif

/-- What the messages for a request in a phase are. -/
def answer (packet : Bool) : Phase → List Text
  | .unstarted error => if packet then [error] else []
  | .finished _ sent => if sent then [[]] else []
  | _ => []

structure Inv (s : State) : Prop where
  lock : ∀ t, (s.phase t).busy ↔ s.lock = some t
  fresh : ∀ t, s.next ≤ t → s.phase t = .absent
  known : ∀ t, t < s.next → s.phase t ≠ .absent
  writing : ∀ t json rest, s.phase t = .writing json rest → ∃ pre, s.file = some pre ∧ pre ++ rest = json
  written : ∀ t json, s.phase t = .written json → s.file = some json
  replies : ∀ t, repliesTo s t = answer (s.packet t) (s.phase t)
  silent : ∀ t json sent, s.phase t = .finished json sent → sent = true → s.packet t = true

theorem repliesTo_snoc (s : State) (t u : Nat) (m : Text) :
    repliesTo { s with replies := s.replies ++ [(u, m)] } t = repliesTo s t ++ if t = u then [m] else [] := by
  simp only [repliesTo, List.filter_append, List.map_append]
  by_cases h : t = u
  · subst h; simp
  · have h' : ¬ u = t := fun e => h e.symm
    simp [h, h']

theorem set_phase (s : State) (t u : Nat) (p : Phase) : (s.set t p).phase u = if u = t then p else s.phase u := rfl

/-- A thread changes its phase; the lock and the file may change with it. -/
theorem Inv.move {s : State} (h : Inv s) {t : Nat} (ht : s.phase t ≠ .absent) (p : Phase) (lock : Option Nat) (file : Option Bytes)
    (hp : p ≠ .absent) (ha : answer (s.packet t) p = answer (s.packet t) (s.phase t))
    (hf : ∀ json sent, p = .finished json sent → sent = true → s.packet t = true)
    (hl : ∀ u, (if u = t then p else s.phase u).busy ↔ lock = some u)
    (hw : ∀ u json rest, (if u = t then p else s.phase u) = .writing json rest → ∃ pre, file = some pre ∧ pre ++ rest = json)
    (hd : ∀ u json, (if u = t then p else s.phase u) = .written json → file = some json) :
    Inv { s.set t p with lock := lock, file := file } := by
  have hlt : t < s.next := by
    apply Classical.byContradiction
    intro hn
    exact ht (h.fresh t (by omega))
  refine ⟨hl, ?_, ?_, hw, hd, ?_, ?_⟩
  · intro u hu
    simp only [State.set] at hu ⊢
    rw [if_neg (by omega)]
    exact h.fresh u hu
  · intro u hu
    simp only [State.set] at hu ⊢
    split
    · exact hp
    · exact h.known u hu
  · intro u
    simp only [State.set]
    by_cases hut : u = t
    · subst hut
      rw [if_pos rfl, ha]
      exact h.replies u
    · rw [if_neg hut]
      exact h.replies u
  · intro u json sent hs
    simp only [State.set] at hs ⊢
    by_cases hut : u = t
    · subst hut; rw [if_pos rfl] at hs; exact hf _ _ hs
    · rw [if_neg hut] at hs; exact h.silent u json sent hs

/-- Only the thread with the lock is busy. -/
theorem Inv.only {s : State} (h : Inv s) {t u : Nat} (ht : (s.phase t).busy) (hu : (s.phase u).busy) : u = t := by
  have h1 := (h.lock t).1 ht
  have h2 := (h.lock u).1 hu
  rw [h1] at h2
  exact (Option.some.inj h2).symm

theorem inv_request {s : State} (h : Inv s) (packet : Bool) (started : Option Text) : Inv (request s packet started) := by
  have habs := h.fresh s.next (Nat.le_refl _)
  -- a new request in a phase without lock
  have key : ∀ (p : Phase) (_ : p ≠ .absent) (_ : ¬ p.busy) (_ : ∀ j b, p ≠ .finished j b) (replies : List (Nat × Text))
      (_ : ∀ t, (replies.filter (fun r => r.1 = t)).map (·.2) = if t = s.next then answer packet p else repliesTo s t),
      Inv ⟨s.next + 1, fun u => if u = s.next then p else s.phase u, fun u => if u = s.next then packet else s.packet u, s.lock, s.file,
        replies⟩ := by
    intro p hp hb hfin replies hr
    refine ⟨?_, ?_, ?_, ?_, ?_, ?_, ?_⟩
    · intro t
      simp only
      by_cases ht : t = s.next
      · subst ht
        rw [if_pos rfl]
        constructor
        · intro hc; exact absurd hc hb
        · intro hc
          have := (h.lock s.next).2 hc
          rw [habs] at this
          exact absurd this (by simp [Phase.busy])
      · rw [if_neg ht]; exact h.lock t
    · intro t ht
      simp only at ht ⊢
      rw [if_neg (by omega)]
      exact h.fresh t (by omega)
    · intro t ht
      simp only at ht ⊢
      split
      · exact hp
      · exact h.known t (by omega)
    · intro t json rest ht
      simp only at ht
      split at ht
      · subst ht; exact absurd trivial hb
      · exact h.writing t json rest ht
    · intro t json ht
      simp only at ht
      split at ht
      · subst ht; exact absurd trivial hb
      · exact h.written t json ht
    · intro t
      simp only [repliesTo]
      rw [hr]
      by_cases ht : t = s.next
      · simp [ht]
      · simp only [if_neg ht]; exact h.replies t
    · intro t json sent ht
      simp only at ht ⊢
      split at ht
      · exact absurd ht (hfin json sent)
      · rename_i hne
        rw [if_neg hne]; exact h.silent t json sent ht
  have hnone : repliesTo s s.next = [] := by rw [h.replies, habs]; rfl
  have hkeep : ∀ p : Phase, answer packet p = [] → ∀ t, (s.replies.filter (fun r : Nat × Text => r.1 = t)).map (·.2) =
      if t = s.next then answer packet p else repliesTo s t := by
    intro p hp t
    by_cases ht : t = s.next
    · rw [if_pos ht, hp, ht]; exact hnone
    · rw [if_neg ht]; rfl
  simp only [request]
  split
  · exact key .refused (by simp) (by simp [Phase.busy]) (by simp) s.replies (hkeep _ rfl)
  · split
    · rename_i error
      cases packet with
      | true =>
        refine key (.unstarted error) (by simp) (by simp [Phase.busy]) (by simp) (s.replies ++ [(s.next, error)]) ?_
        intro t
        have := repliesTo_snoc s t s.next error
        simp only [repliesTo] at this
        rw [this]
        by_cases ht : t = s.next
        · simp only [if_pos ht, answer, if_true]
          rw [ht]
          have hn := hnone
          simp only [repliesTo] at hn
          rw [hn]; rfl
        · simp only [if_neg ht, List.append_nil]; rfl
      | false => exact key (.unstarted error) (by simp) (by simp [Phase.busy]) (by simp) s.replies (hkeep _ (by simp [answer]))
    · exact key .waiting (by simp) (by simp [Phase.busy]) (by simp) s.replies (hkeep _ rfl)

theorem busy_set {s : State} (h : Inv s) {t : Nat} (ht : (s.phase t).busy) {p : Phase} (hp : p.busy) (u : Nat) :
    (if u = t then p else s.phase u).busy ↔ s.lock = some u := by
  by_cases hu : u = t
  · subst hu; rw [if_pos rfl]; exact ⟨fun _ => (h.lock u).1 ht, fun _ => hp⟩
  · rw [if_neg hu]; exact h.lock u

theorem idle_set {s : State} (h : Inv s) {t : Nat} (ht : (s.phase t).busy) {p : Phase} (hp : ¬ p.busy) (u : Nat) :
    (if u = t then p else s.phase u).busy ↔ (none : Option Nat) = some u := by
  by_cases hu : u = t
  · subst hu; rw [if_pos rfl]; simp [hp]
  · rw [if_neg hu]
    simp only [reduceCtorEq, iff_false]
    intro hb
    exact hu (h.only ht hb)

theorem inv_step {s : State} (h : Inv s) (op : Op) : Inv (step s op) := by
  -- no other thread has the file open or has just written it
  have hother : ∀ t, (s.phase t).busy → ∀ u, u ≠ t → ¬ (s.phase u).busy := fun t ht u hu hb => hu (h.only ht hb)
  have noW : ∀ t, (s.phase t).busy → ∀ (p : Phase) u json rest, (if u = t then p else s.phase u) = .writing json rest → u = t ∧ p = .writing json rest := by
    intro t ht p u json rest hu
    by_cases hut : u = t
    · rw [if_pos hut] at hu; exact ⟨hut, hu⟩
    · rw [if_neg hut] at hu; exact absurd (by rw [hu]; trivial) (hother t ht u hut)
  have noD : ∀ t, (s.phase t).busy → ∀ (p : Phase) u json, (if u = t then p else s.phase u) = .written json → u = t ∧ p = .written json := by
    intro t ht p u json hu
    by_cases hut : u = t
    · rw [if_pos hut] at hu; exact ⟨hut, hu⟩
    · rw [if_neg hut] at hu; exact absurd (by rw [hu]; trivial) (hother t ht u hut)
  cases op with
  | request packet started => exact inv_request h packet started
  | acquire t =>
    simp only [step]
    cases hp : s.phase t <;> try exact h
    simp only
    split
    · rename_i hl
      have hidle : ∀ u, ¬ (s.phase u).busy := by
        intro u hu
        rw [h.lock u, hl] at hu
        simp at hu
      refine h.move (by rw [hp]; simp) .scanning (some t) s.file (by simp) (by rw [hp]; rfl) (by simp) ?_ ?_ ?_
      · intro u
        by_cases hu : u = t
        · subst hu; simp [Phase.busy]
        · rw [if_neg hu]
          constructor
          · intro hb; exact absurd hb (hidle u)
          · intro e; exact absurd (Option.some.inj e).symm hu
      · intro u json rest hu
        split at hu
        · simp at hu
        · exact absurd (by rw [hu]; trivial) (hidle u)
      · intro u json hu
        split at hu
        · simp at hu
        · exact absurd (by rw [hu]; trivial) (hidle u)
    · exact h
  | scan t out =>
    simp only [step]
    cases hp : s.phase t <;> try exact h
    have hb : (s.phase t).busy := by rw [hp]; trivial
    simp only
    split
    · refine h.move (by rw [hp]; simp) (.failed false) none s.file (by simp) (by rw [hp]; rfl) (by simp) (idle_set h hb (by simp [Phase.busy])) ?_ ?_
      · intro u json rest hu; exact absurd (noW t hb _ u json rest hu).2 (by simp)
      · intro u json hu; exact absurd (noD t hb _ u json hu).2 (by simp)
    · rename_i json
      refine h.move (by rw [hp]; simp) (.scanned json) s.lock s.file (by simp) (by rw [hp]; rfl) (by simp) (busy_set h hb trivial) ?_ ?_
      · intro u json rest hu; exact absurd (noW t hb _ u json rest hu).2 (by simp)
      · intro u json hu; exact absurd (noD t hb _ u json hu).2 (by simp)
  | openFile t ok =>
    simp only [step]
    cases hp : s.phase t <;> try exact h
    rename_i json
    have hb : (s.phase t).busy := by rw [hp]; trivial
    simp only
    split
    · refine h.move (by rw [hp]; simp) (.writing json json) s.lock (some []) (by simp) (by rw [hp]; rfl) (by simp) (busy_set h hb trivial) ?_ ?_
      · intro u j rest hu
        have := (noW t hb _ u j rest hu).2
        injection this with h1 h2
        exact ⟨[], rfl, by rw [← h1, ← h2]; rfl⟩
      · intro u json hu; exact absurd (noD t hb _ u json hu).2 (by simp)
    · refine h.move (by rw [hp]; simp) (.failed false) none s.file (by simp) (by rw [hp]; rfl) (by simp) (idle_set h hb (by simp [Phase.busy])) ?_ ?_
      · intro u json rest hu; exact absurd (noW t hb _ u json rest hu).2 (by simp)
      · intro u json hu; exact absurd (noD t hb _ u json hu).2 (by simp)
  | write t n =>
    simp only [step]
    cases hp : s.phase t <;> try exact h
    rename_i json rest
    have hb : (s.phase t).busy := by rw [hp]; trivial
    obtain ⟨pre, hf, hpre⟩ := h.writing t json rest hp
    refine h.move (by rw [hp]; simp) (.writing json (rest.drop n)) s.lock (s.file.map (· ++ rest.take n)) (by simp) (by rw [hp]; rfl) (by simp)
      (busy_set h hb trivial) ?_ ?_
    · intro u j r hu
      have := (noW t hb _ u j r hu).2
      injection this with h1 h2
      refine ⟨pre ++ rest.take n, by rw [hf]; rfl, ?_⟩
      rw [← h1, ← h2, List.append_assoc, List.take_append_drop, hpre]
    · intro u json hu; exact absurd (noD t hb _ u json hu).2 (by simp)
  | writeFails t =>
    simp only [step]
    cases hp : s.phase t <;> try exact h
    have hb : (s.phase t).busy := by rw [hp]; trivial
    refine h.move (by rw [hp]; simp) (.failed true) none s.file (by simp) (by rw [hp]; rfl) (by simp) (idle_set h hb (by simp [Phase.busy])) ?_ ?_
    · intro u json rest hu; exact absurd (noW t hb _ u json rest hu).2 (by simp)
    · intro u json hu; exact absurd (noD t hb _ u json hu).2 (by simp)
  | close t =>
    simp only [step]
    cases hp : s.phase t <;> try exact h
    rename_i json rest
    have hb : (s.phase t).busy := by rw [hp]; trivial
    cases rest with
    | cons _ _ => exact h
    | nil =>
      obtain ⟨pre, hf, hpre⟩ := h.writing t json [] hp
      refine h.move (by rw [hp]; simp) (.written json) s.lock s.file (by simp) (by rw [hp]; rfl) (by simp) (busy_set h hb trivial) ?_ ?_
      · intro u j r hu; exact absurd (noW t hb _ u j r hu).2 (by simp)
      · intro u j hu
        have := (noD t hb _ u j hu).2
        injection this with h1
        rw [hf, ← h1, ← hpre]; simp
  | report t sendOk =>
    simp only [step]
    cases hp : s.phase t <;> try exact h
    rename_i json
    have hb : (s.phase t).busy := by rw [hp]; trivial
    have hl := idle_set h hb (p := .finished json (s.packet t && sendOk)) (by simp [Phase.busy])
    have hW : ∀ u j r, (if u = t then Phase.finished json (s.packet t && sendOk) else s.phase u) = .writing j r →
        ∃ pre, s.file = some pre ∧ pre ++ r = j := fun u j r hu => absurd (noW t hb _ u j r hu).2 (by simp)
    have hD : ∀ u j, (if u = t then Phase.finished json (s.packet t && sendOk) else s.phase u) = .written j → s.file = some j :=
      fun u j hu => absurd (noD t hb _ u j hu).2 (by simp)
    have hfin : ∀ j sent, Phase.finished json (s.packet t && sendOk) = .finished j sent → sent = true → s.packet t = true := by
      intro j sent e hs
      injection e with _ e
      rw [hs] at e
      cases hk : s.packet t <;> simp_all
    simp only
    split
    · rename_i hs
      have hs' : s.packet t = true ∧ sendOk = true := by simpa using hs
      have hlt : t < s.next := by
        apply Classical.byContradiction
        intro hn
        rw [h.fresh t (by omega)] at hp
        exact Phase.noConfusion hp
      refine ⟨hl, ?_, ?_, hW, hD, ?_, ?_⟩
      · intro u hu
        simp only [State.set] at hu ⊢
        rw [if_neg (by omega)]
        exact h.fresh u hu
      · intro u hu
        simp only [State.set] at hu ⊢
        split
        · simp
        · exact h.known u hu
      · intro u
        have := repliesTo_snoc { s.set t (.finished json (s.packet t && sendOk)) with lock := none } u t []
        simp only [State.set] at this ⊢
        rw [this]
        have hold : repliesTo { s with phase := fun u => if u = t then Phase.finished json (s.packet t && sendOk) else s.phase u, lock := none } u =
            answer (s.packet u) (s.phase u) := h.replies u
        rw [hold]
        by_cases hu : u = t
        · subst hu
          simp [hp, answer, hs]
        · simp [hu]
      · intro u j sent hu
        simp only [State.set] at hu ⊢
        by_cases hut : u = t
        · subst hut; rw [if_pos rfl] at hu; exact hfin _ _ hu
        · rw [if_neg hut] at hu; exact h.silent u j sent hu
    · rename_i hs
      refine h.move (by rw [hp]; simp) _ none s.file (by simp) ?_ hfin hl hW hD
      rw [hp]
      simp only [answer]
      rw [if_neg hs]

theorem inv_init (file : Option Bytes) : Inv (init file) :=
  ⟨by simp [init, Phase.busy], by simp [init], by simp [init], by simp [init], by simp [init], by simp [init, repliesTo, answer], by simp [init]⟩

theorem inv_run (file : Option Bytes) (ops : List Op) : Inv (run (init file) ops) := by
  unfold run
  generalize hs : init file = s
  have h : Inv s := hs ▸ inv_init file
  clear hs
  induction ops generalizing s with
  | nil => exact h
  | cons op ops ih => exact ih _ (inv_step h op)

/-- The file is whole unless a thread has it open or failed in writing it. -/
def Kept (file : Option Bytes) (s : State) : Prop :=
  (∃ t, (s.phase t).open ∨ s.phase t = .failed true) ∨ s.file = file ∨ ∃ t json, (s.phase t).stored json ∧ s.file = some json

/-- A thread moves to a phase in which it still has stored what it had, and the file stays. -/
theorem Kept.move {file : Option Bytes} {s : State} (h : Kept file s) {t : Nat} {p : Phase} (lock : Option Nat)
    (h1 : (s.phase t).open → p.open ∨ p = .failed true) (h2 : s.phase t ≠ .failed true) (h3 : ∀ json, (s.phase t).stored json → p.stored json) :
    Kept file { s.set t p with lock := lock } := by
  rcases h with ⟨u, hu⟩ | h | ⟨u, json, hs, hf⟩
  · refine .inl ⟨u, ?_⟩
    simp only [State.set]
    by_cases hut : u = t
    · subst hut
      rw [if_pos rfl]
      rcases hu with hu | hu
      · exact h1 hu
      · exact absurd hu h2
    · rw [if_neg hut]; exact hu
  · exact .inr (.inl h)
  · refine .inr (.inr ⟨u, json, ?_, hf⟩)
    simp only [State.set]
    by_cases hut : u = t
    · subst hut; rw [if_pos rfl]; exact h3 json hs
    · rw [if_neg hut]; exact hs

theorem kept_step {file : Option Bytes} {s : State} (hi : Inv s) (h : Kept file s) (op : Op) : Kept file (step s op) := by
  cases op with
  | request packet started =>
    have habs := hi.fresh s.next (Nat.le_refl _)
    have key : ∀ (p : Phase) (replies : List (Nat × Text)),
        Kept file ⟨s.next + 1, fun u => if u = s.next then p else s.phase u, fun u => if u = s.next then packet else s.packet u, s.lock, s.file,
          replies⟩ := by
      intro p replies
      rcases h with ⟨u, hu⟩ | h | ⟨u, json, hs, hf⟩
      · refine .inl ⟨u, ?_⟩
        simp only
        rw [if_neg]
        · exact hu
        · rintro rfl
          rw [habs] at hu
          simp [Phase.open] at hu
      · exact .inr (.inl h)
      · refine .inr (.inr ⟨u, json, ?_, hf⟩)
        simp only
        rw [if_neg]
        · exact hs
        · rintro rfl
          rw [habs] at hs
          simp [Phase.stored] at hs
    simp only [step, request]
    split
    · exact key _ _
    · split
      · split
        · exact key _ _
        · exact key _ _
      · exact key _ _
  | acquire t =>
    simp only [step]
    cases hp : s.phase t <;> try exact h
    simp only
    split
    · exact h.move _ (by rw [hp]; simp [Phase.open]) (by rw [hp]; simp) (by rw [hp]; simp [Phase.stored])
    · exact h
  | scan t out =>
    simp only [step]
    cases hp : s.phase t <;> try exact h
    simp only
    split
    · exact h.move _ (by rw [hp]; simp [Phase.open]) (by rw [hp]; simp) (by rw [hp]; simp [Phase.stored])
    · exact h.move s.lock (by rw [hp]; simp [Phase.open]) (by rw [hp]; simp) (by rw [hp]; simp [Phase.stored])
  | openFile t ok =>
    simp only [step]
    cases hp : s.phase t <;> try exact h
    simp only
    split
    · exact .inl ⟨t, by simp [State.set, Phase.open]⟩
    · exact h.move _ (by rw [hp]; simp [Phase.open]) (by rw [hp]; simp) (by rw [hp]; simp [Phase.stored])
  | write t n =>
    simp only [step]
    cases hp : s.phase t <;> try exact h
    exact .inl ⟨t, by simp [State.set, Phase.open]⟩
  | writeFails t =>
    simp only [step]
    cases hp : s.phase t <;> try exact h
    exact .inl ⟨t, by simp [State.set]⟩
  | close t =>
    simp only [step]
    cases hp : s.phase t <;> try exact h
    rename_i json rest
    cases rest with
    | cons _ _ => exact h
    | nil =>
      obtain ⟨pre, hf, hpre⟩ := hi.writing t json [] hp
      exact .inr (.inr ⟨t, json, by simp [State.set, Phase.stored], by simp only [State.set]; rw [hf, ← hpre]; simp⟩)
  | report t sendOk =>
    simp only [step]
    cases hp : s.phase t <;> try exact h
    rename_i json
    have hm := h.move (t := t) (p := .finished json (s.packet t && sendOk)) none (by rw [hp]; simp [Phase.open]) (by rw [hp]; simp)
      (by rw [hp]; simp [Phase.stored])
    simp only
    split
    · exact hm
    · exact hm

theorem kept_run (file : Option Bytes) (ops : List Op) : Kept file (run (init file) ops) := by
  unfold run
  generalize hs : init file = s
  have h : Inv s := hs ▸ inv_init file
  have hk : Kept file s := by subst hs; exact .inr (.inl rfl)
  clear hs
  induction ops generalizing s with
  | nil => exact hk
  | cons op ops ih => exact ih _ (inv_step h op) (kept_step h hk op)

end Verif.DirectoryScanner
