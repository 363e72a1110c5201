import Verif.Spec.Signals
/-!
Lemmas for C156.
-/
namespace Verif.Signals
open Verif

/-- What holds as long as calls of `close` do not overlap. -/
structure Inv (s : St) : Prop where
  one : ∀ t u, s.place t ≠ .outside → s.place u ≠ .outside → t = u
  busy : ∀ t, s.place t = .kill ∨ s.place t = .start → s.waiters = []
  shut : s.waiters ≠ [] → s.closed = true ∨ ∃ t, s.place t = .last
  few : s.waiters.length ≤ 1
  pid : ∀ p, s.pid = some p → ∃ b, s.child = some (b, p)
  held : ∀ b p, s.child = some (b, p) → s.waiters = [.ended] ∨ ∃ r, s.table p = some ⟨b, r⟩
  sent : OnlyChild s

theorem inv_init : Inv {} where
  one := fun t u h => absurd rfl h
  busy := fun t h => rfl
  shut := fun h => absurd rfl h
  few := Nat.zero_le _
  pid := fun p h => (nomatch h)
  held := fun b p h => (nomatch h)
  sent := fun x h => (nomatch h)

/-- Only the table changes, and not for the child. -/
theorem Inv.table {s : St} (h : Inv s) (f : Nat → Option Proc) (n : Nat)
    (hf : ∀ b p r, s.child = some (b, p) → s.table p = some ⟨b, r⟩ → ∃ r', f p = some ⟨b, r'⟩) : Inv { s with table := f, births := n } where
  one := h.one
  busy := h.busy
  shut := h.shut
  few := h.few
  pid := h.pid
  held := fun b p hc => by
    rcases h.held b p hc with h1 | ⟨r, h1⟩
    · exact .inl h1
    · exact .inr (hf b p r hc h1)
  sent := h.sent

/-- The thread that is in `close` comes to another place. -/
theorem Inv.go {s : St} (h : Inv s) (t : Nat) (p : Place) (hu : ∀ u, u ≠ t → s.place u = .outside)
    (hb : p = .kill ∨ p = .start → s.waiters = []) (hs : s.waiters ≠ [] → s.closed = true ∨ p = .last) : Inv (s.go t p) where
  one := by
    intro u v h1 h2
    simp only [St.go] at h1 h2
    by_cases hu1 : u = t
    · by_cases hv1 : v = t
      · rw [hu1, hv1]
      · rw [if_neg hv1] at h2; exact absurd (hu v hv1) h2
    · rw [if_neg hu1] at h1; exact absurd (hu u hu1) h1
  busy := by
    intro u h1
    simp only [St.go] at h1
    by_cases hu1 : u = t
    · rw [if_pos hu1] at h1; exact hb h1
    · rw [if_neg hu1] at h1; exact h.busy u h1
  shut := by
    intro hw
    rcases hs hw with h1 | h1
    · exact .inl h1
    · exact .inr ⟨t, by simp only [St.go, if_true]; exact h1⟩
  few := h.few
  pid := h.pid
  held := h.held
  sent := h.sent

theorem Inv.others {s : St} (h : Inv s) {t : Nat} (ht : s.place t ≠ .outside) (u : Nat) (hu : u ≠ t) : s.place u = .outside := by
  apply Decidable.byContradiction
  intro hn
  exact hu (h.one u t hn ht)

theorem Inv.signal {s : St} (h : Inv s) (x : Signal) {p : Nat} (hp : s.pid = some p) (hw : s.waiters ≠ [.ended]) : Inv (s.signal x p) where
  one := h.one
  busy := h.busy
  shut := h.shut
  few := h.few
  pid := h.pid
  held := h.held
  sent := by
    intro y hy
    rcases List.mem_append.1 hy with hy | hy
    · exact h.sent y hy
    · rcases List.mem_singleton.1 hy with rfl
      obtain ⟨b, hb⟩ := h.pid p hp
      rcases h.held b p hb with h1 | ⟨r, h1⟩
      · exact absurd h1 hw
      · exact ⟨b, p, hb, by rw [h1]; rfl⟩

/-- A thread that waits has changed; if it has ended the child may have been collected. -/
theorem Inv.waiter {s : St} (h : Inv s) {w : Nat} {x : Waiter} (hx : s.waiters[w]? = some x) (hne : x ≠ .ended) (y : Waiter) :
    s.waiters = [x] ∧ s.waiters.set w y = [y] ∧ Inv { s with waiters := s.waiters.set w y } := by
  have hf := h.few
  obtain ⟨hl, hx⟩ := List.getElem?_eq_some_iff.1 hx
  have hw : w = 0 := by omega
  subst hw
  have hs : s.waiters = [x] := by
    match hm : s.waiters with
    | [] => rw [hm] at hl; exact absurd hl (by simp)
    | [z] =>
      have : s.waiters[0] = z := by simp [hm]
      rw [← this, hx]
    | _ :: _ :: _ => rw [hm] at hf; simp at hf
  have hset : s.waiters.set 0 y = [y] := by rw [hs]; rfl
  refine ⟨hs, hset, ?_⟩
  rw [hset]
  refine ⟨h.one, ?_, ?_, ?_, h.pid, ?_, h.sent⟩
  · intro t ht
    have := h.busy t ht
    rw [hs] at this
    exact (nomatch this)
  · intro _
    exact h.shut (by rw [hs]; simp)
  · simp
  · intro b p hc
    rcases h.held b p hc with h1 | h1
    · rw [hs] at h1
      injection h1 with h1
      exact absurd h1 hne
    · exact .inr h1

theorem inv_step {s : St} (h : Inv s) (op : Op) (ha : ∀ t, op = .test t → ∀ u, u ≠ t → s.place u = .outside) : Inv (step s op) := by
  cases op with
  | born pid =>
    simp only [step]
    split
    · rename_i hp
      refine Inv.table h _ _ ?_
      intro b p r hc ht
      have : p ≠ pid := by rintro rfl; rw [hp.2] at ht; exact (nomatch ht)
      exact ⟨r, by simp only [St.put, if_neg this]; exact ht⟩
    · exact h
  | exits pid =>
    simp only [step]
    split
    · rename_i q hq
      refine Inv.table h _ _ ?_
      intro b p r hc ht
      by_cases hp : p = pid
      · subst hp
        rw [hq] at ht
        injection ht with ht
        subst ht
        exact ⟨false, by rw [if_pos rfl]⟩
      · exact ⟨r, by rw [if_neg hp]; exact ht⟩
    · exact h
  | collected pid =>
    simp only [step]
    split
    · rename_i b' hq
      split
      · exact h
      · rename_i hb
        refine Inv.table h _ _ ?_
        intro b p r hc ht
        by_cases hp : p = pid
        · subst hp
          rw [hq] at ht
          injection ht with ht
          injection ht with ht _
          exact absurd (by rw [hc, ht]; rfl) hb
        · exact ⟨r, by rw [if_neg hp]; exact ht⟩
    · exact h
  | fork pid =>
    simp only [step]
    split
    · rename_i hp
      refine ⟨h.one, h.busy, h.shut, h.few, ?_, ?_, ?_⟩
      · intro p h1
        obtain ⟨b, hb⟩ := h.pid p h1
        rw [hp.2.2] at hb
        exact (nomatch hb)
      · intro b p h1
        injection h1 with h1
        injection h1 with h1 h2
        subst h1 h2
        exact .inr ⟨true, by simp only [St.put, if_true]⟩
      · intro x hx
        obtain ⟨b, p, hc, -⟩ := h.sent x hx
        rw [hp.2.2] at hc
        exact (nomatch hc)
    · exact h
  | setPid =>
    refine ⟨h.one, h.busy, h.shut, h.few, ?_, h.held, h.sent⟩
    intro p h1
    have h1 : s.child.map (·.2) = some p := h1
    cases hc : s.child with
    | none => rw [hc] at h1; exact (nomatch h1)
    | some x =>
      rw [hc] at h1
      injection h1 with h1
      exact ⟨x.1, by rw [← h1]; exact hc⟩
  | test t =>
    simp only [step]
    split
    · rename_i hp
      have hu := ha t rfl
      have hnl : ¬ ∃ u, s.place u = .last := by
        rintro ⟨u, hu'⟩
        by_cases e : u = t
        · rw [e, hp] at hu'; exact (nomatch hu')
        · rw [hu u e] at hu'; exact (nomatch hu')
      refine Inv.go h t _ hu ?_ ?_
      · intro hk
        apply Decidable.byContradiction
        intro hw
        rcases h.shut hw with h1 | h1
        · rw [h1] at hk; simp at hk
        · exact hnl h1
      · intro hw
        rcases h.shut hw with h1 | h1
        · exact .inl h1
        · exact absurd h1 hnl
    · exact h
  | kill t permitted =>
    simp only [step]
    split
    · rename_i pid hp hpid
      have hw : s.waiters = [] := h.busy t (.inl hp)
      have hu := h.others (t := t) (by rw [hp]; simp)
      split
      · exact Inv.go (h.signal .hup hpid (by rw [hw]; simp)) t _ hu (fun _ => hw) (fun hn => absurd hw hn)
      · exact Inv.go h t _ hu (fun _ => hw) (fun hn => absurd hw hn)
    · exact h
  | start t ok =>
    simp only [step]
    split
    · rename_i hp
      have hw : s.waiters = [] := h.busy t (.inr hp)
      have hu := h.others (t := t) (by rw [hp]; simp)
      have hg := Inv.go h t .last hu (fun hx => by rcases hx with hx | hx <;> exact (nomatch hx)) (fun _ => .inr rfl)
      cases ok with
      | false => exact hg
      | true =>
        refine ⟨hg.one, ?_, ?_, ?_, hg.pid, ?_, hg.sent⟩
        · intro u h1
          simp only [St.go] at h1
          by_cases e : u = t
          · rw [if_pos e] at h1; rcases h1 with h1 | h1 <;> exact (nomatch h1)
          · rw [if_neg e, hu u e] at h1; rcases h1 with h1 | h1 <;> exact (nomatch h1)
        · exact fun _ => .inr ⟨t, by simp only [St.go, if_true]⟩
        · simp [hw]
        · intro b p hc
          rcases h.held b p hc with h1 | h1
          · rw [hw] at h1; exact (nomatch h1)
          · exact .inr h1
    · exact h
  | finish t =>
    simp only [step]
    split
    · rename_i hp
      have hu := h.others (t := t) (by rw [hp]; simp)
      have hc : Inv { s with closed := true } := ⟨h.one, h.busy, fun _ => .inl rfl, h.few, h.pid, h.held, h.sent⟩
      exact Inv.go hc t .outside hu (fun hx => by rcases hx with hx | hx <;> exact (nomatch hx)) (fun _ => .inl rfl)
    · exact h
  | wait w =>
    simp only [step]
    split
    · rename_i ws k pid hx hpid
      obtain ⟨h1, h2, h3⟩ := h.waiter hx (by simp) .ended
      split
      · split
        · exact h3
        · split
          · exact (h.waiter hx (by simp) (.awake ws k)).2.2
          · refine ⟨h3.one, h3.busy, h3.shut, h3.few, h3.pid, fun b p hc => .inl h2, h3.sent⟩
      · exact h3
    · exact h
  | check w time permitted =>
    simp only [step]
    split
    · rename_i ws k pid hx hpid
      have hne : s.waiters ≠ [.ended] := by rw [(h.waiter hx (by simp) .ended).1]; simp
      split
      · split
        · exact (Inv.waiter (h.signal .kill hpid hne) (x := .awake ws k) hx (by simp) _).2.2
        · exact (h.waiter hx (by simp) .ended).2.2
      · exact (h.waiter hx (by simp) _).2.2
    · exact h

theorem inv_run {s : St} (h : Inv s) (ops : List Op) (ha : Apart s ops) : Inv (run s ops) := by
  induction ops generalizing s with
  | nil => exact h
  | cons op ops ih => exact ih (inv_step h op ha.1) ha.2

end Verif.Signals
