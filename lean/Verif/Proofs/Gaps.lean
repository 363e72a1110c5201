import Verif.Proofs.System
import Verif.Spec.Gaps
/-!
Helper lemmas for C108.
-/
namespace Verif.System
open Verif WSClient

theorem inside_eq (c : Channel.Ch) : (underWay c).length = inside c := by
  simp [underWay, inside]
  omega

/-- One move of a closed channel. -/
theorem one_move_closed {n s c m} (hs : Has n s c) (hd : DropClosed s) (hp : PendSmall c) (hc : c.closed = true) (hm : LinkMove.Fine n (.move m))
    (hz : Sized (sched n s [m]).2) : ∃ c', Has n (sched n s [m]).1 c' ∧ DropClosed (sched n s [m]).1 ∧ PendSmall c' ∧ c'.closed = true ∧
      (wire n (sched n s [m]).2).length + inside c' = inside c := by
  rw [sched_one] at hz ⊢
  cases m with
  | event env e =>
    have hf : Foreign n e := hm.1
    obtain ⟨c', h1, h2, _, h3, _⟩ := event_has (env := env) hs hf
    have hw : wire n (s.event n env e).2 = [] := step_own_none env s.client e n hf.1 hz
    refine ⟨c', h1, drop_event hd, ⟨by rw [h2.1]; exact hp.1, by rw [h2.2.1]; exact hp.2⟩, h3 hc, ?_⟩
    rw [← inside_eq, ← inside_eq, underWay_same h2]
    simp [hw]
  | use op =>
    have hop : serviceOp op = true := hm.1
    have hps := pend_step op hp (fun d h => hm.2 d (by rcases h with rfl | rfl <;> simp))
    have hu := use_has op hs hop hps.2
    obtain ⟨g1, g2⟩ := underWay_step op hop hc
    refine ⟨_, hu.1, drop_use op hd, hps.1, g1, ?_⟩
    have := g2.length_eq
    rw [List.length_append, inside_eq, inside_eq] at this
    rw [← this]
    congr 1
    rw [hu.2]

theorem length_if (n : Int) (b : Prop) [Decidable b] (o : List Out) : (wire n (if b then o else [])).length ≤ (wire n o).length := by
  split
  · exact Nat.le_refl _
  · exact Nat.zero_le _

/-- What arrives from a closed channel. -/
theorem link_closed_few {n s c l} (ms : List LinkMove) (hs : Has n s c) (hd : DropClosed s) (hp : PendSmall c) (hc : c.closed = true)
    (hm : ∀ m ∈ ms, m.Fine n) (hz : Sized (linkSched n s l ms).1) : (wire n (linkSched n s l ms).2).length ≤ inside c := by
  induction ms generalizing s c l with
  | nil => exact Nat.zero_le _
  | cons m ms ih =>
    have hm' : ∀ m' ∈ ms, m'.Fine n := fun m' h => hm m' (by simp [h])
    cases m with
    | lose => exact ih hs hd hp hc hm' hz
    | move m =>
      simp only [linkSched, sized_append] at hz
      simp only [linkSched, wire_append, List.length_append]
      obtain ⟨c', h1, h2, h3, h4, h5⟩ := one_move_closed hs hd hp hc (hm (.move m) (by simp)) hz.1
      have a := ih h1 h2 h3 h4 hm' hz.2
      refine Nat.le_trans (Nat.add_le_add ?_ a) (Nat.le_of_eq h5)
      exact length_if n _ _

theorem inside_same {c c'} (hs : SamePending c c') : inside c' = inside c := by
  rw [← inside_eq, ← inside_eq, underWay_same hs]

theorem link_lost_few {n s c k} (ms : List LinkMove) (hs : Has n s c) (hd : DropClosed s) (hp : PendSmall c)
    (hm : ∀ m ∈ ms, m.Fine n) (hq : FewInside k n s ms) (hz : Sized (linkSched n s .lost ms).1) : (wire n (linkSched n s .lost ms).2).length ≤ k := by
  induction ms generalizing s c with
  | nil => exact Nat.zero_le _
  | cons m ms ih =>
    have hm' : ∀ m' ∈ ms, m'.Fine n := fun m' h => hm m' (by simp [h])
    cases m with
    | lose => exact ih hs hd hp hm' hq hz
    | move m =>
      simp only [linkSched, sized_append] at hz
      simp only [linkSched, wire_append]
      obtain ⟨c', h1, h2, h3, _, h5, h6⟩ := one_move hs hd hp (hm (.move m) (by simp)) hz.1
      by_cases hcase : s.client.hung = false ∧ ∃ env, m = .event env .disconnected
      · obtain ⟨hh, env, rfl⟩ := hcase
        obtain ⟨g1, g2⟩ := h5 env rfl
        have hin : inside c ≤ k := hq.1 env rfl c hs.obj
        have := link_closed_few ms h1 h2 h3 (g1 hh) hm' hz.2
        rw [inside_same g2] at this
        rw [wire_if _ _ _ (h6 env _ rfl), List.nil_append]
        exact Nat.le_trans this hin
      · have hl : (if s.client.hung then Link.lost else Link.next .lost m) = .lost := by
          cases hh : s.client.hung
          · simp only [Bool.false_eq_true, if_false]
            unfold Link.next
            split
            · exact absurd ⟨hh, _, rfl⟩ hcase
            · rfl
            · rfl
          · rfl
        rw [hl] at hz ⊢
        have := ih h1 h2 h3 hm' hq.2 hz.2
        simpa [wire, sentOf] using this

theorem link_up_few {n s c k} (ms : List LinkMove) (hs : Has n s c) (hd : DropClosed s) (hp : PendSmall c)
    (hm : ∀ m ∈ ms, m.Fine n) (hq : FewInside k n s ms) (hz : Sized (linkSched n s .up ms).1) :
    ∃ p q, wire n (linkSched n s .up ms).2 = p ++ q ∧ p <+: wire n (linkSched n s .up ms).1 ∧ q.length ≤ k := by
  induction ms generalizing s c with
  | nil => exact ⟨[], [], rfl, List.prefix_refl _, Nat.zero_le _⟩
  | cons m ms ih =>
    have hm' : ∀ m' ∈ ms, m'.Fine n := fun m' h => hm m' (by simp [h])
    cases m with
    | lose =>
      have : linkSched n s .up (.lose :: ms) = linkSched n s .lost ms := rfl
      rw [this] at hz ⊢
      exact ⟨[], _, rfl, List.nil_prefix, link_lost_few ms hs hd hp hm' hq hz⟩
    | move m =>
      simp only [linkSched, sized_append] at hz
      simp only [linkSched, wire_append]
      obtain ⟨c', h1, h2, h3, _, h5, h6⟩ := one_move hs hd hp (hm (.move m) (by simp)) hz.1
      by_cases hcase : s.client.hung = false ∧ ∃ env, m = .event env .disconnected
      · obtain ⟨hh, env, rfl⟩ := hcase
        obtain ⟨g1, g2⟩ := h5 env rfl
        have hin : inside c ≤ k := hq.1 env rfl c hs.obj
        have := link_closed_few ms h1 h2 h3 (g1 hh) hm' hz.2
        rw [inside_same g2] at this
        rw [wire_if _ _ _ (h6 env _ rfl), List.nil_append]
        exact ⟨[], _, rfl, List.nil_prefix, Nat.le_trans this hin⟩
      · have hl : (if s.client.hung then Link.up else Link.next .up m) = .up := by
          cases hh : s.client.hung
          · simp only [Bool.false_eq_true, if_false]
            unfold Link.next
            split
            · exact absurd ⟨hh, _, rfl⟩ hcase
            · rfl
            · rfl
          · rfl
        rw [hl] at hz ⊢
        simp only [if_true]
        obtain ⟨p, q, e1, e2, e3⟩ := ih h1 h2 h3 hm' hq.2 hz.2
        refine ⟨wire n (sched n s [m]).2 ++ p, q, by rw [e1, List.append_assoc], ?_, e3⟩
        rw [List.prefix_append_right_inj]
        exact e2

/-- What arrives has been sent. -/
theorem link_sublist (n : Int) (s : Sys) (l : Link) (ms : List LinkMove) : (wire n (linkSched n s l ms).2).Sublist (wire n (linkSched n s l ms).1) := by
  induction ms generalizing s l with
  | nil => exact List.Sublist.refl _
  | cons m ms ih =>
    cases m with
    | lose => exact ih _ _
    | move m =>
      simp only [linkSched, wire_append]
      refine List.Sublist.append ?_ (ih _ _)
      generalize (if s.client.hung = true then l else l.next m) = l'
      split
      · exact List.Sublist.refl _
      · exact List.nil_sublist _

theorem few_of_map {o : Option Channel.Ch} {k : Nat} (h : o.map inside = some k) : ∀ c, o = some c → inside c ≤ k := by
  intro c hc
  rw [hc] at h
  injection h with h
  exact Nat.le_of_eq h

end Verif.System
