import Verif.Proofs.DirectoryScanner
/-!
Lemmas for C120: the scanner by itself.
-/
namespace Verif.DirectoryScanner
open Verif

/-- What a thread has got from its scan. -/
def made : Phase → Option Bytes
  | .scanned j | .writing j _ | .written j | .finished j _ => some j
  | _ => none

/-- The thread has opened the file and has not reported a success. -/
def dirty : Phase → Prop
  | .writing _ _ | .written _ | .failed true | .finished _ false => True
  | _ => False

theorem request_file (s : State) (f : Option Bytes) (p : Bool) (st : Option Text) :
    { request s p st with file := f } = request { s with file := f } p st := by
  simp only [request]
  split
  · rfl
  · split
    · split <;> rfl
    · rfl

theorem request_phase {s : State} (h : Inv s) (p : Bool) (st : Option Text) (u : Nat) :
    (request s p st).phase u = s.phase u ∨
      (s.phase u = .absent ∧ made ((request s p st).phase u) = none) := by
  have habs := h.fresh s.next (Nat.le_refl _)
  by_cases hu : u = s.next
  · refine .inr ⟨by rw [hu]; exact habs, ?_⟩
    subst hu
    simp only [request]
    split
    · simp [State.set, made]
    · split
      · split <;> simp [State.set, made]
      · simp [State.set, made]
  · refine .inl ?_
    simp only [request]
    split
    · simp [State.set, hu]
    · split
      · split <;> simp [State.set, hu]
      · simp [State.set, hu]

theorem request_next (s : State) (p : Bool) (st : Option Text) : (request s p st).next = s.next + 1 := by
  simp only [request]
  split
  · rfl
  · split
    · split <;> rfl
    · rfl

theorem request_replies (s : State) (st : Option Text) (hl : st ≠ none → s.lock = none) :
    (request s true st).replies.length = s.replies.length + (if st = none then 0 else 1) := by
  simp only [request]
  cases st with
  | none => split <;> simp [State.set]
  | some e => simp [hl (by simp), State.set]

theorem step_next (s : State) (op : Op) (h : ∀ p st, op ≠ .request p st) : (step s op).next = s.next := by
  cases op with
  | request p st => exact absurd rfl (h p st)
  | acquire t =>
    simp only [step]
    split
    · split <;> rfl
    · rfl
  | scan t out =>
    simp only [step]
    split
    · split <;> rfl
    · rfl
  | openFile t ok =>
    simp only [step]
    split
    · split <;> rfl
    · rfl
  | write t n => simp only [step]; split <;> rfl
  | writeFails t => simp only [step]; split <;> rfl
  | close t => simp only [step]; split <;> rfl
  | report t ok =>
    simp only [step]
    split
    · split <;> rfl
    · rfl

/-- What a thread has got is what the scan gave. -/
theorem step_made (s : State) (op : Op) (h : ∀ p st, op ≠ .request p st) (t : Nat) (j : Bytes)
    (hm : made ((step s op).phase t) = some j) : made (s.phase t) = some j ∨ op = .scan t (some j) := by
  have key : ∀ (u : Nat) (p : Phase), (made p = made (s.phase u) ∨ made p = none) → ∀ f : Nat → Phase, f = (s.set u p).phase → made (f t) = some j →
      made (s.phase t) = some j := by
    intro u p hp f hf hm
    subst hf
    simp only [State.set] at hm
    split at hm
    · rename_i hu
      subst hu
      rcases hp with hp | hp
      · rw [← hp]; exact hm
      · rw [hp] at hm; exact (nomatch hm)
    · exact hm
  cases op with
  | request p st => exact absurd rfl (h p st)
  | acquire u =>
    refine .inl ?_
    simp only [step] at hm
    split at hm
    · split at hm
      · exact key u .scanning (.inr rfl) _ rfl hm
      · exact hm
    · exact hm
  | scan u out =>
    simp only [step] at hm
    split at hm
    · split at hm
      · exact .inl (key u (.failed false) (.inr rfl) _ rfl hm)
      · rename_i json
        simp only [State.set] at hm
        split at hm
        · rename_i hu
          subst hu
          simp only [made, Option.some.injEq] at hm
          subst hm
          exact .inr rfl
        · exact .inl hm
    · exact .inl hm
  | openFile u ok =>
    refine .inl ?_
    simp only [step] at hm
    split at hm
    · rename_i json hp
      split at hm
      · exact key u (.writing json json) (.inl (by rw [hp]; rfl)) _ rfl hm
      · exact key u (.failed false) (.inr rfl) _ rfl hm
    · exact hm
  | write u n =>
    refine .inl ?_
    simp only [step] at hm
    split at hm
    · rename_i json rest hp
      exact key u (.writing json (rest.drop n)) (.inl (by rw [hp]; rfl)) _ rfl hm
    · exact hm
  | writeFails u =>
    refine .inl ?_
    simp only [step] at hm
    split at hm
    · exact key u (.failed true) (.inr rfl) _ rfl hm
    · exact hm
  | close u =>
    refine .inl ?_
    simp only [step] at hm
    split at hm
    · rename_i json hp
      exact key u (.written json) (.inl (by rw [hp]; rfl)) _ rfl hm
    · exact hm
  | report u ok =>
    refine .inl ?_
    simp only [step] at hm
    split at hm
    · rename_i json hp
      split at hm
      · exact key u (.finished json (s.packet u && ok)) (.inl (by rw [hp]; rfl)) _ rfl hm
      · exact key u (.finished json (s.packet u && ok)) (.inl (by rw [hp]; rfl)) _ rfl hm
    · exact hm

/-- A step of a thread: either a success is reported, or who has opened the file without success stays so, and without such a thread the
file stays as it is or such a thread appears. -/
theorem step_dirty (s : State) (op : Op) (h : ∀ p st, op ≠ .request p st)
    (hr : (step s op).replies = s.replies) :
    ((∃ u, dirty (s.phase u)) → ∃ u, dirty ((step s op).phase u)) ∧
    ((step s op).file = s.file ∨ ∃ u, dirty ((step s op).phase u)) := by
  have key : ∀ (t : Nat) (p : Phase) (f : Nat → Phase), f = (s.set t p).phase → (dirty (s.phase t) → dirty p) →
      (∃ u, dirty (s.phase u)) → ∃ u, dirty (f u) := by
    intro t p f hf hp ⟨u, hu⟩
    subst hf
    refine ⟨u, ?_⟩
    simp only [State.set]
    split
    · rename_i e; subst e; exact hp hu
    · exact hu
  cases op with
  | request p st => exact absurd rfl (h p st)
  | acquire t =>
    simp only [step]
    split
    · rename_i hp
      split
      · exact ⟨key t .scanning _ rfl (by rw [hp]; exact id), .inl rfl⟩
      · exact ⟨id, .inl rfl⟩
    · exact ⟨id, .inl rfl⟩
  | scan t out =>
    simp only [step]
    split
    · rename_i hp
      split
      · exact ⟨key t (.failed false) _ rfl (by rw [hp]; exact id), .inl rfl⟩
      · exact ⟨key t (.scanned _) _ rfl (by rw [hp]; exact id), .inl rfl⟩
    · exact ⟨id, .inl rfl⟩
  | openFile t ok =>
    simp only [step]
    split
    · rename_i json hp
      split
      · exact ⟨key t (.writing json json) _ rfl (fun _ => trivial), .inr ⟨t, by simp [State.set, dirty]⟩⟩
      · exact ⟨key t (.failed false) _ rfl (by rw [hp]; exact id), .inl rfl⟩
    · exact ⟨id, .inl rfl⟩
  | write t n =>
    simp only [step]
    split
    · rename_i json rest hp
      exact ⟨key t (.writing json (rest.drop n)) _ rfl (fun _ => trivial), .inr ⟨t, by simp [State.set, dirty]⟩⟩
    · exact ⟨id, .inl rfl⟩
  | writeFails t =>
    simp only [step]
    split
    · exact ⟨key t (.failed true) _ rfl (fun _ => trivial), .inl rfl⟩
    · exact ⟨id, .inl rfl⟩
  | close t =>
    simp only [step]
    split
    · exact ⟨key t (.written _) _ rfl (fun _ => trivial), .inl rfl⟩
    · exact ⟨id, .inl rfl⟩
  | report t ok =>
    simp only [step] at hr ⊢
    split
    · rename_i json hp
      rw [hp] at hr
      simp only at hr
      split at hr
      · simp [State.set] at hr
      · rename_i hs
        rw [if_neg hs]
        refine ⟨key t (.finished json (s.packet t && ok)) _ rfl (fun _ => ?_), .inl rfl⟩
        cases hb : s.packet t && ok with
        | false => trivial
        | true => exact absurd hb hs
    · exact ⟨id, .inl rfl⟩

/-- A step of a thread sends at most one message, and this only in reporting success. -/
theorem step_replies (s : State) (op : Op) (h : ∀ p st, op ≠ .request p st) :
    (step s op).replies = s.replies ∨ ∃ t json, op = .report t true ∧ s.phase t = .written json ∧
      (step s op).replies.length = s.replies.length + 1 ∧ (step s op).file = s.file := by
  cases op with
  | request p st => exact absurd rfl (h p st)
  | acquire t =>
    simp only [step]
    split
    · split <;> exact .inl rfl
    · exact .inl rfl
  | scan t out =>
    simp only [step]
    split
    · split <;> exact .inl rfl
    · exact .inl rfl
  | openFile t ok =>
    simp only [step]
    split
    · split <;> exact .inl rfl
    · exact .inl rfl
  | write t n => simp only [step]; split <;> exact .inl rfl
  | writeFails t => simp only [step]; split <;> exact .inl rfl
  | close t => simp only [step]; split <;> exact .inl rfl
  | report t ok =>
    simp only [step]
    split
    · rename_i json hp
      split
      · rename_i hs
        have : ok = true := by cases ok <;> simp_all
        subst this
        exact .inr ⟨t, json, rfl, hp, by simp [State.set], rfl⟩
      · exact .inl rfl
    · exact .inl rfl

/-! ### Counting -/

/-- Messages to `n` requests, at most one to each: there are no more than `n`, and if there are `n`, each request has one. -/
theorem pigeon (n : Nat) (l : List (Nat × Text)) (h1 : ∀ t, (l.filter (fun r => r.1 = t)).length ≤ 1)
    (h2 : ∀ t, n ≤ t → l.filter (fun r => r.1 = t) = []) :
    l.length ≤ n ∧ (n ≤ l.length → ∀ t, t < n → l.filter (fun r => r.1 = t) ≠ []) := by
  induction n generalizing l with
  | zero =>
    refine ⟨?_, fun _ t ht => absurd ht (Nat.not_lt_zero _)⟩
    cases l with
    | nil => exact Nat.le_refl _
    | cons a l => exact absurd (h2 a.1 (Nat.zero_le _)) (by simp)
  | succ n ih =>
    have hsplit : ∀ l : List (Nat × Text), l.length = (l.filter (fun r => r.1 = n)).length + (l.filter (fun r => ¬ r.1 = n)).length := by
      intro l
      induction l with
      | nil => rfl
      | cons a l ih =>
        by_cases h : a.1 = n
        · rw [List.filter_cons_of_pos (by simp [h]), List.filter_cons_of_neg (by simp [h])]; simp only [List.length_cons]; omega
        · rw [List.filter_cons_of_neg (by simp [h]), List.filter_cons_of_pos (by simp [h])]; simp only [List.length_cons]; omega
    have hf : ∀ t, t ≠ n → (l.filter (fun r => ¬ r.1 = n)).filter (fun r => r.1 = t) = l.filter (fun r => r.1 = t) := by
      intro t ht
      rw [List.filter_filter]
      congr 1
      funext r
      by_cases h : r.1 = t <;> simp [h, ht]
    have hn : (l.filter (fun r => ¬ r.1 = n)).filter (fun r => r.1 = n) = [] := by
      rw [List.filter_filter, List.filter_eq_nil_iff]
      intro r _
      by_cases h : r.1 = n <;> simp [h]
    obtain ⟨i1, i2⟩ := ih (l.filter (fun r => ¬ r.1 = n))
      (by intro t; by_cases ht : t = n
          · rw [ht, hn]; simp
          · rw [hf t ht]; exact h1 t)
      (by intro t ht; by_cases ht' : t = n
          · rw [ht', hn]
          · rw [hf t ht']; exact h2 t (by omega))
    have := hsplit l
    have := h1 n
    refine ⟨by omega, fun hge t ht => ?_⟩
    by_cases ht' : t = n
    · rw [ht']
      intro he
      rw [he] at this
      simp at this
      have h3 := hsplit l
      rw [he] at h3
      simp at h3
      simp at i1
      omega
    · rw [← hf t ht']
      exact i2 (by omega) t (by omega)

/-- As many messages as requests: every thread has reported. -/
theorem settled {s : State} (h : Inv s) (hn : s.next ≤ s.replies.length) (t : Nat) : ¬ dirty (s.phase t) := by
  have hlen : ∀ t, (s.replies.filter (fun r => r.1 = t)).length ≤ 1 := by
    intro t
    have := h.replies t
    have h2 : (repliesTo s t).length = (s.replies.filter (fun r => r.1 = t)).length := by simp [repliesTo]
    rw [← h2, this]
    unfold answer
    split
    · split <;> simp
    · split <;> simp
    · simp
  have hfr : ∀ t, s.next ≤ t → s.replies.filter (fun r => r.1 = t) = [] := by
    intro t ht
    have := h.replies t
    rw [h.fresh t ht] at this
    have h3 : (repliesTo s t) = [] := this
    simpa [repliesTo] using h3
  by_cases ht : t < s.next
  · have h1 := (pigeon s.next s.replies hlen hfr).2 hn t ht
    have h2 := h.replies t
    intro hd
    apply h1
    have : answer (s.packet t) (s.phase t) = [] := by
      revert hd
      cases s.phase t with
      | finished j b => cases b <;> simp [dirty, answer]
      | failed b => simp [answer]
      | _ => simp [dirty, answer]
    rw [this] at h2
    simpa [repliesTo] using h2
  · rw [h.fresh t (by omega)]
    exact id

end Verif.DirectoryScanner
