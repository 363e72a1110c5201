import Verif.Spec.Terminal
/-!
Helper lemmas for terminals.
-/
namespace Verif.Terminal
open Verif

theorem writeMaster_nil (env : Nat → WriteRes) (fuel k : Nat) : writeMaster env fuel k [] = ([], k, .done) := by
  cases fuel <;> simp [writeMaster]

theorem writeMaster_zero (env : Nat → WriteRes) (k : Nat) (b : UInt8) (data : Bytes) :
    writeMaster env 0 k (b :: data) = ([], k, .more) := by
  simp [writeMaster]

theorem writeMaster_succ (env : Nat → WriteRes) (fuel k : Nat) (b : UInt8) (data : Bytes) :
    writeMaster env (fuel + 1) k (b :: data) = match env k with
      | .raises => ([], k + 1, .raised)
      | .wrote n => ((b :: data).take n ++ (writeMaster env fuel (k + 1) ((b :: data).drop n)).1,
          (writeMaster env fuel (k + 1) ((b :: data).drop n)).2) := by
  rw [writeMaster]
  simp only [List.isEmpty_cons, Bool.false_eq_true, if_false]
  cases env k <;> rfl

theorem writeMaster_prefix (env : Nat → WriteRes) (fuel k : Nat) (data : Bytes) :
    (writeMaster env fuel k data).1 <+: data ∧
    ((writeMaster env fuel k data).2.2 = .done → (writeMaster env fuel k data).1 = data) := by
  induction fuel generalizing k data with
  | zero =>
    cases data with
    | nil => simp [writeMaster_nil]
    | cons b data => simp [writeMaster_zero]
  | succ fuel ih =>
    cases data with
    | nil => simp [writeMaster_nil]
    | cons b data =>
      rw [writeMaster_succ]
      cases env k with
      | raises => simp
      | wrote n =>
        obtain ⟨h1, h2⟩ := ih (k + 1) ((b :: data).drop n)
        refine ⟨?_, ?_⟩
        · simp only
          obtain ⟨t, ht⟩ := h1
          refine ⟨t, ?_⟩
          rw [List.append_assoc, ht, List.take_append_drop]
        · intro hd
          simp only at hd ⊢
          rw [h2 hd, List.take_append_drop]

theorem writeMaster_progress (env : Nat → WriteRes) (h : Progress env) (fuel k : Nat) (data : Bytes) (hf : data.length ≤ fuel) :
    (writeMaster env fuel k data).1 = data ∧ (writeMaster env fuel k data).2.2 = .done := by
  induction fuel generalizing k data with
  | zero =>
    have : data = [] := List.length_eq_zero_iff.mp (by omega)
    subst this
    simp [writeMaster_nil]
  | succ fuel ih =>
    cases data with
    | nil => simp [writeMaster_nil]
    | cons b data =>
      rw [writeMaster_succ]
      obtain ⟨n, hn⟩ := h k
      rw [hn]
      obtain ⟨h1, h2⟩ := ih (k + 1) ((b :: data).drop (n + 1)) (by simp at hf ⊢; omega)
      exact ⟨by simp only [h1, List.take_append_drop], h2⟩

theorem writeMaster_steady (env : Nat → WriteRes) (h : Steady env) (fuel k : Nat) (data : Bytes) (hf : data.length ≤ fuel) :
    k ≤ (writeMaster env fuel k data).2.1 ∧
    (((writeMaster env fuel k data).2.2 = .done ∧ ∀ j, k ≤ j → j < (writeMaster env fuel k data).2.1 → env j ≠ .raises) ∨
     ((writeMaster env fuel k data).2.2 = .raised ∧ (writeMaster env fuel k data).1 ≠ data ∧
      ∃ j, k ≤ j ∧ j < (writeMaster env fuel k data).2.1 ∧ env j = .raises)) := by
  induction fuel generalizing k data with
  | zero =>
    have : data = [] := List.length_eq_zero_iff.mp (by omega)
    subst this
    rw [writeMaster_nil]
    exact ⟨Nat.le_refl _, .inl ⟨rfl, fun j h1 h2 => absurd h1 (Nat.not_le.2 h2)⟩⟩
  | succ fuel ih =>
    cases data with
    | nil =>
      rw [writeMaster_nil]
      exact ⟨Nat.le_refl _, .inl ⟨rfl, fun j h1 h2 => absurd h1 (Nat.not_le.2 h2)⟩⟩
    | cons b data =>
      rw [writeMaster_succ]
      rcases h k with hk | ⟨n, hk⟩
      · rw [hk]
        exact ⟨Nat.le_succ k, .inr ⟨rfl, by simp, k, Nat.le_refl k, Nat.lt_succ_self k, hk⟩⟩
      · rw [hk]
        obtain ⟨h1, h2⟩ := ih (k + 1) ((b :: data).drop (n + 1)) (by simp at hf ⊢; omega)
        simp only
        refine ⟨by omega, ?_⟩
        rcases h2 with ⟨h2, h3⟩ | ⟨h2, h3, j, h4, h5, h6⟩
        · refine .inl ⟨h2, fun j hj hj' => ?_⟩
          rcases Nat.eq_or_lt_of_le hj with rfl | hj
          · rw [hk]; exact fun e => nomatch e
          · exact h3 j hj hj'
        · refine .inr ⟨h2, fun e => h3 ?_, j, by omega, h5, h6⟩
          conv at e => rhs; rw [← List.take_append_drop (n + 1) (b :: data)]
          exact List.append_cancel_left e

theorem onDataAll_steady (env : Nat → WriteRes) (h : Steady env) (fuel : Nat) (s : In) (msgs : List (Bool × Bytes))
    (hs : s.stuck = false) (hr : ∀ m ∈ msgs, m.2.length ≤ fuel) :
    (onDataAll env fuel s msgs).stuck = false ∧ s.calls ≤ (onDataAll env fuel s msgs).calls ∧ s.closes ≤ (onDataAll env fuel s msgs).closes ∧
    ((onDataAll env fuel s msgs).closes = s.closes ↔ (∀ m ∈ msgs, m.1 = true) ∧
      ∀ k, s.calls ≤ k → k < (onDataAll env fuel s msgs).calls → env k ≠ .raises) ∧
    ((onDataAll env fuel s msgs).closes = s.closes → (onDataAll env fuel s msgs).written = s.written ++ allBytes msgs) ∧
    ∃ ws : List Bytes, (onDataAll env fuel s msgs).written = s.written ++ ws.flatten ∧ ws.length = msgs.length ∧
      ∀ (i : Nat) (w : Bytes) (m : Bool × Bytes), ws[i]? = some w → msgs[i]? = some m → w <+: m.2 ∧ (m.1 = false → w = []) := by
  induction msgs generalizing s with
  | nil => exact ⟨hs, Nat.le_refl _, Nat.le_refl _, by simp [onDataAll]; omega, by simp [onDataAll, allBytes], [], by simp [onDataAll], rfl,
      fun i w m h => by simp at h⟩
  | cons m msgs ih =>
    have hl := hr m (by simp)
    obtain ⟨running, data⟩ := m
    have e : onDataAll env fuel s ((running, data) :: msgs) = onDataAll env fuel (onData env fuel s running data) msgs := rfl
    cases running with
    | false =>
      have hstep : onData env fuel s false data = { s with closes := s.closes + 1 } := by simp [onData, hs]
      obtain ⟨i1, i2, i3, i4, i5, ws, i6, i7, i8⟩ := ih (onData env fuel s false data) (by rw [hstep]; exact hs) (fun x hx => hr x (by simp [hx]))
      rw [e]
      rw [hstep] at i1 i2 i3 i6 ⊢
      simp only at i3 i6
      refine ⟨i1, i2, by omega, ⟨fun h => by omega, fun h => ?_⟩, fun h => by omega, [] :: ws, by simpa using i6, by simp [i7], ?_⟩
      · have := h.1 (false, data) (by simp)
        exact nomatch this
      · intro i w m h1 h2
        cases i with
        | zero =>
          simp only [List.getElem?_cons_zero, Option.some.injEq] at h1 h2
          subst h1; subst h2
          exact ⟨List.nil_prefix, fun _ => rfl⟩
        | succ i => exact i8 i w m (by simpa using h1) (by simpa using h2)
    | true =>
      obtain ⟨h1, h2⟩ := writeMaster_steady env h fuel s.calls data hl
      obtain ⟨h3, h4⟩ := writeMaster_prefix env fuel s.calls data
      have hm : (writeMaster env fuel s.calls data).2.2 ≠ .more := by
        rcases h2 with ⟨h2, _⟩ | ⟨h2, _⟩ <;> rw [h2] <;> exact fun e => nomatch e
      have hstuck : (onData env fuel s true data).stuck = false := by simp [onData, hs, hm]
      have hw : (onData env fuel s true data).written = s.written ++ (writeMaster env fuel s.calls data).1 := by simp [onData, hs]
      have hca : (onData env fuel s true data).calls = (writeMaster env fuel s.calls data).2.1 := by simp [onData, hs]
      have hcl : (onData env fuel s true data).closes =
          if (writeMaster env fuel s.calls data).2.2 = .raised then s.closes + 1 else s.closes := by simp [onData, hs]
      obtain ⟨i1, i2, i3, i4, i5, ws, i6, i7, i8⟩ := ih (onData env fuel s true data) hstuck (fun x hx => hr x (by simp [hx]))
      rw [hca] at i2 i4
      rw [hw] at i5 i6
      rw [e]
      have hws : ∃ ws : List Bytes, (onDataAll env fuel (onData env fuel s true data) msgs).written = s.written ++ ws.flatten ∧
          ws.length = ((true, data) :: msgs).length ∧
          ∀ (i : Nat) (w : Bytes) (m : Bool × Bytes), ws[i]? = some w → ((true, data) :: msgs)[i]? = some m → w <+: m.2 ∧ (m.1 = false → w = []) := by
        refine ⟨(writeMaster env fuel s.calls data).1 :: ws, by rw [i6]; simp, by simp [i7], ?_⟩
        intro i w m g1 g2
        cases i with
        | zero =>
          simp only [List.getElem?_cons_zero, Option.some.injEq] at g1 g2
          subst g1; subst g2
          exact ⟨h3, fun h => nomatch h⟩
        | succ i => exact i8 i w m (by simpa using g1) (by simpa using g2)
      rcases h2 with ⟨h2, h5⟩ | ⟨h2, h5, j, h6, h7, h8⟩
      · rw [h2, if_neg (by simp)] at hcl
        rw [hcl] at i3 i4 i5
        refine ⟨i1, Nat.le_trans h1 i2, i3, ?_, ?_, hws⟩
        · rw [i4]
          constructor
          · rintro ⟨g1, g2⟩
            refine ⟨?_, fun k hk hk' => ?_⟩
            · intro m hm
              rcases List.mem_cons.1 hm with rfl | hm
              · rfl
              · exact g1 m hm
            · by_cases hlt : k < (writeMaster env fuel s.calls data).2.1
              · exact h5 k hk hlt
              · exact g2 k (by omega) hk'
          · rintro ⟨g1, g2⟩
            exact ⟨fun m hm => g1 m (List.mem_cons_of_mem _ hm), fun k hk hk' => g2 k (by omega) hk'⟩
        · intro h
          rw [i5 h, h4 h2]
          simp [allBytes]
      · rw [h2, if_pos rfl] at hcl
        rw [hcl] at i3
        refine ⟨i1, Nat.le_trans h1 i2, by omega, ⟨fun h => by omega, fun h => ?_⟩, fun h => by omega, hws⟩
        exact absurd h8 (h.2 j h6 (by omega))

theorem onDataAll_progress (env : Nat → WriteRes) (h : Progress env) (fuel : Nat) (s : In) (msgs : List (Bool × Bytes))
    (hs : s.stuck = false) (hr : ∀ m ∈ msgs, m.1 = true ∧ m.2.length ≤ fuel) :
    (onDataAll env fuel s msgs).written = s.written ++ allBytes msgs ∧ (onDataAll env fuel s msgs).closes = s.closes ∧
    (onDataAll env fuel s msgs).stuck = false := by
  induction msgs generalizing s with
  | nil => simp [onDataAll, allBytes, hs]
  | cons m msgs ih =>
    obtain ⟨hm, hl⟩ := hr m (by simp)
    obtain ⟨h1, h2⟩ := writeMaster_progress env h fuel s.calls m.2 hl
    have hstep : (onData env fuel s m.1 m.2).written = s.written ++ m.2 ∧ (onData env fuel s m.1 m.2).closes = s.closes ∧
        (onData env fuel s m.1 m.2).stuck = false := by
      simp [onData, hs, hm, h1, h2]
    obtain ⟨i1, i2, i3⟩ := ih (onData env fuel s m.1 m.2) hstep.2.2 (fun x hx => hr x (by simp [hx]))
    refine ⟨?_, i2.trans hstep.2.1, i3⟩
    show (onDataAll env fuel (onData env fuel s m.1 m.2) msgs).written = _
    rw [i1, hstep.1]
    simp [allBytes]

/-! ### Closing -/

theorem pstep_inv (s : Proc) (op : POp) (h : s.hups ≤ 1 ∧ s.waits ≤ s.hups ∧ (s.hups = 1 → s.closed = true)) :
    (pstep s op).hups ≤ 1 ∧ (pstep s op).waits ≤ (pstep s op).hups ∧ ((pstep s op).hups = 1 → (pstep s op).closed = true) := by
  obtain ⟨h1, h2, h3⟩ := h
  cases op with
  | fork => exact ⟨h1, h2, h3⟩
  | setPid => simp only [pstep]; split <;> exact ⟨h1, h2, h3⟩
  | close killOk startOk =>
    simp only [pstep]
    split
    · rename_i hc
      simp at hc
      have h0 : s.hups = 0 := by
        rcases Nat.lt_or_ge s.hups 1 with h | h
        · omega
        · have := h3 (by omega); rw [hc.1] at this; simp at this
      split
      · refine ⟨by simp [h0], ?_, by simp⟩
        cases startOk <;> simp <;> omega
      · exact ⟨h1, h2, h3⟩
    · exact ⟨h1, h2, fun _ => rfl⟩

theorem prun_inv (s : Proc) (ops : List POp) (h : s.hups ≤ 1 ∧ s.waits ≤ s.hups ∧ (s.hups = 1 → s.closed = true)) :
    (prun s ops).hups ≤ 1 ∧ (prun s ops).waits ≤ (prun s ops).hups ∧ ((prun s ops).hups = 1 → (prun s ops).closed = true) := by
  induction ops generalizing s with
  | nil => exact h
  | cons op ops ih => exact ih _ (pstep_inv s op h)

/-- A closed process object never sends a signal again. -/
theorem prun_closed (s : Proc) (ops : List POp) (h : s.closed = true) : (prun s ops).hups = s.hups ∧ (prun s ops).closed = true := by
  induction ops generalizing s with
  | nil => exact ⟨rfl, h⟩
  | cons op ops ih =>
    have hs : (pstep s op).hups = s.hups ∧ (pstep s op).closed = true := by
      cases op with
      | fork => exact ⟨rfl, h⟩
      | setPid => simp only [pstep]; split <;> exact ⟨rfl, h⟩
      | close a b => simp [pstep, h]
    obtain ⟨i1, i2⟩ := ih _ hs.2
    exact ⟨i1.trans hs.1, i2⟩

/-! ### The wait thread -/

theorem waitLoop_sent (ws : List Int) (ts : List Tick) : kills (waitLoop ws true ts) = 0 := by
  induction ts generalizing ws with
  | nil => simp only [waitLoop]; split <;> decide
  | cons t ts ih =>
    cases ws with
    | nil => simp [waitLoop, kills]
    | cons w ws =>
      simp only [waitLoop]
      split
      · decide
      · have := ih (if decide (t.time ≥ w) = true then ws else w :: ws)
        simp only [kills, List.flatten_cons, List.count_append, Bool.true_or, Bool.not_true, Bool.false_and] at this ⊢
        rw [this]
        split <;> simp

theorem waitLoop_once (ws : List Int) (ts : List Tick) : kills (waitLoop ws false ts) ≤ 1 := by
  induction ts generalizing ws with
  | nil => simp only [waitLoop]; split <;> decide
  | cons t ts ih =>
    cases ws with
    | nil => simp [waitLoop, kills]
    | cons w ws =>
      simp only [waitLoop]
      split
      · decide
      · by_cases hk : t.time ≥ killTime
        · have := waitLoop_sent (if decide (t.time ≥ w) = true then ws else w :: ws) ts
          simp only [kills, List.flatten_cons, List.count_append, hk] at this ⊢
          simp only [Bool.not_false, decide_true, Bool.and_self, Bool.or_true, this]
          split <;> simp
        · have := ih (if decide (t.time ≥ w) = true then ws else w :: ws)
          simp only [kills, List.flatten_cons, List.count_append, hk] at this ⊢
          simp only [Bool.not_false, decide_false, Bool.and_false, Bool.or_false]
          have h0 : (if decide (t.time ≥ w) = true then [WAct.warn] else []).count .kill = 0 := by split <;> simp
          rw [h0]
          simpa using this

theorem waitLoop_when (ws : List Int) (b : Bool) (ts : List Tick) (j : Nat) (a : List WAct) (h : (waitLoop ws b ts)[j]? = some a)
    (hk : WAct.kill ∈ a) : ∃ t, ts[j]? = some t ∧ t.exited = false ∧ t.time ≥ 15 := by
  induction ts generalizing ws b j with
  | nil =>
    simp only [waitLoop] at h
    split at h
    · cases j with
      | zero => simp at h; subst h; simp at hk
      | succ j => simp at h
    · simp at h
  | cons t ts ih =>
    cases ws with
    | nil =>
      simp only [waitLoop] at h
      cases j with
      | zero => simp at h; subst h; simp at hk
      | succ j => simp at h
    | cons w ws =>
      simp only [waitLoop] at h
      split at h
      · cases j with
        | zero => simp at h; subst h; simp at hk
        | succ j => simp at h
      · rename_i he
        cases j with
        | zero =>
          simp only [List.getElem?_cons_zero, Option.some.injEq] at h
          subst h
          refine ⟨t, rfl, by simpa using he, ?_⟩
          rcases List.mem_append.mp hk with h | h
          · split at h <;> simp at h
          · split at h
            · rename_i hh; simp [killTime] at hh; exact hh.2
            · simp at h
        | succ j =>
          simp only [List.getElem?_cons_succ] at h
          obtain ⟨t', h1, h2⟩ := ih _ _ j h
          exact ⟨t', by simpa using h1, h2⟩

/-- While the kill signal was not sent the warnings 30 s and later are still there, so the loop goes on. -/

theorem waitLoop_reaped (ws : List Int) (b : Bool) (ts : List Tick) (j : Nat) (t : Tick) (ht : ts[j]? = some t) (he : t.exited = true)
    (hb : ∃ w ∈ ws, ∀ u ∈ ts.take j, u.exited = false ∧ u.time < w) :
    (waitLoop ws b ts)[j]? = some [.reaped] ∧ (waitLoop ws b ts).length = j + 1 := by
  induction ts generalizing ws b j with
  | nil => exact nomatch ht
  | cons u ts ih =>
    obtain ⟨w0, hw0, hb⟩ := hb
    cases ws with
    | nil => exact nomatch hw0
    | cons w ws =>
      cases j with
      | zero =>
        injection ht with ht
        subst ht
        simp only [waitLoop, he, if_true]
        exact ⟨rfl, rfl⟩
      | succ j =>
        have hu := hb u (by simp)
        have hpre : ∃ w' ∈ (if decide (u.time ≥ w) = true then ws else w :: ws), ∀ u ∈ ts.take j, u.exited = false ∧ u.time < w' := by
          refine ⟨w0, ?_, fun x hx => hb x (by simp [hx])⟩
          split
          · rename_i hd
            rcases List.mem_cons.1 hw0 with rfl | h
            · have := of_decide_eq_true hd
              omega
            · exact h
          · exact hw0
        have := ih (if decide (u.time ≥ w) = true then ws else w :: ws) (b || (!b && decide (u.time ≥ killTime))) j ht hpre
        simp only [waitLoop, hu.1, Bool.false_eq_true, if_false, List.getElem?_cons_succ, List.length_cons]
        exact ⟨this.1, by rw [this.2]⟩

theorem waitLoop_collects (ws : List Int) (b : Bool) (ts : List Tick) (j : Nat) (a : List WAct) (h : (waitLoop ws b ts)[j]? = some a)
    (hr : WAct.reaped ∈ a) : ∃ t, ts[j]? = some t ∧ t.exited = true := by
  induction ts generalizing ws b j with
  | nil =>
    simp only [waitLoop] at h
    split at h
    · cases j with
      | zero => injection h with h; subst h; exact absurd hr (by decide)
      | succ j => exact nomatch h
    · exact nomatch h
  | cons u ts ih =>
    cases ws with
    | nil =>
      simp only [waitLoop] at h
      cases j with
      | zero => injection h with h; subst h; exact absurd hr (by decide)
      | succ j => exact nomatch h
    | cons w ws =>
      simp only [waitLoop] at h
      split at h
      · rename_i hu
        cases j with
        | zero => exact ⟨u, rfl, hu⟩
        | succ j => exact nomatch h
      · cases j with
        | zero =>
          injection h with h
          subst h
          exfalso
          revert hr
          split <;> split <;> decide
        | succ j => exact ih _ _ j h

theorem waitLoop_gives_up (ws : List Int) (b : Bool) (ts : List Tick) (j : Nat) (a : List WAct) (h : (waitLoop ws b ts)[j]? = some a)
    (hg : WAct.givesUp ∈ a) : ws.length ≤ j ∧ (∀ t ∈ ts.take j, t.exited = false) ∧ ∀ w ∈ ws, ∃ t ∈ ts.take j, t.time ≥ w := by
  induction ts generalizing ws b j with
  | nil =>
    simp only [waitLoop] at h
    split at h
    · rename_i hw
      have : ws = [] := by simpa using hw
      subst this
      simp
    · exact nomatch h
  | cons u ts ih =>
    cases ws with
    | nil =>
      simp only [waitLoop] at h
      cases j with
      | zero => simp
      | succ j => exact nomatch h
    | cons w ws =>
      simp only [waitLoop] at h
      split at h
      · cases j with
        | zero => injection h with h; subst h; exact absurd hg (by decide)
        | succ j => exact nomatch h
      · rename_i hu
        have hu : u.exited = false := by simpa using hu
        cases j with
        | zero =>
          injection h with h
          subst h
          exfalso
          revert hg
          split <;> split <;> decide
        | succ j =>
          obtain ⟨h1, h2, h3⟩ := ih _ _ j h
          refine ⟨?_, ?_, ?_⟩
          · split at h1
            · simp only [List.length_cons]; omega
            · simp only [List.length_cons] at h1 ⊢; omega
          · intro t ht
            rcases List.mem_cons.1 (List.take_succ_cons ▸ ht) with rfl | ht
            · exact hu
            · exact h2 t ht
          · intro w' hw'
            rw [List.take_succ_cons]
            by_cases hd : decide (u.time ≥ w) = true
            · rw [if_pos hd] at h3
              rcases List.mem_cons.1 hw' with rfl | hw'
              · exact ⟨u, by simp, of_decide_eq_true hd⟩
              · obtain ⟨t, ht, h⟩ := h3 w' hw'
                exact ⟨t, by simp [ht], h⟩
            · rw [if_neg hd] at h3
              obtain ⟨t, ht, h⟩ := h3 w' hw'
              exact ⟨t, by simp [ht], h⟩

theorem waitLoop_left (ws : List Int) (b : Bool) (ts : List Tick) (hl : ws.length ≤ ts.length)
    (hx : ∀ t ∈ ts, t.exited = false ∧ ∀ w ∈ ws, t.time ≥ w) : (waitLoop ws b ts)[ws.length]? = some [.givesUp] := by
  induction ws generalizing ts b with
  | nil => cases ts <;> rfl
  | cons w ws ih =>
    cases ts with
    | nil => simp at hl
    | cons u ts =>
      have hu := hx u (by simp)
      have hd : decide (u.time ≥ w) = true := decide_eq_true (hu.2 w (by simp))
      simp only [waitLoop, hu.1, Bool.false_eq_true, if_false, hd, if_true, List.length_cons, List.getElem?_cons_succ]
      exact ih _ ts (by simpa using hl) fun t ht => ⟨(hx t (by simp [ht])).1, fun w' hw' => (hx t (by simp [ht])).2 w' (by simp [hw'])⟩

theorem waitLoop_escalates (pre ws : List Int) (hpre : ∀ w ∈ pre, w < 15) (hw : ws = pre ++ [30, 60, 60 * 10, 60 * 60, 60 * 60 * 24])
    (ts : List Tick) (hx : ∀ t ∈ ts, t.exited = false) (ht : ∃ t ∈ ts, t.time ≥ 15) : kills (waitLoop ws false ts) = 1 := by
  induction ts generalizing pre ws with
  | nil => obtain ⟨t, h, -⟩ := ht; simp at h
  | cons t ts ih =>
    obtain ⟨w, ws', hws⟩ : ∃ w ws', ws = w :: ws' := by
      cases ws with
      | nil => rw [List.nil_eq] at hw; simp at hw
      | cons w ws' => exact ⟨w, ws', rfl⟩
    subst hws
    have hex : ¬ t.exited = true := by rw [hx t (by simp)]; simp
    simp only [waitLoop, hex]
    by_cases hk : t.time ≥ killTime
    · have := waitLoop_sent (if decide (t.time ≥ w) = true then ws' else w :: ws') ts
      simp only [kills] at this
      simp only [Bool.false_eq_true, if_false, kills, List.flatten_cons, List.count_append, hk, Bool.not_false, decide_true, Bool.and_self,
        Bool.or_true, this]
      split <;> simp
    · have ht' : ∃ t ∈ ts, t.time ≥ 15 := by
        obtain ⟨u, hu, h15⟩ := ht
        rcases List.mem_cons.mp hu with rfl | hu
        · exact absurd h15 hk
        · exact ⟨u, hu, h15⟩
      have hnext : ∃ pre', (∀ w ∈ pre', w < 15) ∧
          (if decide (t.time ≥ w) = true then ws' else w :: ws') = pre' ++ [30, 60, 60 * 10, 60 * 60, 60 * 60 * 24] := by
        split
        · rename_i hge
          simp at hge
          cases pre with
          | nil => simp at hw; simp [killTime] at hk; omega
          | cons p pre =>
            simp at hw
            exact ⟨pre, fun x hx => hpre x (by simp [hx]), hw.2⟩
        · exact ⟨pre, hpre, hw⟩
      obtain ⟨pre', hp1, hp2⟩ := hnext
      have := ih pre' _ hp1 hp2 (fun x hx' => hx x (by simp [hx'])) ht'
      simp only [kills] at this
      have h0 : (if decide (t.time ≥ w) = true then [WAct.warn] else []).count .kill = 0 := by split <;> simp
      simp only [Bool.false_eq_true, if_false, kills, List.flatten_cons, List.count_append, hk, Bool.not_false, decide_false, Bool.and_false,
        Bool.or_false, h0, this]
      simp

/-! ### Window size -/

theorem setPtySize_fits (s : Int × Int) (d : Option Win) (h : fits s) : setPtySize s d = some { cols := s.1, rows := s.2 } := by
  obtain ⟨h1, h2, h3, h4⟩ := h
  have a : toUnsigned s.1 = s.1 := Int.emod_eq_of_lt h1 (by omega)
  have b : toUnsigned s.2 = s.2 := Int.emod_eq_of_lt h3 (by omega)
  have h1' : -32768 ≤ s.1 := by omega
  have h3' : -32768 ≤ s.2 := by omega
  simp [setPtySize, fitsShort, h1', h2, h3', h4, a, b]

theorem sstep_size (p : Pty) (ops : List SOp) : (srun p ops).size = lastSize p.size ops := by
  induction ops generalizing p with
  | nil => rfl
  | cons op ops ih => show (srun (sstep p op) ops).size = _
                      rw [ih]; cases op <;> rfl

theorem srun_device (p : Pty) (ops : List SOp) (hf : ∀ s, .resize s ∈ ops → fits s) (h0 : fits p.size)
    (hd : p.fd = true → p.device = some { cols := p.size.1, rows := p.size.2 }) :
    (srun p ops).fd = true → (srun p ops).device = some { cols := (lastSize p.size ops).1, rows := (lastSize p.size ops).2 } := by
  induction ops generalizing p with
  | nil => exact hd
  | cons op ops ih =>
    have hf' := fun s hs => hf s (List.mem_cons_of_mem op hs)
    cases op with
    | start =>
      exact ih (sstep p .start) hf' h0 (fun _ => setPtySize_fits p.size p.device h0)
    | resize s =>
      have hs := hf s (by simp)
      exact ih (sstep p (.resize s)) hf' hs (fun h => by
        have h' : p.fd = true := h
        show (if p.fd then setPtySize s p.device else p.device) = _
        rw [if_pos h', setPtySize_fits s p.device hs]; rfl)
    | stop => exact ih (sstep p .stop) hf' h0 (fun h => by simp [sstep] at h)

/-! ### Output -/

theorem readBytes_append (a b : List Act) : readBytes (a ++ b) = readBytes a ++ readBytes b := by simp [readBytes]
theorem wroteBytes_append (a b : List Act) : wroteBytes (a ++ b) = wroteBytes a ++ wroteBytes b := by simp [wroteBytes]

theorem copyEvents_same (es : List PollEv) : wroteBytes (copyEvents es).1 = readBytes (copyEvents es).1 ∧
    ∀ a ∈ (copyEvents es).1, (∃ d, a = .read d) ∨ ∃ d, a = .write d := by
  induction es with
  | nil => exact ⟨rfl, by simp [copyEvents]⟩
  | cons e es ih =>
    simp only [copyEvents]
    split
    · split
      · exact ⟨rfl, by simp⟩
      · rename_i d _
        have hd : wroteBytes [.read d, .write d] = readBytes [.read d, .write d] ∧
          ∀ a ∈ [Act.read d, .write d], (∃ d, a = .read d) ∨ ∃ d, a = .write d := by
          refine ⟨by simp [wroteBytes, readBytes], ?_⟩
          intro a ha; simp at ha; rcases ha with h | h; exact .inl ⟨_, h⟩; exact .inr ⟨_, h⟩
        split
        · exact hd
        · split
          · exact hd
          · refine ⟨?_, ?_⟩
            · show wroteBytes ([.read d, .write d] ++ _) = readBytes ([.read d, .write d] ++ _)
              rw [wroteBytes_append, readBytes_append, hd.1, ih.1]
            · intro a ha
              have ha : a ∈ [Act.read d, .write d] ++ (copyEvents es).1 := ha
              rcases List.mem_append.mp ha with h | h
              · exact hd.2 a h
              · exact ih.2 a h
    · split
      · exact ⟨rfl, by simp⟩
      · exact ih

theorem copyLoop_same (poll : Nat → Option (List PollEv)) (fuel k : Nat) :
    wroteBytes (copyLoop poll fuel k).1 = readBytes (copyLoop poll fuel k).1 ∧
    ∀ a ∈ (copyLoop poll fuel k).1, (∃ d, a = .read d) ∨ ∃ d, a = .write d := by
  induction fuel generalizing k with
  | zero => exact ⟨rfl, by simp [copyLoop]⟩
  | succ fuel ih =>
    simp only [copyLoop]
    split
    · exact ⟨rfl, by simp⟩
    · rename_i es _
      have h := copyEvents_same es
      split
      · rename_i acts hc
        rw [hc] at h
        obtain ⟨i1, i2⟩ := ih (k + 1)
        refine ⟨by rw [wroteBytes_append, readBytes_append, h.1, i1], ?_⟩
        intro a ha
        rcases List.mem_append.mp ha with h' | h'
        · exact h.2 a h'
        · exact i2 a h'
      · exact h

end Verif.Terminal
