import Verif.Spec.KillTime
import Verif.Proofs.Terminal
/-!
C192: when a process that does not exit gets the kill signal, by the time that has passed.
-/
namespace Verif.Terminal
open Verif

theorem none_of_kills {as : List (List WAct)} (h : kills as = 0) (j : Nat) : ¬ ∃ a, as[j]? = some a ∧ WAct.kill ∈ a := by
  rintro ⟨a, h1, h2⟩
  have hm : a ∈ as := List.mem_of_getElem? h1
  exact List.count_eq_zero.1 h (List.mem_flatten.2 ⟨a, hm, h2⟩)

theorem kill_iff (ts : List Tick) : ∀ ws : List Int, (∃ w ∈ ws, 15 ≤ w) → ∀ j,
    (∃ a, (waitLoop ws false ts)[j]? = some a ∧ WAct.kill ∈ a) ↔
    ∃ t, ts[j]? = some t ∧ t.time ≥ 15 ∧ t.exited = false ∧ ∀ u ∈ ts.take j, u.exited = false ∧ u.time < 15 := by
  induction ts with
  | nil =>
    rintro (_ | ⟨w, ws⟩) ⟨x, hx, -⟩ j
    · exact (nomatch hx)
    · simp [waitLoop]
  | cons t ts ih =>
    rintro (_ | ⟨w, ws⟩) ⟨x, hx, hx15⟩ j
    · exact (nomatch hx)
    · cases he : t.exited with
      | true =>
        simp only [waitLoop, he, if_true]
        constructor
        · rintro ⟨a, h1, h2⟩
          have hm := List.mem_of_getElem? h1
          rw [List.mem_singleton] at hm
          subst hm
          simp at h2
        · rintro ⟨u, h1, -, h3, h4⟩
          cases j with
          | zero =>
            simp at h1
            subst h1
            rw [he] at h3
            exact (nomatch h3)
          | succ j =>
            have := (h4 t (by simp)).1
            rw [he] at this
            exact (nomatch this)
      | false =>
        simp only [waitLoop, he, Bool.false_eq_true, if_false, Bool.not_false, Bool.true_and, Bool.false_or]
        cases j with
        | zero =>
          simp only [List.getElem?_cons_zero, List.take_zero]
          by_cases hk : t.time ≥ 15
          · have hk' : decide (t.time ≥ killTime) = true := decide_eq_true hk
            rw [hk']
            constructor
            · intro _; exact ⟨t, rfl, hk, he, fun u hu => (nomatch hu)⟩
            · intro _; exact ⟨_, rfl, by simp⟩
          · have hk' : decide (t.time ≥ killTime) = false := decide_eq_false hk
            rw [hk']
            constructor
            · rintro ⟨a, h1, h2⟩
              injection h1 with h1
              rw [← h1] at h2
              split at h2 <;> simp at h2
            · rintro ⟨u, h1, h2, -⟩
              injection h1 with h1
              rw [← h1] at h2
              exact absurd h2 hk
        | succ j =>
          simp only [List.getElem?_cons_succ, List.take_succ_cons]
          by_cases hk : t.time ≥ 15
          · have hk' : decide (t.time ≥ killTime) = true := decide_eq_true hk
            rw [hk']
            constructor
            · intro h
              exact absurd h (none_of_kills (waitLoop_sent _ ts) j)
            · rintro ⟨u, -, -, -, h4⟩
              have := (h4 t List.mem_cons_self).2
              omega
          · have hk' : decide (t.time ≥ killTime) = false := decide_eq_false hk
            rw [hk']
            have hin : ∃ y ∈ (if decide (t.time ≥ w) = true then ws else w :: ws), 15 ≤ y := by
              by_cases hw : t.time ≥ w
              · rw [if_pos (decide_eq_true hw)]
                rcases List.mem_cons.1 hx with rfl | hx
                · omega
                · exact ⟨x, hx, hx15⟩
              · rw [if_neg (by simpa using hw)]
                exact ⟨x, hx, hx15⟩
            rw [ih _ hin j]
            constructor
            · rintro ⟨u, h1, h2, h3, h4⟩
              refine ⟨u, h1, h2, h3, fun v hv => ?_⟩
              rcases List.mem_cons.1 hv with rfl | hv
              · exact ⟨he, by omega⟩
              · exact h4 v hv
            · rintro ⟨u, h1, h2, h3, h4⟩
              exact ⟨u, h1, h2, h3, fun v hv => h4 v (List.mem_cons_of_mem _ hv)⟩

/-- C192, exactly: the kill signal is sent at the first look at which the clock shows 15 seconds more than at the start, if the process runs then. -/
theorem c192_iff (ls : List Look) (j : Nat) :
    KilledAt ls j ↔ ∃ l, ls[j]? = some l ∧ 15 ≤ l.real + l.set ∧ l.runs = true ∧ ∀ u ∈ ls.take j, u.runs = true ∧ u.real + u.set < 15 := by
  unfold KilledAt acts
  rw [kill_iff _ warnTimes ⟨30, by decide, by decide⟩ j]
  constructor
  · rintro ⟨t, h1, h2, h3, h4⟩
    rw [List.getElem?_map] at h1
    obtain ⟨l, hl, rfl⟩ := Option.map_eq_some_iff.1 h1
    refine ⟨l, hl, h2, by simpa [Look.tick] using h3, fun u hu => ?_⟩
    have := h4 u.tick (by rw [← List.map_take]; exact List.mem_map_of_mem hu)
    exact ⟨by simpa [Look.tick] using this.1, this.2⟩
  · rintro ⟨l, h1, h2, h3, h4⟩
    refine ⟨l.tick, by rw [List.getElem?_map, h1]; rfl, h2, by simp [Look.tick, h3], fun u hu => ?_⟩
    rw [← List.map_take] at hu
    obtain ⟨v, hv, rfl⟩ := List.mem_map.1 hu
    have := h4 v hv
    exact ⟨by simp [Look.tick, this.1], this.2⟩

/-- C192, the part that holds: if nobody sets the clock, the kill signal is sent at the first look 15 seconds after the start, if the process runs then.
Missing: clocks that are set meanwhile, see `c192_bounds`, `c192_counterexample` and `c192_unbounded`. -/
theorem c192_partial (ls : List Look) (hs : ∀ l ∈ ls, l.set = 0) (j : Nat) :
    KilledAt ls j ↔ ∃ l, ls[j]? = some l ∧ 15 ≤ l.real ∧ l.runs = true ∧ ∀ u ∈ ls.take j, u.runs = true ∧ u.real < 15 := by
  rw [c192_iff]
  constructor
  · rintro ⟨l, h1, h2, h3, h4⟩
    have := hs l (List.mem_of_getElem? h1)
    refine ⟨l, h1, by omega, h3, fun u hu => ?_⟩
    have h0 := hs u (List.mem_of_mem_take hu)
    have := h4 u hu
    exact ⟨this.1, by omega⟩
  · rintro ⟨l, h1, h2, h3, h4⟩
    have := hs l (List.mem_of_getElem? h1)
    refine ⟨l, h1, by omega, h3, fun u hu => ?_⟩
    have h0 := hs u (List.mem_of_mem_take hu)
    have := h4 u hu
    exact ⟨this.1, by omega⟩

theorem first_look (ls : List Look) : ∀ (j : Nat) (l : Look), ls[j]? = some l → 15 ≤ l.real + l.set →
    ∃ i ≤ j, ∃ k, ls[i]? = some k ∧ 15 ≤ k.real + k.set ∧ ∀ u ∈ ls.take i, u.real + u.set < 15 := by
  induction ls with
  | nil => intro j l h; simp at h
  | cons x ls ih =>
    intro j l h1 h2
    by_cases hx : 15 ≤ x.real + x.set
    · exact ⟨0, Nat.zero_le _, x, rfl, hx, fun u hu => by simp at hu⟩
    · cases j with
      | zero => simp at h1; subst h1; exact absurd h2 hx
      | succ j =>
        obtain ⟨i, hi, k, k1, k2, k3⟩ := ih j l (by simpa using h1) h2
        refine ⟨i + 1, by omega, k, by simpa using k1, k2, fun u hu => ?_⟩
        rw [List.take_succ_cons] at hu
        rcases List.mem_cons.1 hu with rfl | hu
        · omega
        · exact k3 u hu

/-- C192: clocks that are set do as much harm as they are set: if the clock has never been set by more than `b` seconds in all, the signal is not sent
earlier than `15 - b` seconds after the start, and not later than the first look after `15 + b` seconds, to a process that runs till then. -/
theorem c192_bounds (ls : List Look) (b : Int) (hb : ∀ l ∈ ls, -b ≤ l.set ∧ l.set ≤ b) :
    (∀ j, KilledAt ls j → ∃ l, ls[j]? = some l ∧ 15 - b ≤ l.real) ∧
    (∀ j l, ls[j]? = some l → 15 + b ≤ l.real → (∀ u ∈ ls.take (j + 1), u.runs = true) → ∃ i ≤ j, KilledAt ls i) := by
  constructor
  · intro j h
    obtain ⟨l, h1, h2, -⟩ := (c192_iff ls j).1 h
    have := hb l (List.mem_of_getElem? h1)
    exact ⟨l, h1, by omega⟩
  · intro j l h1 h2 hr
    have := hb l (List.mem_of_getElem? h1)
    obtain ⟨i, hi, k, k1, k2, k3⟩ := first_look ls j l h1 (by omega)
    have hin : ∀ m, m ≤ j + 1 → ∀ u ∈ ls.take m, u.runs = true := fun m hm u hu => hr u ((List.take_subset_take_left ls hm) hu)
    refine ⟨i, hi, (c192_iff ls i).2 ⟨k, k1, k2, hin (i + 1) (by omega) k ?_, fun u hu => ⟨hin i (by omega) u hu, k3 u hu⟩⟩⟩
    obtain ⟨hl, he⟩ := List.getElem?_eq_some_iff.1 k1
    rw [List.take_succ_eq_append_getElem hl, he]
    simp

/-- C192 fails: the clock is set forward by 13 seconds, and the process is killed two seconds after the hang-up. -/
theorem c192_counterexample : KilledAt (stubborn 13 1) 0 := (c192_iff _ 0).2 ⟨⟨true, 2, 13⟩, rfl, by decide, rfl, fun u hu => by simp at hu⟩

/-- C192: there is no bound.  For every number of looks the clock can have been set back so far that none of them sends the signal. -/
theorem c192_unbounded (n : Nat) (j : Nat) : ¬ KilledAt (stubborn (-(2 * n)) n) j := by
  intro h
  obtain ⟨l, h1, h2, -⟩ := (c192_iff _ j).1 h
  obtain ⟨i, hi, rfl⟩ := List.mem_map.1 (List.mem_of_getElem? h1)
  have := List.mem_range.1 hi
  simp only at h2
  omega

/-- Without changes of the clock: the eighth look. -/
example : acts (stubborn 0 8) = [[], [], [.warn], [], [.warn], [], [], [.kill]] := by decide +kernel
/-- The clock is set back by a minute. -/
example : (acts (stubborn (-60) 38)).take 37 = List.replicate 32 [] ++ [[.warn], [], [.warn], [], []] ∧
    (acts (stubborn (-60) 38))[37]? = some [.kill] := by decide +kernel

end Verif.Terminal
