import Verif.Proofs.Signals
/-!
C156: Signals of a terminal reach its own process only.
-/
namespace Verif.Signals
open Verif

/-- C156, partial: if no two threads are in `close` at the same time, each signal - the hang-up signal of `close` and the kill signal of the thread that
waits - was got by the process that the terminal has started, whatever processes are born, exit and are given numbers that were used before.
What is missing: threads that overlap in `close` (`c156_counterexample`). -/
theorem c156_child_partial (ops : List Op) (h : Apart {} ops) : OnlyChild (run {} ops) := (inv_run inv_init ops h).sent

theorem apart_single (t : Nat) (ops : List Op) (s : St) (hs : ∀ u, u ≠ t → s.place u = .outside) (h : ∀ op ∈ ops, ∀ u, op.closer = some u → u = t) :
    Apart s ops := by
  induction ops generalizing s with
  | nil => trivial
  | cons op ops ih =>
    refine ⟨?_, ih (step s op) ?_ (fun o ho => h o (.tail _ ho))⟩
    · rintro u rfl v hv
      have := h _ (.head _) u rfl
      exact hs v (by rw [← this]; exact hv)
    · have hgo : ∀ (s : St) (u : Nat) (p : Place), (∀ u, u ≠ t → s.place u = .outside) → u = t → ∀ v, v ≠ t → (s.go u p).place v = .outside := by
        intro s u p hs hu v hv
        simp only [St.go]
        rw [if_neg (by rw [hu]; exact hv)]
        exact hs v hv
      have hm := h op (.head _)
      cases op with
      | born pid => simp only [step]; split <;> exact hs
      | exits pid => simp only [step]; split <;> exact hs
      | collected pid => simp only [step]; split <;> (try split) <;> exact hs
      | fork pid => simp only [step]; split <;> exact hs
      | setPid => exact hs
      | test u =>
        simp only [step]
        split
        · exact hgo s u _ hs (hm u rfl)
        · exact hs
      | kill u permitted =>
        simp only [step]
        split
        · split
          · exact hgo _ u _ hs (hm u rfl)
          · exact hgo _ u _ hs (hm u rfl)
        · exact hs
      | start u ok =>
        simp only [step]
        split
        · exact hgo s u _ hs (hm u rfl)
        · exact hs
      | finish u =>
        simp only [step]
        split
        · exact hgo s u _ hs (hm u rfl)
        · exact hs
      | wait w => simp only [step]; split <;> (try split) <;> (try split) <;> (try split) <;> exact hs
      | check w time permitted => simp only [step]; split <;> (try split) <;> (try split) <;> exact hs

/-- C156, in the agent, where only the receive thread closes terminals (`Terminal.close` is never called, C139): the process that the terminal has
started gets each signal. -/
theorem c156_receive_thread (t : Nat) (ops : List Op) (h : ∀ op ∈ ops, ∀ u, op.closer = some u → u = t) : OnlyChild (run {} ops) :=
  c156_child_partial ops (apart_single t ops {} (fun _ _ => rfl) h)

/-- The terminal is started as process 7, and closed by thread 0. -/
def started : List Op := [.fork 7, .setPid]
def closing (t : Nat) : List Op := [.test t, .kill t true, .start t true, .finish t]

/-- The process ignores the hang-up signal and is killed after 15 seconds; then it is collected, and its number is given to another process. -/
def stubborn : List Op := started ++ closing 0 ++ [.wait 0, .check 0 2 true, .wait 0, .check 0 16 true, .exits 7, .wait 0, .born 7, .wait 0, .check 0 18 true] ++ closing 0

example : (run {} stubborn).sent = [(.hup, some 0), (.kill, some 0)] := by decide
example : (run {} stubborn).table 7 = some ⟨1, true⟩ := by decide
example : Apart {} stubborn := apart_single 0 _ _ (fun _ _ => rfl) (by decide)

/-! ### How many signals -/

/-- How often a signal was sent. -/
def St.count (s : St) (x : Signal) : Nat := s.sent.countP (·.1 == x)

/-- Has the thread not yet killed the process? -/
def Waiter.unsent : Waiter → Bool
  | .asleep _ k | .awake _ k => !k
  | .ended => false

theorem countP_set {α : Type} (p : α → Bool) (l : List α) (i : Nat) (x y : α) (h : l[i]? = some x) :
    (l.set i y).countP p + (if p x then 1 else 0) = l.countP p + (if p y then 1 else 0) := by
  induction l generalizing i with
  | nil => simp at h
  | cons z l ih =>
    cases i with
    | zero =>
      simp only [List.getElem?_cons_zero, Option.some.injEq] at h
      subst h
      simp only [List.set_cons_zero, List.countP_cons]
      omega
    | succ i =>
      simp only [List.getElem?_cons_succ] at h
      simp only [List.set_cons_succ, List.countP_cons]
      have := ih i h
      omega

/-- C156: the kill signal is sent only by a thread that waits, at least 15 seconds after its start. -/
theorem c156_late (s : St) (op : Op) (h : s.count .kill < (step s op).count .kill) : ∃ w time permitted, op = .check w time permitted ∧ 15 ≤ time := by
  have same : ∀ s' : St, s'.sent = s.sent → s'.count .kill = s.count .kill := fun s' h => by simp only [St.count, h]
  cases op with
  | check w time permitted =>
    refine ⟨w, time, permitted, rfl, ?_⟩
    by_cases ht : 15 ≤ time
    · exact ht
    · exfalso
      simp only [step] at h
      split at h
      · have hd : ∀ ws k, (due ws k time).2 = false := by
          intro ws k
          have : ¬ time ≥ Terminal.killTime := ht
          simp only [due, decide_eq_false this, Bool.and_false]
        simp only [hd, Bool.false_eq_true, if_false] at h
        exact absurd h (Nat.lt_irrefl _)
      · exact absurd h (Nat.lt_irrefl _)
  | kill t permitted =>
    exfalso
    simp only [step] at h
    split at h
    · split at h
      · simp only [St.count, St.go, St.signal, List.countP_append, List.countP_cons, List.countP_nil] at h
        exact absurd h (Nat.lt_irrefl _)
      · exact absurd h (Nat.lt_irrefl _)
    · exact absurd h (Nat.lt_irrefl _)
  | born pid => simp only [step] at h; split at h <;> exact absurd h (Nat.lt_irrefl _)
  | exits pid => simp only [step] at h; split at h <;> exact absurd h (Nat.lt_irrefl _)
  | collected pid => simp only [step] at h; split at h <;> (try split at h) <;> exact absurd h (Nat.lt_irrefl _)
  | fork pid => simp only [step] at h; split at h <;> exact absurd h (Nat.lt_irrefl _)
  | setPid => exact absurd h (Nat.lt_irrefl _)
  | test u => simp only [step] at h; split at h <;> exact absurd h (Nat.lt_irrefl _)
  | start u ok => simp only [step] at h; split at h <;> exact absurd h (Nat.lt_irrefl _)
  | finish u => simp only [step] at h; split at h <;> exact absurd h (Nat.lt_irrefl _)
  | wait w => simp only [step] at h; split at h <;> (try split at h) <;> (try split at h) <;> (try split at h) <;> exact absurd h (Nat.lt_irrefl _)

/-- With one thread that closes: how far it is, and how many signals were sent. -/
structure Once (t : Nat) (s : St) : Prop where
  hups : s.count .hup ≤ 1
  before : s.place t = .kill → s.count .hup = 0
  after : s.count .hup = 1 → s.closed = true ∨ s.place t = .start ∨ s.place t = .last
  waiters : s.waiters.length + (if s.place t = .start then 1 else 0) ≤ s.count .hup
  kills : s.count .kill + s.waiters.countP Waiter.unsent ≤ s.waiters.length

theorem Once.same {t : Nat} {s s' : St} (h : Once t s) (h1 : s'.sent = s.sent) (h2 : s'.place = s.place) (h3 : s'.closed = s.closed)
    (h4 : s'.waiters = s.waiters) : Once t s' := by
  have e : ∀ x, s'.count x = s.count x := fun x => by simp only [St.count, h1]
  exact ⟨by rw [e]; exact h.hups, by rw [e, h2]; exact h.before, by rw [e, h2, h3]; exact h.after, by rw [e, h2, h4]; exact h.waiters,
    by rw [e, h4]; exact h.kills⟩

theorem Once.set {t : Nat} {s s' : St} {w : Nat} {x y : Waiter} (h : Once t s) (hx : s.waiters[w]? = some x) (h1 : s'.sent = s.sent)
    (h2 : s'.place = s.place) (h3 : s'.closed = s.closed) (h4 : s'.waiters = s.waiters.set w y) (hy : y.unsent = true → x.unsent = true) : Once t s' := by
  have e : ∀ x, s'.count x = s.count x := fun x => by simp only [St.count, h1]
  refine ⟨by rw [e]; exact h.hups, by rw [e, h2]; exact h.before, by rw [e, h2, h3]; exact h.after,
    by rw [e, h2, h4, List.length_set]; exact h.waiters, ?_⟩
  rw [e, h4, List.length_set]
  have hc := countP_set Waiter.unsent s.waiters w x y hx
  have hk := h.kills
  cases hyu : y.unsent with
  | false => simp only [hyu, Bool.false_eq_true, if_false] at hc; split at hc <;> omega
  | true => simp only [hyu, hy hyu, if_true] at hc; omega

theorem again_unsent {ws : List Int} {k : Bool} (h : (again ws k).unsent = true) : k = false := by
  unfold again at h
  split at h
  · exact nomatch h
  · simpa [Waiter.unsent] using h

theorem once_step {t : Nat} {s : St} (op : Op) (h : Once t s) (hop : ∀ u, op.closer = some u → u = t) : Once t (step s op) := by
  have hgo : ∀ (s : St) (p : Place), (s.go t p).place t = p := fun s p => by simp [St.go]
  cases op with
  | born pid => simp only [step]; split <;> first | exact h | exact h.same rfl rfl rfl rfl
  | exits pid => simp only [step]; split <;> first | exact h | exact h.same rfl rfl rfl rfl
  | collected pid => simp only [step]; split <;> (try split) <;> first | exact h | exact h.same rfl rfl rfl rfl
  | fork pid => simp only [step]; split <;> first | exact h | exact h.same rfl rfl rfl rfl
  | setPid => exact h.same rfl rfl rfl rfl
  | test u =>
    obtain rfl := hop u rfl
    simp only [step]
    split
    · rename_i hp
      have hw := h.waiters
      have hc : ∀ p x, (s.go u p).count x = s.count x := fun _ _ => rfl
      have haft := h.after
      rw [hp] at hw haft
      split
      · rename_i hcl
        simp only [Bool.and_eq_true, Bool.not_eq_true'] at hcl
        have h0 : s.count .hup = 0 := by
          have := h.hups
          rcases Nat.lt_or_ge (s.count .hup) 1 with h1 | h1
          · omega
          · rcases haft (by omega) with h' | h' | h'
            · rw [hcl.1] at h'; exact nomatch h'
            · exact nomatch h'
            · exact nomatch h'
        refine ⟨h.hups, fun _ => h0, fun h1 => ?_, ?_, h.kills⟩
        · rw [hc, h0] at h1; exact nomatch h1
        · rw [hgo, hc]; exact hw
      · refine ⟨h.hups, fun h1 => ?_, fun _ => .inr (.inr (hgo _ _)), ?_, h.kills⟩
        · rw [hgo] at h1; exact nomatch h1
        · rw [hgo, hc]; exact hw
    · exact h
  | kill u permitted =>
    obtain rfl := hop u rfl
    simp only [step]
    split
    · rename_i pid hp hpid
      have h0 := h.before hp
      have hw := h.waiters
      rw [hp] at hw
      split
      · have hc1 : ((s.signal .hup pid).go u .start).count .hup = 1 := by
          have : ((s.signal .hup pid).go u .start).count .hup = s.count .hup + 1 := by
            simp only [St.count, St.go, St.signal, List.countP_append]; rfl
          omega
        have hc2 : ((s.signal .hup pid).go u .start).count .kill = s.count .kill := by
          simp only [St.count, St.go, St.signal, List.countP_append]; rfl
        refine ⟨by omega, fun h1 => ?_, fun _ => .inr (.inl (hgo _ _)), ?_, ?_⟩
        · rw [hgo] at h1; exact nomatch h1
        · rw [hgo, hc1]
          have hwl : ((s.signal .hup pid).go u .start).waiters = s.waiters := rfl
          rw [hwl, if_pos rfl]
          rw [if_neg (by decide)] at hw
          omega
        · rw [hc2]; exact h.kills
      · have hc : ∀ x, (s.go u .outside).count x = s.count x := fun _ => rfl
        refine ⟨h.hups, fun h1 => ?_, fun h1 => ?_, ?_, h.kills⟩
        · rw [hgo] at h1; exact nomatch h1
        · rw [hc, h0] at h1; exact nomatch h1
        · rw [hgo, hc]; exact hw
    · exact h
  | start u ok =>
    obtain rfl := hop u rfl
    simp only [step]
    split
    · rename_i hp
      have hw := h.waiters
      rw [hp, if_pos rfl] at hw
      have hpl : ∀ ws, ({ s.go u .last with waiters := ws } : St).place u = .last := fun ws => hgo s .last
      refine ⟨h.hups, fun h1 => ?_, fun _ => .inr (.inr (hpl _)), ?_, ?_⟩
      · rw [hpl] at h1; exact nomatch h1
      · rw [hpl, if_neg (show ¬ Place.last = Place.start by decide)]
        show List.length (if ok = true then _ else _) + 0 ≤ s.count .hup
        split
        · rw [List.length_append, List.length_singleton]; omega
        · show s.waiters.length + 0 ≤ _; omega
      · show s.count .kill + List.countP Waiter.unsent (if ok = true then _ else _) ≤ List.length (if ok = true then _ else _)
        have hk := h.kills
        split
        · rw [List.countP_append, List.length_append]
          have : List.countP Waiter.unsent [Waiter.asleep Terminal.warnTimes false] = 1 := rfl
          rw [this, List.length_singleton]
          omega
        · exact hk
    · exact h
  | finish u =>
    obtain rfl := hop u rfl
    simp only [step]
    split
    · rename_i hp
      have hw := h.waiters
      rw [hp] at hw
      have hpl : ({ s.go u .outside with closed := true } : St).place u = .outside := hgo s .outside
      refine ⟨h.hups, fun h1 => ?_, fun _ => .inl rfl, ?_, h.kills⟩
      · rw [hpl] at h1; exact nomatch h1
      · rw [hpl]; exact hw
    · exact h
  | wait w =>
    simp only [step]
    split
    · rename_i ws k pid hx hpid
      split
      · split
        · exact h.set hx rfl rfl rfl rfl (fun h => nomatch h)
        · split
          · exact h.set hx rfl rfl rfl rfl (fun h => h)
          · exact h.set hx rfl rfl rfl rfl (fun h => nomatch h)
      · exact h.set hx rfl rfl rfl rfl (fun h => nomatch h)
    · exact h
  | check w time permitted =>
    simp only [step]
    split
    · rename_i ws k pid hx hpid
      split
      · rename_i hd
        split
        · have hk : k = false := by
            simp only [due, Bool.and_eq_true, Bool.not_eq_true'] at hd
            exact hd.1
          have hc1 : ∀ W, ({ s.signal .kill pid with waiters := W } : St).count .hup = s.count .hup := by
            intro W
            simp only [St.count, St.signal, List.countP_append]; rfl
          have hc2 : ∀ W, ({ s.signal .kill pid with waiters := W } : St).count .kill = s.count .kill + 1 := by
            intro W
            simp only [St.count, St.signal, List.countP_append]; rfl
          refine ⟨by rw [hc1]; exact h.hups, by rw [hc1]; exact h.before, by rw [hc1]; exact h.after, ?_, ?_⟩
          · rw [hc1]
            show (s.waiters.set w _).length + _ ≤ _
            rw [List.length_set]; exact h.waiters
          · rw [hc2]
            show _ + (s.waiters.set w _).countP Waiter.unsent ≤ (s.waiters.set w _).length
            have hc := countP_set Waiter.unsent s.waiters w _ (again (due ws k time).1 true) hx
            have hn : (again (due ws k time).1 true).unsent = false := by
              cases hu : (again (due ws k time).1 true).unsent with
              | false => rfl
              | true => exact nomatch again_unsent hu
            have hxu : (Waiter.awake ws k).unsent = true := by rw [hk]; rfl
            rw [hn, hxu] at hc
            simp only [Bool.false_eq_true, if_false, if_true] at hc
            rw [List.length_set]
            have hk := h.kills
            omega
        · exact h.set hx rfl rfl rfl rfl (fun h => nomatch h)
      · exact h.set hx rfl rfl rfl rfl (fun h => by rw [show (Waiter.awake ws k).unsent = !k from rfl, again_unsent h]; rfl)
    · exact h

/-- C156: where only one thread closes terminals, as in the agent, the process gets at most one hang-up signal, however often the terminal is
closed, and at most one kill signal, and none without a hang-up signal. -/
theorem c156_once (t : Nat) (ops : List Op) (h : ∀ op ∈ ops, ∀ u, op.closer = some u → u = t) :
    (run {} ops).count .hup ≤ 1 ∧ (run {} ops).count .kill ≤ (run {} ops).count .hup := by
  have key : ∀ (ops : List Op) (s : St), Once t s → (∀ op ∈ ops, ∀ u, op.closer = some u → u = t) → Once t (run s ops) := by
    intro ops
    induction ops with
    | nil => intro s hs _; exact hs
    | cons op ops ih => intro s hs h; exact ih _ (once_step op hs (h op (.head _))) (fun o ho => h o (.tail _ ho))
  have := key ops {} ⟨by decide, fun h => (nomatch h), fun h => (nomatch h), Nat.le_refl 0, Nat.le_refl 0⟩ h
  have h1 := this.waiters
  have h2 := this.kills
  exact ⟨this.hups, by omega⟩

example : (run {} stubborn).count .hup = 1 ∧ (run {} stubborn).count .kill = 1 := by decide

/-- A thread that waits looks after the process at these times. -/
def looks (w : Nat) (times : List Int) : List Op := times.flatMap fun t => [.wait w, .check w t true]

/-- The process `b` of the terminal runs, and the thread `w` waits for it and has not yet killed it; a warning is left for a time after 15 seconds. -/
structure Waits (s : St) (w pid b : Nat) : Prop where
  waiter : ∃ ws, s.waiters[w]? = some (.asleep ws false) ∧ ∃ x ∈ ws, 15 ≤ x
  pid_ : s.pid = some pid
  child : s.child = some (b, pid)
  alive : s.table pid = some ⟨b, true⟩

theorem waits_wait {s : St} {w pid b : Nat} {ws : List Int} (h : Waits s w pid b) (hw : s.waiters[w]? = some (.asleep ws false)) :
    step s (.wait w) = { s with waiters := s.waiters.set w (.awake ws false) } := by
  simp only [step, hw, h.pid_, h.alive, h.child, Option.map_some, ne_eq, not_true, if_false, if_true]

theorem set_get {α : Type} {l : List α} {i : Nat} {x : α} (y : α) (h : l[i]? = some x) : (l.set i y)[i]? = some y := by
  rw [List.getElem?_set_self]
  apply Classical.byContradiction
  intro hn
  rw [List.getElem?_eq_none (by omega)] at h
  exact nomatch h

theorem waits_early {s : St} {w pid b : Nat} (h : Waits s w pid b) (t : Int) (ht : t < 15) :
    Waits (step (step s (.wait w)) (.check w t true)) w pid b ∧ (step (step s (.wait w)) (.check w t true)).sent = s.sent := by
  obtain ⟨ws, hw, x, hx, hx15⟩ := h.waiter
  rw [waits_wait h hw]
  have ha := set_get (.awake ws false) hw
  have hd : (due ws false t).2 = false := by
    have hn : ¬ t ≥ Terminal.killTime := by simp only [Terminal.killTime]; omega
    simp only [due, Bool.not_false, Bool.true_and]
    exact decide_eq_false hn
  have hl : ∃ x ∈ (due ws false t).1, 15 ≤ x := by
    cases ws with
    | nil => exact nomatch hx
    | cons v ws =>
      simp only [due]
      by_cases hv : t ≥ v
      · rw [if_pos hv]
        rcases List.mem_cons.1 hx with rfl | hx
        · omega
        · exact ⟨x, hx, hx15⟩
      · rw [if_neg hv]; exact ⟨x, hx, hx15⟩
  simp only [step, ha, h.pid_, hd, Bool.false_eq_true, if_false]
  refine ⟨⟨⟨(due ws false t).1, ?_, hl⟩, rfl, h.child, h.alive⟩, trivial⟩
  have hne : (due ws false t).1.isEmpty = false := by
    obtain ⟨y, hy, _⟩ := hl
    cases hq : (due ws false t).1 with
    | nil => rw [hq] at hy; exact nomatch hy
    | cons _ _ => rfl
  rw [set_get _ ha]
  simp only [again, hne, Bool.false_eq_true, if_false]

/-- C156: a process that does not exit is killed: the thread that waits goes on looking, however often it looks in the first 15 seconds, and
at its first look after them it sends the kill signal, once, to the process. -/
theorem c156_killed {s : St} {w pid b : Nat} (h : s.waiters[w]? = some (.asleep Terminal.warnTimes false)) (hp : s.pid = some pid)
    (hc : s.child = some (b, pid)) (ha : s.table pid = some ⟨b, true⟩) (times : List Int) (ht : ∀ t ∈ times, t < 15) (last : Int)
    (hl : 15 ≤ last) : (run s (looks w (times ++ [last]))).sent = s.sent ++ [(.kill, some b)] := by
  have hw : Waits s w pid b := ⟨⟨_, h, 30, by decide, by decide⟩, hp, hc, ha⟩
  clear h hp hc ha
  induction times generalizing s with
  | nil =>
    obtain ⟨ws, h, _⟩ := hw.waiter
    have ha := set_get (.awake ws false) h
    have hd : (due ws false last).2 = true := by
      have hk : last ≥ Terminal.killTime := hl
      simp only [due, Bool.not_false, Bool.true_and]
      exact decide_eq_true hk
    show (step (step s (.wait w)) (.check w last true)).sent = _
    rw [waits_wait hw h]
    simp only [step, ha, hw.pid_, hd, if_true, hw.alive, Option.isSome_some, Bool.and_self, St.signal, Option.map_some]
  | cons t times ih =>
    obtain ⟨h1, h2⟩ := waits_early hw t (ht t List.mem_cons_self)
    have := ih (s := step (step s (.wait w)) (.check w t true)) (fun u hu => ht u (List.mem_cons_of_mem _ hu)) h1
    rw [h2] at this
    exact this

/-- The thread that waits after a close is such a thread, and it may look ten times in the first 15 seconds. -/
example : (run {} (started ++ closing 0 ++ looks 0 [1, 2, 3, 4, 5, 6, 7, 8, 9, 10, 16])).sent = [(.hup, some 0), (.kill, some 0)] := by decide

/-! ### Which process, and a signal that is refused -/

/-- Births are below the counter, no two processes have the same one, and who has the birth of the child has its number. -/
structure Known (s : St) : Prop where
  below : ∀ p x, s.table p = some x → x.birth < s.births
  one : ∀ p q x y, s.table p = some x → s.table q = some y → x.birth = y.birth → p = q
  child : ∀ b pid, s.child = some (b, pid) → b < s.births ∧ ∀ p x, s.table p = some x → x.birth = b → p = pid

theorem Known.same {s s' : St} (h : Known s) (h1 : s'.table = s.table) (h2 : s'.births = s.births) (h3 : s'.child = s.child) : Known s' :=
  ⟨by rw [h1, h2]; exact h.below, by rw [h1]; exact h.one, by rw [h1, h2, h3]; exact h.child⟩

/-- An entry is removed, or changed without another birth. -/
theorem Known.shrink {s s' : St} (h : Known s) (h1 : ∀ p x, s'.table p = some x → ∃ y, s.table p = some y ∧ y.birth = x.birth)
    (h2 : s'.births = s.births) (h3 : s'.child = s.child) : Known s' := by
  refine ⟨?_, ?_, ?_⟩
  · intro p x hx
    obtain ⟨y, hy, e⟩ := h1 p x hx
    rw [h2, ← e]
    exact h.below p y hy
  · intro p q x y hx hy hxy
    obtain ⟨x', hx', ex⟩ := h1 p x hx
    obtain ⟨y', hy', ey⟩ := h1 q y hy
    exact h.one p q x' y' hx' hy' (by rw [ex, ey, hxy])
  · intro b pid hc
    rw [h3] at hc
    obtain ⟨hb, hp⟩ := h.child b pid hc
    rw [h2]
    refine ⟨hb, fun p x hx hxb => ?_⟩
    obtain ⟨y, hy, e⟩ := h1 p x hx
    exact hp p y hy (by rw [e, hxb])

theorem put_none {s : St} {pid p : Nat} {x : Proc} (h : (s.put pid none).table p = some x) : ∃ y, s.table p = some y ∧ y.birth = x.birth := by
  simp only [St.put] at h
  split at h
  · exact (nomatch h)
  · exact ⟨x, h, rfl⟩

/-- A process is born. -/
theorem Known.grow {s s' : St} {pid : Nat} (h : Known s) (h1 : s'.table = fun x => if x = pid then some ⟨s.births, true⟩ else s.table x)
    (h2 : s'.births = s.births + 1) (h3 : s'.child = s.child ∨ s'.child = some (s.births, pid)) : Known s' := by
  refine ⟨?_, ?_, ?_⟩
  · intro p x hx
    rw [h1] at hx
    rw [h2]
    simp only at hx
    split at hx
    · cases hx
      exact Nat.lt_succ_self _
    · exact Nat.lt_succ_of_lt (h.below p x hx)
  · intro p q x y hx hy hxy
    rw [h1] at hx hy
    simp only at hx hy
    split at hx <;> split at hy
    · rename_i e1 e2
      rw [e1, e2]
    · cases hx
      have := h.below q y hy
      simp only at hxy
      omega
    · cases hy
      have := h.below p x hx
      simp only at hxy
      omega
    · exact h.one p q x y hx hy hxy
  · intro b n hc
    rcases h3 with h3 | h3
    · rw [h3] at hc
      obtain ⟨hb, hp⟩ := h.child b n hc
      refine ⟨by omega, fun p x hx hxb => ?_⟩
      rw [h1] at hx
      simp only at hx
      split at hx
      · cases hx
        simp only at hxb
        omega
      · exact hp p x hx hxb
    · rw [h3] at hc
      cases hc
      refine ⟨by omega, fun p x hx hxb => ?_⟩
      rw [h1] at hx
      simp only at hx
      split at hx
      · assumption
      · have := h.below p x hx
        omega

theorem known_step {s : St} (op : Op) (h : Known s) : Known (step s op) := by
  cases op with
  | born pid =>
    simp only [step]
    split
    · exact h.grow rfl rfl (.inl rfl)
    · exact h
  | exits pid =>
    simp only [step]
    split
    · rename_i p hp
      refine h.shrink ?_ rfl rfl
      intro q x hx
      simp only [St.put] at hx
      split at hx
      · rename_i e
        cases hx
        exact ⟨p, by rw [e]; exact hp, rfl⟩
      · exact ⟨x, hx, rfl⟩
    · exact h
  | collected pid =>
    simp only [step]
    split
    · split
      · exact h
      · exact h.shrink (fun _ _ => put_none) rfl rfl
    · exact h
  | fork pid =>
    simp only [step]
    split
    · exact h.grow rfl rfl (.inr rfl)
    · exact h
  | setPid => exact h.same rfl rfl rfl
  | test t => simp only [step]; split <;> exact h.same rfl rfl rfl
  | kill t permitted => simp only [step]; split <;> (try split) <;> exact h.same rfl rfl rfl
  | start t ok => simp only [step]; split <;> exact h.same rfl rfl rfl
  | finish t => simp only [step]; split <;> exact h.same rfl rfl rfl
  | wait w =>
    simp only [step]
    split
    · split
      · split
        · exact h.same rfl rfl rfl
        · split
          · exact h.same rfl rfl rfl
          · exact h.shrink (fun _ _ hx => put_none hx) rfl rfl
      · exact h.same rfl rfl rfl
    · exact h
  | check w time permitted => simp only [step]; split <;> (try split) <;> (try split) <;> exact h.same rfl rfl rfl

/-- C156: the births by which these theorems tell processes apart do so: in every history, whatever numbers are used again, two processes with the same
birth are one, and only the process that the terminal has started can have the birth of the child. -/
theorem c156_births (ops : List Op) :
    (∀ p q x y, (run {} ops).table p = some x → (run {} ops).table q = some y → x.birth = y.birth → p = q) ∧
    ∀ b pid, (run {} ops).child = some (b, pid) → ∀ p x, (run {} ops).table p = some x → x.birth = b → p = pid := by
  have : ∀ s, Known s → Known (run s ops) := by
    induction ops with
    | nil => exact fun _ h => h
    | cons op ops ih => exact fun s h => ih _ (known_step op h)
  have h := this {} ⟨fun _ _ h => (nomatch h), fun _ _ _ _ h => (nomatch h), fun _ _ h => (nomatch h)⟩
  exact ⟨h.one, fun b pid hc => (h.child b pid hc).2⟩

/-- Number 7 is used twice, by processes with different births, beside number 8. -/
example : (run {} (stubborn ++ [.born 8])).table 7 = some ⟨1, true⟩ ∧ (run {} (stubborn ++ [.born 8])).table 8 = some ⟨2, true⟩ ∧
    (run {} (stubborn ++ [.born 8])).child = some (0, 7) := by decide

/-- C156: a close whose signal fails, because the process is gone or the agent may not send it signals, sends nothing, and its exception leaves the
terminal as it was, without a thread that waits; the next close by the same thread then sends the hang-up signal to who has the number, if it may. -/
theorem c156_refused (s : St) (t pid : Nat) (permitted : Bool) (ht : s.place t = .kill) (hp : s.pid = some pid) (hc : s.closed = false)
    (hr : s.table pid = none ∨ permitted = false) :
    (run s [.kill t permitted, .start t true, .finish t]).sent = s.sent ∧ (run s [.kill t permitted, .start t true, .finish t]).closed = false ∧
    (run s [.kill t permitted, .start t true, .finish t]).waiters = s.waiters ∧
    ∀ x, s.table pid = some x → (run s ([.kill t permitted, .start t true, .finish t] ++ [.test t, .kill t true])).sent = s.sent ++ [(.hup, some x.birth)] := by
  have hn : ¬ (((s.table pid).isSome && permitted) = true) := by
    rcases hr with h | h
    · simp [h]
    · simp [h]
  have e1 : step s (.kill t permitted) = s.go t .outside := by simp only [step, ht, hp, if_neg hn]
  have ho : (s.go t .outside).place t = .outside := by simp [St.go]
  have e2 : step (s.go t .outside) (.start t true) = s.go t .outside := by simp only [step, ho]
  have e3 : step (s.go t .outside) (.finish t) = s.go t .outside := by simp only [step, ho]
  have e : run s [.kill t permitted, .start t true, .finish t] = s.go t .outside := by
    simp only [run, List.foldl_cons, List.foldl_nil, e1, e2, e3]
  refine ⟨by rw [e]; rfl, by rw [e]; exact hc, by rw [e]; rfl, fun x hx => ?_⟩
  have happ : run s ([.kill t permitted, .start t true, .finish t] ++ [.test t, .kill t true]) = run (s.go t .outside) [.test t, .kill t true] := by
    rw [← e]
    simp only [run, List.foldl_append]
  rw [happ]
  simp [run, step, St.go, St.signal, hc, hp, hx]

/-- The agent may not send signals to the process at first; the second close hangs up, and only it starts a thread that waits. -/
example : (run {} (started ++ [.test 0, .kill 0 false, .start 0 true, .finish 0] ++ closing 0)).sent = [(.hup, some 0)] ∧
    (run {} (started ++ [.test 0, .kill 0 false, .start 0 true, .finish 0] ++ closing 0)).waiters.length = 1 := by decide

/-- C156 in full would say that the child gets each signal, whoever calls `close`.  This is false: a second thread that has found the terminal not
closed sends its hang-up signal when the process was already collected, and its number given to another one. -/
theorem c156_counterexample : ¬ ∀ ops, OnlyChild (run {} ops) := by
  intro h
  have := h (started ++ .test 1 :: closing 0 ++ [.exits 7, .wait 0, .born 7, .kill 1 true]) (.hup, some 1) (by decide)
  obtain ⟨b, pid, h1, h2⟩ := this
  have e : (run {} (started ++ .test 1 :: closing 0 ++ [.exits 7, .wait 0, .born 7, .kill 1 true])).child = some (0, 7) := by decide
  rw [e] at h1
  injection h1 with h1
  injection h1 with h1 _
  injection h2 with h2
  rw [← h1] at h2
  exact absurd h2 (by decide)

end Verif.Signals
