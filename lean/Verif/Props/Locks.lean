import Verif.Proofs.Locks
/-!
C163: threads never wait for each other in a circle.  C164: whom slow input and output holds up.
-/
namespace Verif.Props.Locks
open Verif.Locks Verif.Spec.Locks

/-- C163: no thread waits, directly or through others, for itself. -/
theorem c163_no_circle {s : List Thread} (h : Reach s) (i : Nat) : ¬ Chain s i i := by
  intro hc
  obtain ⟨l, hl, hr⟩ := chain_rank (inv_reach h) hc
  exact Nat.lt_irrefl _ (hr l hl)

/-- C163: whoever waits for a lock waits, directly or through others, for a thread that has something left to do and waits for no lock. -/
theorem c163_end {s : List Thread} (h : Reach s) {i : Nat} (hw : Waiting s i) : ∃ j, Chain s i j ∧ Unfinished s j ∧ ¬ Waiting s j := by
  obtain ⟨j, l, hj⟩ := hw
  obtain ⟨e, hc, he⟩ := chain_end (inv_reach h) _ hj (Nat.le_refl _)
  obtain ⟨m, hm⟩ := chain_holds hc
  exact ⟨e, hc, holds_unfinished (inv_reach h) hm, he⟩

/-- C163: as long as some thread has something left to do, some thread can do something (no thread is added by the step). -/
theorem c163_goes_on {s : List Thread} (h : Reach s) {i : Nat} (hu : Unfinished s i) : ∃ s', Step s s' ∧ s'.length = s.length := by
  by_cases hw : Waiting s i
  · obtain ⟨j, _, hu', hw'⟩ := c163_end h hw
    exact can_move (inv_reach h) hu' hw'
  · exact can_move (inv_reach h) hu hw

/-- C163: a thread that is done holds no lock. -/
theorem c163_returned {s : List Thread} (h : Reach s) {i : Nat} {l : Lock} (hh : Holds s i l) : Unfinished s i :=
  holds_unfinished (inv_reach h) hh

/-- C163: two threads never have the same lock. -/
theorem c163_alone {s : List Thread} (h : Reach s) {i j : Nat} {l : Lock} (hi : Holds s i l) (hj : Holds s j l) : i = j := by
  obtain ⟨t, ht, hl⟩ := hi
  obtain ⟨u, hu, hl'⟩ := hj
  exact (inv_reach h).alone i j t u l ht hu hl hl'

/-- C163: never two threads scan, or send to the server, or write to the log, at the same time. -/
theorem c163_one_at_a_time {s : List Thread} (h : Reach s) {i j : Nat} {x : Io} (hx : x = .scan ∨ x = .websocket ∨ x = .log)
    (hi : Next s i (.io x)) (hj : Next s j (.io x)) : i = j := by
  obtain ⟨t, r, ht, hr⟩ := hi
  obtain ⟨u, q, hu, hq⟩ := hj
  have h1 := (inv_reach h).ok i t ht
  have h2 := (inv_reach h).ok j u hu
  rw [hr] at h1
  rw [hq] at h2
  rcases hx with hx | hx | hx
  · exact (inv_reach h).alone i j t u _ ht hu (h1.1.2.1 hx) (h2.1.2.1 hx)
  · exact (inv_reach h).alone i j t u _ ht hu (h1.1.2.2.1 hx) (h2.1.2.2.1 hx)
  · exact (inv_reach h).alone i j t u _ ht hu (h1.1.2.2.2 hx) (h2.1.2.2.2 hx)

/-- C164: a scan holds up only threads of scans. -/
theorem c164_scan {s : List Thread} (h : Reach s) {i j : Nat} (hc : Chain s i j) (hn : Next s j (.io .scan)) : Is s i .scan := by
  obtain ⟨l, ⟨⟨t, r, hi, hr⟩, _⟩, hg⟩ := chain_io (inv_reach h) hc hn (fun l hl => by cases hl; rfl)
  cases hg
  have hok := (inv_reach h).ok i t hi
  rw [hr] at hok
  exact ⟨t, hi, hok.1.2.1 rfl⟩

/-- C164: a request to the API server holds up only the main thread and the receive thread, and only before a `sync` of their own. -/
theorem c164_http {s : List Thread} (h : Reach s) {i j : Nat} (hc : Chain s i j) (hn : Next s j (.io .http)) :
    Next s i (.acquire .sync) ∧ (Is s i .main ∨ Is s i .receive) := by
  obtain ⟨l, ⟨⟨t, r, hi, hr⟩, _⟩, hg⟩ := chain_io (inv_reach h) hc hn (fun l hl => by cases hl; rfl)
  cases hg
  have hok := (inv_reach h).ok i t hi
  rw [hr] at hok
  exact ⟨⟨t, r, hi, hr⟩, (hok.1.2.2 rfl).imp (⟨t, hi, ·⟩) (⟨t, hi, ·⟩)⟩

/-- C164: the socket of a connection holds up only those who want to use the same connection. -/
theorem c164_connection {s : List Thread} (h : Reach s) {i j n : Nat} (hc : Chain s i j) (hn : Next s j (.io (.local n))) :
    Next s i (.acquire (.connection n)) := by
  obtain ⟨l, ⟨hi, _⟩, hg⟩ := chain_io (inv_reach h) hc hn (fun l hl => by cases hl; rfl)
  cases hg
  exact hi

/-- C164: files, commands and terminals hold up nobody. -/
theorem c164_nobody {s : List Thread} (h : Reach s) {i j : Nat} (hc : Chain s i j) : ¬ Next s j (.io .file) ∧ ¬ Next s j (.io .terminal) := by
  constructor
  · intro hn
    obtain ⟨l, _, hg⟩ := chain_io (inv_reach h) hc hn (fun l hl => hl.elim)
    exact hg
  · intro hn
    obtain ⟨l, _, hg⟩ := chain_io (inv_reach h) hc hn (fun l hl => hl.elim)
    exact hg

/-! ### The receive thread can be held up -/

/-- One step of thread `i`, computed. -/
def move (s : List Thread) (i : Nat) : Option (List Thread) :=
  match s[i]? with
  | none => none
  | some t =>
    match t.rest with
    | [] => none
    | .io _ :: r => some (s.set i { t with rest := r })
    | .acquire l :: r =>
        if s.zipIdx.all (fun p => !p.1.held.contains l || (p.2 == i && l.again)) then some (s.set i { t with rest := r, held := l :: t.held }) else none
    | .release l :: r =>
        match t.held with
        | [] => none
        | m :: h => if m = l then some (s.set i { t with rest := r, held := h }) else none

theorem move_step {s i s'} (h : move s i = some s') : Step s s' := by
  unfold move at h
  cases hi : s[i]? with
  | none => simp only [hi] at h; exact (nomatch h)
  | some t =>
    simp only [hi] at h
    cases hr : t.rest with
    | nil => simp only [hr] at h; exact (nomatch h)
    | cons e r =>
      cases e with
      | io x => simp only [hr] at h; cases h; exact .io hi hr
      | acquire l =>
          simp only [hr] at h
          split at h
          · rename_i ha
            cases h
            refine .acquire hi hr ?_
            intro j u hj hl
            have hm : (u, j) ∈ s.zipIdx := List.mem_iff_getElem?.2 ⟨j, by rw [List.getElem?_zipIdx, hj]; simp⟩
            have := List.all_eq_true.1 ha _ hm
            simpa [hl] using this
          · exact (nomatch h)
      | release l =>
          simp only [hr] at h
          cases hh : t.held with
          | nil => simp only [hh] at h; exact (nomatch h)
          | cons m h' =>
            simp only [hh] at h
            split at h
            · rename_i he
              cases h; subst he
              exact .release hi hr hh
            · exact (nomatch h)

/-- Several steps of given threads. -/
def moves : List Thread → List Nat → Option (List Thread)
  | s, [] => some s
  | s, i :: l => (move s i).bind (moves · l)

theorem moves_reach {l : List Nat} : ∀ {s s' : List Thread}, Reach s → moves s l = some s' → Reach s' := by
  induction l with
  | nil => intro s s' hr h; cases h; exact hr
  | cons i l ih =>
      intro s s' hr h
      obtain ⟨m, h1, h2⟩ := Option.bind_eq_some_iff.1 h
      exact ih (.step hr (move_step h1)) h2

def logged : List Ev := [.acquire .log, .io .log, .release .log]

theorem runs_log : Runs log logged := .locked .io

/-- A connection that has been made and sends what came before: then an error ends it. -/
def connecting : List Ev := logged ++ ([.io (.local 0)] ++ (logged ++ [.acquire (.connection 0), .io (.local 0), .release (.connection 0)]))

theorem runs_connecting : Runs (program (.connection 0 7 0)) connecting :=
  .seq runs_log (.seq .io (.seq runs_log (.raised (.right (.locked (.more .io .none))))))

/-- The receive thread gets data for the connection. -/
def receiving : List Ev := logged ++ [.acquire (.connection 0), .acquire (.connection 0), .io (.local 0), .release (.connection 0), .release (.connection 0)] ++ []

theorem runs_receiving : Runs (program .receive) receiving :=
  .more (.left (.seq runs_log (.raised (.right (.right (.right (.left (.any 7 (.right (.right (.left (.any 0 (.locked (.locked (.more .io .none))))))))))))))) .none

def heldUp : List Thread :=
  [⟨.connection 0 7 0, [.io (.local 0), .release (.connection 0)], [.connection 0]⟩,
   ⟨.receive, [.acquire (.connection 0), .acquire (.connection 0), .io (.local 0), .release (.connection 0), .release (.connection 0)], []⟩]

theorem heldUp_reach : Reach heldUp :=
  moves_reach (l := [0, 0, 0, 0, 0, 0, 0, 0, 1, 1, 1]) (.step (.step .start (.spawn _ _ runs_connecting)) (.spawn _ _ runs_receiving)) (by decide +kernel)

/-- C164 is false as a whole: the receive thread, and with it all that the server sends on any channel, can wait for the socket of one connection. -/
theorem c164_false : ∃ s i j, Reach s ∧ Is s i .receive ∧ Chain s i j ∧ Next s j (.io (.local 0)) :=
  ⟨heldUp, 1, 0, heldUp_reach, ⟨_, rfl, rfl⟩, .one (l := .connection 0) ⟨⟨_, _, rfl, rfl⟩, ⟨_, rfl, List.mem_cons_self ..⟩, fun h => nomatch h.1⟩, ⟨_, _, rfl, rfl⟩⟩

/-- The main thread in `sync`. -/
def polling : List Ev := logged ++ ([] ++ [.acquire .sync, .io .http, .release .sync]) ++ []

theorem runs_polling : Runs (program .main) polling :=
  .raised (.more (.seq runs_log (.seq .none (.raised (.raised (.locked (.raised (.more (.left .io) .none))))))) .none)

/-- The receive thread gets the instruction `sync`. -/
def instructed : List Ev := logged ++ (logged ++ [.acquire .sync, .io .http, .release .sync]) ++ []

theorem runs_instructed : Runs (program .receive) instructed :=
  .more (.left (.seq runs_log (.raised (.right (.right (.right (.right (.right (.right (.left
    (.seq runs_log (.raised (.left (.raised (.locked (.raised (.more (.left .io) .none)))))))))))))))) ) .none

def heldUpSync : List Thread :=
  [⟨.main, [.io .http, .release .sync], [.sync]⟩, ⟨.receive, [.acquire .sync, .io .http, .release .sync], []⟩]

theorem heldUpSync_reach : Reach heldUpSync :=
  moves_reach (l := [0, 0, 0, 0, 1, 1, 1, 1, 1, 1]) (.step (.step .start (.spawn _ _ runs_polling)) (.spawn _ _ runs_instructed)) (by decide +kernel)

/-- C164: the receive thread can wait for a request of the main thread to the API server. -/
theorem c164_sync_false : ∃ s i j, Reach s ∧ Is s i .receive ∧ Chain s i j ∧ Next s j (.io .http) :=
  ⟨heldUpSync, 1, 0, heldUpSync_reach, ⟨_, rfl, rfl⟩, .one (l := .sync) ⟨⟨_, _, rfl, rfl⟩, ⟨_, rfl, List.mem_cons_self ..⟩, fun h => nomatch h.1⟩, ⟨_, _, rfl, rfl⟩⟩

/-! ### Cases -/

/-- A thread waits in a reachable state, and the one it waits for can go on. -/
example : Waiting heldUp 1 ∧ ∃ j, Chain heldUp 1 j ∧ Unfinished heldUp j ∧ ¬ Waiting heldUp j :=
  have hw : Waiting heldUp 1 := ⟨0, .connection 0, ⟨_, _, rfl, rfl⟩, ⟨_, rfl, List.mem_cons_self ..⟩, fun h => nomatch h.1⟩
  ⟨hw, c163_end heldUp_reach hw⟩

/-- Two threads that take two locks in different orders would wait in a circle: such a state cannot be reached. -/
def circle : List Thread :=
  [⟨.receive, [.acquire (.limiter 0), .release (.limiter 0), .release (.channel 7)], [.channel 7]⟩,
   ⟨.service 7 0, [.acquire (.channel 7), .release (.channel 7), .release (.limiter 0)], [.limiter 0]⟩]

example : Chain circle 0 0 ∧ ¬ Reach circle :=
  have hc : Chain circle 0 0 :=
    .more (j := 1) (l := .limiter 0) ⟨⟨_, _, rfl, rfl⟩, ⟨_, rfl, List.mem_cons_self ..⟩, fun h => nomatch h.1⟩
      (.one (l := .channel 7) ⟨⟨_, _, rfl, rfl⟩, ⟨_, rfl, List.mem_cons_self ..⟩, fun h => nomatch h.1⟩)
  ⟨hc, fun h => c163_no_circle h 0 hc⟩

/-- A thread that takes the lock of the scanner twice would wait for itself. -/
example : Chain [(⟨.scan, [.acquire .scanner], [.scanner]⟩ : Thread)] 0 0 :=
  .one (l := .scanner) ⟨⟨_, _, rfl, rfl⟩, ⟨_, rfl, List.mem_cons_self ..⟩, fun h => nomatch h.2⟩

end Verif.Props.Locks
