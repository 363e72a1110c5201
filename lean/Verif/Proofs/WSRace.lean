import Verif.Model.WSClient
/-!
Auxiliary facts on `handle_set_identity` against `close`, statement by statement (Model/WSClient, wsclient.py:286-289, 378-384).
-/
namespace Verif.WSClient
open Verif

/-- What matters of a race: everything but the announcements. -/
def Race.core (r : Race) : Bool × Option Bytes × PC := (r.closed, r.identity, r.pc)

theorem race_core (id : Bytes) (m : Move) (r r' : Race) (h : r.core = r'.core) : (raceStep id r m).core = (raceStep id r' m).core := by
  obtain ⟨c, i, p, a⟩ := r
  obtain ⟨c', i', p', a'⟩ := r'
  simp only [Race.core, Prod.mk.injEq] at h
  obtain ⟨rfl, rfl, rfl⟩ := h
  cases m <;> cases p <;> cases c <;> rfl

theorem race_poll (id : Bytes) (r : Race) : (raceStep id r .poll).core = r.core := by
  obtain ⟨c, i, p, a⟩ := r
  cases p <;> rfl

theorem race_polls (id : Bytes) (moves : List Move) (r r' : Race) (h : r.core = r'.core) :
    (moves.foldl (raceStep id) r).core = ((moves.filter (· ≠ .poll)).foldl (raceStep id) r').core := by
  induction moves generalizing r r' with
  | nil => exact h
  | cons m ms ih =>
    by_cases hm : m = .poll
    · subst hm
      rw [List.filter_cons_of_neg (by simp), List.foldl_cons]
      exact ih _ _ ((race_poll id r).trans h)
    · rw [List.filter_cons_of_pos (by simpa using hm), List.foldl_cons, List.foldl_cons]
      exact ih _ _ (race_core id m r r' h)

theorem race_done (id : Bytes) (n : Nat) (r : Race) (h : r.pc = .done) : (List.replicate n Move.receive).foldl (raceStep id) r = r := by
  induction n with
  | zero => rfl
  | succ n ih => rw [List.replicate_succ, List.foldl_cons, show raceStep id r .receive = r by simp [raceStep, h], ih]

theorem race_sync (id : Bytes) (n : Nat) (r : Race) (h : r.pc = .sync ∨ r.pc = .done) :
    let r' := (List.replicate n Move.receive).foldl (raceStep id) r
    r'.identity = r.identity ∧ r'.closed = r.closed ∧ (r'.pc = .sync ∨ r'.pc = .done) := by
  cases n with
  | zero => exact ⟨rfl, rfl, h⟩
  | succ n =>
    rcases h with h | h
    · have e : raceStep id r .receive = ⟨r.closed, r.identity, .done, r.announced ++ r.identity.toList⟩ := by simp [raceStep, h]
      simp only [List.replicate_succ, List.foldl_cons, e]
      rw [race_done _ _ _ rfl]
      exact ⟨rfl, rfl, .inr rfl⟩
    · rw [race_done _ _ _ h]
      exact ⟨rfl, rfl, .inr h⟩

/-- The moves of the receive thread, one move of `close`, and the rest. -/
theorem race_split {p : Move} {l t : List Move} (hl : Move.poll ∉ l)
    (h : l.filter (fun m => m = .setClosed ∨ m = .clearIdentity) = p :: t) :
    ∃ a l', l = List.replicate a .receive ++ p :: l' ∧ Move.poll ∉ l' ∧ l'.filter (fun m => m = .setClosed ∨ m = .clearIdentity) = t := by
  induction l with
  | nil => exact (nomatch h)
  | cons m l ih =>
    have hl' : Move.poll ∉ l := fun e => hl (.tail _ e)
    cases m with
    | receive =>
      rw [List.filter_cons_of_neg (by simp)] at h
      obtain ⟨a, l', e, h1, h2⟩ := ih hl' h
      exact ⟨a + 1, l', by rw [e]; rfl, h1, h2⟩
    | poll => exact absurd (.head _) hl
    | setClosed =>
      rw [List.filter_cons_of_pos (by simp)] at h
      injection h with h1 h2
      exact ⟨0, l, by rw [← h1]; rfl, hl', h2⟩
    | clearIdentity =>
      rw [List.filter_cons_of_pos (by simp)] at h
      injection h with h1 h2
      exact ⟨0, l, by rw [← h1]; rfl, hl', h2⟩

theorem race_receives {l : List Move} (hl : Move.poll ∉ l) (h : l.filter (fun m => m = .setClosed ∨ m = .clearIdentity) = []) :
    ∃ a, l = List.replicate a .receive := by
  refine ⟨l.length, List.eq_replicate_iff.2 ⟨rfl, fun m hm => ?_⟩⟩
  have := List.filter_eq_nil_iff.1 h m hm
  cases m with
  | receive => rfl
  | poll => exact absurd hm hl
  | _ => simp at this

end Verif.WSClient
