import Verif.Spec.Locks
/-!
Locks have ranks; a thread only takes locks of a higher rank than those it holds, or one it holds already.
-/
namespace Verif.Locks
open Verif.Spec.Locks

/-- The order in which locks are taken. -/
def rank : Lock → Nat
  | .service _ | .socket => 1
  | .log => 2
  | _ => 0

/-- The locks that may be held during input and output. -/
def Guard : Io → Lock → Prop
  | .scan, h => h = .scanner
  | .http, h => h = .sync
  | .local n, h => h = .connection n
  | .file, _ | .terminal, _ => False
  | .start, h => ∃ n, h = .limiter n
  | _, _ => True

/-- May a thread of kind `k` with these locks do this? -/
def Good (k : Kind) (held : List Lock) : Ev → Prop
  | .acquire l => ((l ∈ held ∧ l.again = true) ∨ ∀ h ∈ held, rank h < rank l) ∧ (l = .scanner → k = .scan) ∧ (l = .sync → k = .main ∨ k = .receive)
  | .release _ => True
  | .io x => (∀ h ∈ held, Guard x h) ∧ (x = .scan → .scanner ∈ held) ∧ (x = .websocket → .socket ∈ held) ∧ (x = .log → .log ∈ held)

/-- All that a thread will do may be done, and it gives back what it takes. -/
def Ok (k : Kind) : List Lock → List Ev → Prop
  | held, [] => held = []
  | held, .acquire l :: t => Good k held (.acquire l) ∧ Ok k (l :: held) t
  | held, .release l :: t => ∃ h, held = l :: h ∧ Ok k h t
  | held, .io x :: t => Good k held (.io x) ∧ Ok k held t

/-- The same for code. -/
def Safe (k : Kind) : List Lock → Code → Prop
  | _, .skip => True
  | held, .io x => Good k held (.io x)
  | held, .seq a b => Safe k held a ∧ Safe k held b
  | held, .alt a b => Safe k held a ∧ Safe k held b
  | held, .many a => Safe k held a
  | held, .any f => ∀ n, Safe k held (f n)
  | held, .locked l a => Good k held (.acquire l) ∧ Safe k (l :: held) a

theorem safe_runs {k c s} (h : Runs c s) : ∀ held t, Safe k held c → Ok k held t → Ok k held (s ++ t) := by
  induction h with
  | skip => intro held t _ h; exact h
  | io => intro held t hs h; exact ⟨hs, h⟩
  | seq _ _ ih1 ih2 => intro held t hs h; rw [List.append_assoc]; exact ih1 _ _ hs.1 (ih2 _ _ hs.2 h)
  | raised _ ih => intro held t hs h; exact ih _ _ hs.1 h
  | left _ ih => intro held t hs h; exact ih _ _ hs.1 h
  | right _ ih => intro held t hs h; exact ih _ _ hs.2 h
  | none => intro held t _ h; exact h
  | more _ _ ih1 ih2 => intro held t hs h; rw [List.append_assoc]; exact ih1 _ _ hs (ih2 _ _ hs h)
  | any n _ ih => intro held t hs h; exact ih _ _ (hs n) h
  | @locked l a s' _ ih =>
      intro held t hs h
      have h2 := ih _ (.release l :: t) hs.2 ⟨held, rfl, h⟩
      rw [List.append_cons] at h2
      exact ⟨hs.1, h2⟩

theorem safe_program (k : Kind) : Safe k [] (program k) := by
  cases k <;>
    simp [program, main, receive, connection, serviceThread, terminalThread, scanThread, event, instruction, remoteFile, onData, onClose, onControl,
      callbacks, sync, terminalClose, launch, openService, openConnection, connectionClose, connectionData, flush, shutdown, limited, count, close, write,
      send, log, seqs, alts, opt, Safe, Good, rank, Guard, Lock.again]

theorem ok_spawn {k r} (h : Runs (program k) r) : Ok k [] r := by
  have := safe_runs h [] [] (safe_program k) rfl
  rwa [List.append_nil] at this

/-- What holds of all states. -/
structure Inv (s : List Thread) : Prop where
  ok : ∀ (i : Nat) (t : Thread), s[i]? = some t → Ok t.kind t.held t.rest
  alone : ∀ (i j : Nat) (t u : Thread) (l : Lock), s[i]? = some t → s[j]? = some u → l ∈ t.held → l ∈ u.held → i = j

theorem inv_set {s : List Thread} {i : Nat} {t t' : Thread} (h : Inv s) (hi : s[i]? = some t) (hok : Ok t'.kind t'.held t'.rest)
    (hal : ∀ l ∈ t'.held, l ∈ t.held ∨ ∀ j u, s[j]? = some u → l ∈ u.held → j = i) : Inv (s.set i t') := by
  have hlt : i < s.length := (List.getElem?_eq_some_iff.1 hi).1
  constructor
  · intro j u hj
    rw [List.getElem?_set] at hj
    split at hj
    · cases hj; exact hok
    · exact h.ok j u hj
  · have key : ∀ j u l, j ≠ i → s[j]? = some u → l ∈ t'.held → l ∈ u.held → False := by
      intro j u l hne hj hl hu
      rcases hal l hl with ht | hf
      · exact hne (h.alone j i u t l hj hi hu ht)
      · exact hne (hf j u hj hu)
    intro a b u v l ha hb hu hv
    rw [List.getElem?_set] at ha hb
    split at ha
    · rename_i hia
      split at hb
      · rename_i hib; exact hia.symm.trans hib
      · rename_i hib
        cases ha
        exact (key b v l (Ne.symm hib) hb hu hv).elim
    · rename_i hia
      split at hb
      · cases hb
        exact (key a u l (Ne.symm hia) ha hv hu).elim
      · exact h.alone a b u v l ha hb hu hv

theorem inv_step {s s'} (h : Inv s) (hs : Step s s') : Inv s' := by
  cases hs with
  | spawn k r hr =>
      have key : ∀ (i : Nat) (t : Thread), (s ++ [(⟨k, r, []⟩ : Thread)])[i]? = some t → s[i]? = some t ∨ t = (⟨k, r, []⟩ : Thread) := by
        intro i t hi
        rw [List.getElem?_append] at hi
        split at hi
        · exact .inl hi
        · have := List.mem_of_getElem? hi
          exact .inr (List.mem_singleton.1 this)
      constructor
      · intro i t hi
        rcases key i t hi with h1 | h1
        · exact h.ok i t h1
        · subst h1; exact ok_spawn hr
      · intro i j t u l hi hj hl hu
        rcases key i t hi with h1 | h1
        · rcases key j u hj with h2 | h2
          · exact h.alone i j t u l h1 h2 hl hu
          · subst h2; exact (nomatch hu)
        · subst h1; exact (nomatch hl)
  | io hi hr =>
      have := h.ok _ _ hi
      rw [hr] at this
      exact inv_set h hi this.2 (fun l hl => .inl hl)
  | acquire hi hr hf =>
      have := h.ok _ _ hi
      rw [hr] at this
      refine inv_set h hi this.2 (fun l hl => ?_)
      rcases List.mem_cons.1 hl with rfl | hl
      · exact .inr (fun j u hj hu => (hf j u hj hu).1)
      · exact .inl hl
  | release hi hr hh =>
      have := h.ok _ _ hi
      rw [hr, hh] at this
      obtain ⟨h', he, hok⟩ := this
      cases he
      refine inv_set h hi hok (fun l hl => .inl ?_)
      rw [hh]; exact List.mem_cons_of_mem _ hl

theorem inv_reach {s} (h : Reach s) : Inv s := by
  induction h with
  | start => exact ⟨fun i t h => by simp at h, fun i j t u l h => by simp at h⟩
  | step _ hs ih => exact inv_step ih hs

/-- A thread that waits for a lock holds only locks of lower rank, and the lock is with another thread. -/
theorem waits_rank {s i j l} (h : Inv s) (hw : WaitsFor s i j l) : (∀ h', Holds s i h' → rank h' < rank l) ∧ j ≠ i := by
  obtain ⟨⟨t, r, hi, hr⟩, ⟨u, hj, hl⟩, hn⟩ := hw
  have hok := h.ok i t hi
  rw [hr] at hok
  rcases hok.1.1 with ⟨hm, ha⟩ | hrk
  · exact (hn ⟨h.alone j i u t l hj hi hl hm, ha⟩).elim
  · refine ⟨?_, ?_⟩
    · rintro h' ⟨t', ht', hm⟩
      rw [hi] at ht'; cases ht'
      exact hrk h' hm
    · rintro rfl
      rw [hi] at hj; cases hj
      exact Nat.lt_irrefl _ (hrk l hl)

/-- Along a chain the ranks grow. -/
theorem chain_rank {s i j} (h : Inv s) (hc : Chain s i j) :
    ∃ l, Holds s j l ∧ ∀ h', Holds s i h' → rank h' < rank l := by
  induction hc with
  | one hw => exact ⟨_, hw.2.1, (waits_rank h hw).1⟩
  | more hw _ ih =>
      obtain ⟨l, hl, hr⟩ := ih
      exact ⟨l, hl, fun h' hh => Nat.lt_trans ((waits_rank h hw).1 h' hh) (hr _ hw.2.1)⟩

theorem chain_snoc {s i j k l} (hc : Chain s i j) (hw : WaitsFor s j k l) : Chain s i k := by
  induction hc with
  | one h => exact .more h (.one hw)
  | more h _ ih => exact .more h (ih hw)

theorem rank_le (l : Lock) : rank l ≤ 2 := by
  cases l <;> simp [rank]

theorem chain_end {s} (h : Inv s) : ∀ (n : Nat) {i j l}, WaitsFor s i j l → 2 - rank l ≤ n → ∃ j, Chain s i j ∧ ¬ Waiting s j := by
  intro n
  induction n with
  | zero =>
      intro i j l hw hn
      refine ⟨j, .one hw, ?_⟩
      rintro ⟨k, m, hw'⟩
      have h1 := (waits_rank h hw').1 l hw.2.1
      have h2 := rank_le m
      omega
  | succ n ih =>
      intro i j l hw hn
      by_cases hj : Waiting s j
      · obtain ⟨k, m, hw'⟩ := hj
        have h1 := (waits_rank h hw').1 l hw.2.1
        have h2 := rank_le m
        obtain ⟨e, hc, he⟩ := ih hw' (by omega)
        exact ⟨e, .more hw hc, he⟩
      · exact ⟨j, .one hw, hj⟩

/-- A thread that holds a lock has something left to do. -/
theorem holds_unfinished {s i l} (h : Inv s) (hh : Holds s i l) : Unfinished s i := by
  obtain ⟨t, hi, hl⟩ := hh
  have hok := h.ok i t hi
  cases hr : t.rest with
  | nil => rw [hr] at hok; rw [show t.held = [] from hok] at hl; exact (nomatch hl)
  | cons e r => exact ⟨e, t, r, hi, hr⟩

theorem chain_holds {s i j} (hc : Chain s i j) : ∃ l, Holds s j l := by
  induction hc with
  | one hw => exact ⟨_, hw.2.1⟩
  | more _ _ ih => exact ih

/-- A thread that has something left and does not wait can go on. -/
theorem can_move {s i} (h : Inv s) (hu : Unfinished s i) (hw : ¬ Waiting s i) : ∃ s', Step s s' ∧ s'.length = s.length := by
  obtain ⟨e, t, r, hi, hr⟩ := hu
  have hok := h.ok i t hi
  rw [hr] at hok
  cases e with
  | io x => exact ⟨_, .io hi hr, List.length_set ..⟩
  | release l =>
      obtain ⟨h', he, _⟩ := hok
      exact ⟨_, .release hi hr he, List.length_set ..⟩
  | acquire l =>
      refine ⟨_, .acquire hi hr ?_, List.length_set ..⟩
      intro j u hj hl
      exact Classical.byContradiction fun hn => hw ⟨j, l, ⟨t, r, hi, hr⟩, ⟨u, hj, hl⟩, hn⟩

/-- Input and output under a lock of rank 0 holds up only those that wait for it directly. -/
theorem chain_io {s i j x} (h : Inv s) (hc : Chain s i j) (hx : Next s j (.io x)) (h0 : ∀ l, Guard x l → rank l = 0) :
    ∃ l, WaitsFor s i j l ∧ Guard x l := by
  have hg : ∀ l, Holds s j l → Guard x l := by
    rintro l ⟨u, hj, hl⟩
    obtain ⟨t, r, hj', hr⟩ := hx
    rw [hj] at hj'; cases hj'
    have hok := h.ok j u hj
    rw [hr] at hok
    exact hok.1.1 l hl
  cases hc with
  | one hw => exact ⟨_, hw, hg _ hw.2.1⟩
  | more hw hc' =>
      obtain ⟨l, hl, hr⟩ := chain_rank h hc'
      have := hr _ hw.2.1
      rw [h0 l (hg l hl)] at this
      omega

end Verif.Locks
