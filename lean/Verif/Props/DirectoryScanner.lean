import Verif.Proofs.DirectoryScanner
/-!
C65-C67: the scanner thread and the file with the result.
-/
namespace Verif.DirectoryScanner
open Verif

/-- A scan from the request to the report. -/
def whole (t : Nat) (json : Bytes) : List Op := [.acquire t, .scan t (some json), .openFile t true, .write t json.length, .close t, .report t true]

/-- What can be seen of the first requests. -/
def State.view (s : State) (n : Nat) : List (Phase × List Text) := (List.range n).map (fun t => (s.phase t, repliesTo s t))

/-! ### C65 -/

/-- No scan is running or about to run. -/
def Quiet (s : State) : Prop := s.lock = none ∧ ∀ t, s.phase t ≠ .waiting

/-- C65 as it should be: when all is quiet, each request by packet has exactly one result message. -/
def Answered (s : State) : Prop := Quiet s → ∀ t, t < s.next → s.packet t = true → (repliesTo s t).length = 1

/-- C65: no request is answered twice. -/
theorem c65_at_most_one (file : Option Bytes) (ops : List Op) (t : Nat) : (repliesTo (run (init file) ops) t).length ≤ 1 := by
  rw [(inv_run file ops).replies]
  unfold answer
  split <;> (try split) <;> simp

/-- C65: a message goes only to a request by packet; it is empty after the result was stored, and the error text if the thread could not
be started. -/
theorem c65_message (file : Option Bytes) (ops : List Op) {t : Nat} {m : Text} (h : m ∈ repliesTo (run (init file) ops) t) :
    (run (init file) ops).packet t = true ∧
      ((∃ json, (run (init file) ops).phase t = .finished json true ∧ m = []) ∨ (run (init file) ops).phase t = .unstarted m) := by
  have hi := inv_run file ops
  rw [hi.replies] at h
  unfold answer at h
  split at h
  · rename_i error hp
    split at h
    · rename_i hk
      exact ⟨hk, .inr (by rw [hp, List.mem_singleton.1 h])⟩
    · simp at h
  · rename_i json sent hp
    split at h
    · rename_i hs
      subst hs
      exact ⟨hi.silent t json true hp rfl, .inl ⟨json, hp, List.mem_singleton.1 h⟩⟩
    · simp at h
  · simp at h

/-- C65, the part that holds: when all is quiet each request by packet has exactly one message, unless a scan was in progress when it
came, or its own scan, the writing of its file or the sending of its message failed. -/
theorem c65_answered_partial (file : Option Bytes) (ops : List Op) (hq : Quiet (run (init file) ops)) {t : Nat}
    (ht : t < (run (init file) ops).next) (hp : (run (init file) ops).packet t = true) (h1 : (run (init file) ops).phase t ≠ .refused)
    (h2 : ∀ w, (run (init file) ops).phase t ≠ .failed w) (h3 : ∀ json, (run (init file) ops).phase t ≠ .finished json false) :
    (repliesTo (run (init file) ops) t).length = 1 := by
  have hi := inv_run file ops
  have hb : ¬ ((run (init file) ops).phase t).busy := by rw [hi.lock, hq.1]; simp
  have hw := hq.2 t
  have hk := hi.known t ht
  rw [hi.replies]
  generalize (run (init file) ops).phase t = p at *
  cases p with
  | unstarted e => simp [answer, hp]
  | finished json sent =>
    cases sent with
    | true => simp [answer]
    | false => exact absurd rfl (h3 json)
  | absent => exact absurd rfl hk
  | refused => exact absurd rfl h1
  | waiting => exact absurd rfl hw
  | failed w => exact absurd rfl (h2 w)
  | scanning => exact absurd trivial hb
  | scanned _ => exact absurd trivial hb
  | writing _ _ => exact absurd trivial hb
  | written _ => exact absurd trivial hb

/-- C65: exactly when a request by packet stays without a message, when all is quiet. -/
theorem c65_iff (file : Option Bytes) (ops : List Op) (hq : Quiet (run (init file) ops)) {t : Nat}
    (ht : t < (run (init file) ops).next) (hp : (run (init file) ops).packet t = true) :
    repliesTo (run (init file) ops) t = [] ↔ (run (init file) ops).phase t = .refused ∨ (∃ w, (run (init file) ops).phase t = .failed w) ∨
      ∃ json, (run (init file) ops).phase t = .finished json false := by
  constructor
  · intro h
    apply Classical.byContradiction
    intro hn
    have := c65_answered_partial file ops hq ht hp (fun e => hn (.inl e)) (fun w e => hn (.inr (.inl ⟨w, e⟩)))
      (fun json e => hn (.inr (.inr ⟨json, e⟩)))
    rw [h] at this
    nomatch this
  · intro h
    rw [(inv_run file ops).replies]
    rcases h with h | ⟨w, h⟩ | ⟨json, h⟩ <;> rw [h] <;> simp [answer]

theorem quiet_of (s : State) (hi : Inv s) (h1 : s.lock = none) (h2 : ∀ t ∈ List.range s.next, s.phase t ≠ .waiting) : Quiet s := by
  refine ⟨h1, fun t => ?_⟩
  by_cases h : t < s.next
  · exact h2 t (List.mem_range.2 h)
  · rw [hi.fresh t (by omega)]; simp

/-- C65 is false: a request that comes while a scan is in progress is never answered. -/
theorem c65_locked_false : ¬ ∀ file ops, Answered (run (init file) ops) := by
  intro h
  have := h none [.request true none, .acquire 0, .request true none, .scan 0 (some [1]), .openFile 0 true, .write 0 1, .close 0, .report 0 true]
    (quiet_of _ (inv_run _ _) (by decide +kernel) (by decide +kernel)) 1 (by decide +kernel) (by decide +kernel)
  exact absurd this (by decide +kernel)

/-- C65 is false: a scan that fails is never answered, as the exception ends the thread. -/
theorem c65_failed_false : ¬ ∀ file ops, Answered (run (init file) ops) := by
  intro h
  have := h none [.request true none, .acquire 0, .scan 0 none]
    (quiet_of _ (inv_run _ _) (by decide +kernel) (by decide +kernel)) 0 (by decide +kernel) (by decide +kernel)
  exact absurd this (by decide +kernel)

/-- Two requests before the first thread has the lock: both are answered; a third thread cannot be started. -/
example : (run (init none) ([.request true none, .request true none, .request true (some "no thread".toList)] ++ whole 1 [1, 2] ++ whole 0 [3])).view 3 =
    [(.finished [3] true, [[]]), (.finished [1, 2] true, [[]]), (.unstarted "no thread".toList, ["no thread".toList])] := by decide +kernel

/-! ### C66 -/

/-- C66: at most one thread reads the directory or writes the file. -/
theorem c66_alone (file : Option Bytes) (ops : List Op) {t u : Nat} (ht : ((run (init file) ops).phase t).busy)
    (hu : ((run (init file) ops).phase u).busy) : t = u :=
  (inv_run file ops).only hu ht

/-- C66: at the moment at which success is reported, the file holds the whole result of the scan that reports. -/
theorem c66_stored (file : Option Bytes) (ops : List Op) (op : Op) {t : Nat}
    (hnew : repliesTo (step (run (init file) ops) op) t ≠ repliesTo (run (init file) ops) t)
    (hm : [] ∈ repliesTo (step (run (init file) ops) op) t)
    (hu : ∀ e, (step (run (init file) ops) op).phase t ≠ .unstarted e) :
    ∃ json, (run (init file) ops).phase t = .written json ∧ (step (run (init file) ops) op).file = some json := by
  have hi := inv_run file ops
  generalize run (init file) ops = s at *
  have hi' := inv_step hi op
  rw [hi'.replies, hi.replies] at hnew
  rw [hi'.replies] at hm
  have hfin : ∃ json, (step s op).phase t = .finished json true := by
    unfold answer at hm
    split at hm
    · rename_i e hp; exact absurd hp (hu e)
    · rename_i json sent hp
      split at hm
      · rename_i hs; subst hs; exact ⟨json, hp⟩
      · simp at hm
    · simp at hm
  obtain ⟨json, hfin⟩ := hfin
  have hold : s.phase t ≠ .finished json true := by
    intro hc
    rw [hc, hfin] at hnew
    simp [answer] at hnew
  cases op with
  | request packet started =>
    exfalso
    simp only [step, request] at hfin
    revert hfin
    split
    · simp only [State.set]; split <;> simp [hold]
    · split
      · split <;> simp only [State.set] <;> split <;> simp [hold]
      · simp only [State.set]; split <;> simp [hold]
  | report u sendOk =>
    have hpre : ∀ q, (step s (.report u sendOk)).phase t = q → q ≠ s.phase t → ∃ j, s.phase u = .written j ∧ t = u := by
      intro q hq hne
      simp only [step] at hq
      cases hp : s.phase u <;> simp only [hp] at hq <;> try exact absurd hq.symm hne
      rename_i j
      refine ⟨j, rfl, ?_⟩
      apply Classical.byContradiction
      intro htu
      refine hne ?_
      rw [← hq]
      split <;> simp [State.set, htu]
    obtain ⟨j, hj, htu⟩ := hpre _ hfin (fun e => hold e.symm)
    subst htu
    refine ⟨j, hj, ?_⟩
    have hf := hi.written t j hj
    simp only [step, hj]
    split <;> simpa [State.set] using hf
  | acquire u =>
    exfalso
    simp only [step] at hfin
    cases hp : s.phase u <;> simp only [hp] at hfin <;> try exact hold hfin
    revert hfin
    split
    · simp only [State.set]; split <;> simp [hold]
    · exact hold
  | scan u out =>
    exfalso
    simp only [step] at hfin
    cases hp : s.phase u <;> simp only [hp] at hfin <;> try exact hold hfin
    revert hfin
    split <;> simp only [State.set] <;> split <;> simp [hold]
  | openFile u ok =>
    exfalso
    simp only [step] at hfin
    cases hp : s.phase u <;> simp only [hp] at hfin <;> try exact hold hfin
    revert hfin
    split <;> simp only [State.set] <;> split <;> simp [hold]
  | write u n =>
    exfalso
    simp only [step] at hfin
    cases hp : s.phase u <;> simp only [hp] at hfin <;> try exact hold hfin
    revert hfin
    simp only [State.set]; split <;> simp [hold]
  | writeFails u =>
    exfalso
    simp only [step] at hfin
    cases hp : s.phase u <;> simp only [hp] at hfin <;> try exact hold hfin
    revert hfin
    simp only [State.set]; split <;> simp [hold]
  | close u =>
    exfalso
    simp only [step] at hfin
    cases hp : s.phase u <;> simp only [hp] at hfin <;> try exact hold hfin
    rename_i j rest
    cases rest with
    | cons _ _ => exact hold hfin
    | nil =>
      revert hfin
      simp only [State.set]; split <;> simp [hold]

/-- C66: a thread cannot begin while another is at work. -/
example : ((run (init none) [.request true none, .request true none, .acquire 0, .acquire 1, .scan 1 (some [9]), .scan 0 (some [5])]).view 2).map (·.1) =
    [.scanned [5], .waiting] := by decide +kernel

/-! ### C67 -/

/-- C67 as it should be: in every state the file is what it was at the start, or the whole result of a scan. -/
def Intact (file : Option Bytes) (s : State) : Prop := s.file = file ∨ ∃ t json, (s.phase t).stored json ∧ s.file = some json

/-- C67, the part that holds: the file is whole whenever no thread has it open and no thread failed in writing it. -/
theorem c67_intact_partial (file : Option Bytes) (ops : List Op) (h1 : ∀ t, ¬ ((run (init file) ops).phase t).open)
    (h2 : ∀ t, (run (init file) ops).phase t ≠ .failed true) : Intact file (run (init file) ops) := by
  rcases kept_run file ops with ⟨t, h | h⟩ | h
  · exact absurd h (h1 t)
  · exact absurd h (h2 t)
  · exact h

/-- C67: while a thread writes, the file holds the first part of its result. -/
theorem c67_prefix (file : Option Bytes) (ops : List Op) {t : Nat} {json rest : Bytes}
    (h : (run (init file) ops).phase t = .writing json rest) : ∃ pre, (run (init file) ops).file = some pre ∧ pre ++ rest = json :=
  (inv_run file ops).writing t json rest h

/-- C67 is false: an agent killed while it writes leaves a piece of the new result and nothing of the old. -/
theorem c67_killed_false : ¬ ∀ file ops, Intact file (run (init file) ops) := by
  intro h
  rcases h (some [7, 7]) [.request true none, .acquire 0, .scan 0 (some [1, 2, 3]), .openFile 0 true, .write 0 1] with h | ⟨t, json, hs, _⟩
  · exact absurd h (by decide +kernel)
  · have : ∀ t, (run (init (some [7, 7])) [.request true none, .acquire 0, .scan 0 (some [1, 2, 3]), .openFile 0 true, .write 0 1]).phase t =
        if t = 0 then .writing [1, 2, 3] [2, 3] else .absent := by
      intro t
      by_cases ht : t = 0
      · subst ht; decide +kernel
      · simp [run, init, step, request, State.set, ht]
    rw [this] at hs
    split at hs <;> exact hs

/-- Between scans the file is the last whole result. -/
example : (run (init (some [7])) ([.request true none, .request false none] ++ whole 0 [1, 2] ++ whole 1 [3, 4])).file = some [3, 4] := by decide +kernel

end Verif.DirectoryScanner
