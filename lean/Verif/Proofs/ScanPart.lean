import Verif.Proofs.ScanRun
/-!
Lemmas for C155: the file of a scan is at any time the beginning of what some scan gave.
-/
namespace Verif.DirectoryScanner
open Verif

theorem request_file_same (s : State) (p : Bool) (st : Option Text) : (request s p st).file = s.file := by
  simp only [request]
  split
  · rfl
  · split
    · split <;> rfl
    · rfl

/-- After a step of a thread the file is as it was, or the beginning of what a thread has got from its scan. -/
theorem step_part {s : State} (h : Inv s) (op : Op) : (step s op).file = s.file ∨
    ∃ t json b, made ((step s op).phase t) = some json ∧ (step s op).file = some b ∧ b <+: json := by
  have key : ∀ t json rest, (step s op).phase t = .writing json rest → ∃ t json b, made ((step s op).phase t) = some json ∧ (step s op).file = some b ∧ b <+: json := by
    intro t json rest hp
    obtain ⟨pre, h1, h2⟩ := (inv_step h op).writing t json rest hp
    exact ⟨t, json, pre, by rw [hp]; rfl, h1, rest, h2⟩
  cases op with
  | request p st => exact .inl (request_file_same s p st)
  | acquire t => left; simp only [step]; split <;> (try split) <;> rfl
  | scan t out => left; simp only [step]; split <;> (try split) <;> rfl
  | openFile t ok =>
    cases hp : s.phase t with
    | scanned json =>
      cases ok with
      | true => exact .inr (key t json json (by simp only [step, hp, if_true]; simp [State.set]))
      | false => left; simp only [step, hp]; rfl
    | _ => left; simp only [step, hp]
  | write t n =>
    cases hp : s.phase t with
    | writing json rest => exact .inr (key t json (rest.drop n) (by simp only [step, hp]; simp [State.set]))
    | _ => left; simp only [step, hp]
  | writeFails t => left; simp only [step]; split <;> rfl
  | close t => left; simp only [step]; split <;> rfl
  | report t ok => left; simp only [step]; split <;> (try split) <;> rfl

theorem run_snoc (s : State) (ops : List Op) (op : Op) : run s (ops ++ [op]) = step (run s ops) op := by
  simp [run, List.foldl_append]

theorem run_made (file : Option Bytes) (ops : List Op) (t : Nat) (j : Bytes) (h : made ((run (init file) ops).phase t) = some j) :
    .scan t (some j) ∈ ops := by
  rcases List.eq_nil_or_concat ops with rfl | ⟨l, op, rfl⟩
  · exact (nomatch h)
  · induction hn : l.length generalizing l op with
    | zero =>
      rw [List.length_eq_zero_iff] at hn
      subst hn
      rw [List.concat_eq_append, run_snoc] at h
      cases op with
      | request p st =>
        rcases request_phase (inv_run file []) p st t with h1 | ⟨-, h1⟩
        · rw [step, h1] at h; exact (nomatch h)
        · rw [step, h1] at h; exact (nomatch h)
      | _ =>
        rcases step_made _ _ (by intro p st; simp) t j h with h1 | h1
        · exact (nomatch h1)
        · rw [h1]; simp
    | succ n ih =>
      rw [List.concat_eq_append, run_snoc] at h
      have hprev : made ((run (init file) l).phase t) = some j → .scan t (some j) ∈ l.concat op := by
        intro h1
        rcases List.eq_nil_or_concat l with rfl | ⟨l', op', rfl⟩
        · exact (nomatch h1)
        · have := ih l' op' h1 (by simp at hn; omega)
          rw [List.concat_eq_append]; exact List.mem_append.2 (.inl this)
      cases op with
      | request p st =>
        rcases request_phase (inv_run file l) p st t with h1 | ⟨-, h1⟩
        · rw [step, h1] at h; exact hprev h
        · rw [step, h1] at h; exact (nomatch h)
      | _ =>
        rcases step_made _ _ (by intro p st; simp) t j h with h1 | h1
        · exact hprev h1
        · rw [h1]; simp

theorem run_part (file : Option Bytes) (ops : List Op) : (run (init file) ops).file = file ∨
    ∃ t json b, .scan t (some json) ∈ ops ∧ (run (init file) ops).file = some b ∧ b <+: json := by
  suffices ∀ n (l : List Op), l.length = n → ((run (init file) l).file = file ∨
      ∃ t json b, .scan t (some json) ∈ l ∧ (run (init file) l).file = some b ∧ b <+: json) from this _ ops rfl
  intro n
  induction n with
  | zero => intro l hl; rw [List.length_eq_zero_iff] at hl; subst hl; exact .inl rfl
  | succ n ih =>
    intro l hl
    rcases List.eq_nil_or_concat l with rfl | ⟨l', op, rfl⟩
    · exact .inl rfl
    · rw [List.concat_eq_append] at hl ⊢
      rcases step_part (inv_run file l') op with h | ⟨t, json, b, h1, h2, h3⟩
      · rw [run_snoc, h]
        rcases ih l' (by simp at hl; omega) with h' | ⟨t, json, b, h1, h2⟩
        · exact .inl h'
        · exact .inr ⟨t, json, b, List.mem_append.2 (.inl h1), h2⟩
      · rw [← run_snoc] at h1 h2
        exact .inr ⟨t, json, b, run_made file _ t json h1, h2, h3⟩

end Verif.DirectoryScanner

namespace Verif.ScanWire
open Verif WSClient RemoteDirectory Instructions
open _root_.Verif.RemoteFiles (Keep reply reply_keep keep_set)
open _root_.Verif.DirectoryScanner (Inv made dirty)

theorem requests_phase (l : List Bool) (st : Option Text) (s : DirectoryScanner.State) (f : Option Bytes) (h : Inv { s with file := f }) :
    Inv { l.foldl (fun s p => DirectoryScanner.request s p st) s with file := f } ∧
    ∀ u, (l.foldl (fun s p => DirectoryScanner.request s p st) s).phase u = s.phase u ∨
      made ((l.foldl (fun s p => DirectoryScanner.request s p st) s).phase u) = none := by
  induction l generalizing s with
  | nil => exact ⟨h, fun u => .inl rfl⟩
  | cons p l ih =>
    have hi : Inv { DirectoryScanner.request s p st with file := f } := by
      rw [DirectoryScanner.request_file]; exact DirectoryScanner.inv_request h _ _
    obtain ⟨h1, h2⟩ := ih _ hi
    refine ⟨h1, fun u => ?_⟩
    have h3 := DirectoryScanner.request_phase h p st u
    rw [← DirectoryScanner.request_file] at h3
    rcases h2 u with h2 | h2
    · rw [List.foldl_cons, h2]
      rcases h3 with h3 | ⟨-, h3⟩
      · exact .inl h3
      · exact .inr h3
    · exact .inr h2

/-- Whatever comes from the server: the threads go on, and the file stays as it is. -/
theorem event_any (c : Cfg) (s : Sys) (hg : Good c s) (env : RemoteFiles.Env) (start : Option Text) (e : Ev)
    (hf : (Move.event env start e).fair) (hz : Sized (step c s (.event env start e)).2)
    (hl : (Move.event env start e).leaves c (scanKey c) s.files.fs) :
    Good c (step c s (.event env start e)).1 ∧
    (∀ u, (step c s (.event env start e)).1.scan.phase u = s.scan.phase u ∨ made ((step c s (.event env start e)).1.scan.phase u) = none) ∧
    (∀ d, fileAt c s.files.fs = some d → fileAt c (step c s (.event env start e)).1.files.fs = some d) := by
  simp only [step] at hz ⊢
  generalize hst : (if s.scan.lock = none then start else none) = st at hz ⊢
  generalize hen : ({ env with client := { env.client with scanError := st } } : RemoteFiles.Env) = env' at hz ⊢
  obtain ⟨g1, g2, -, -⟩ := RemoteFiles.event_spec (RemoteFiles.openAnswer []) (RemoteFiles.open_deaf _) c s.files hg.hung env' e hf hz
  have hkeep : ∀ d, fileAt c s.files.fs = some d → fileAt c (RemoteFiles.step c s.files (.event env' e)).1.fs = some d := by
    intro d hd
    rw [g2]
    exact fileAt_keep (reply_keep _ _ _ _ _ hl) hd
  obtain ⟨h1, h2⟩ := requests_phase ((RemoteFiles.step c s.files (.event env' e)).2.filterMap scanRequest) st s.scan _ (inv_file hg.inv hkeep)
  exact ⟨⟨g1, h1⟩, h2, hkeep⟩

/-- The file is the beginning of what a scan gave. -/
def Part (c : Cfg) (sc : Nat → Bytes → Prop) (s : Sys) : Prop := ∃ t json b, sc t json ∧ fileAt c s.files.fs = some b ∧ b <+: json

theorem step_any (c : Cfg) (sc : Nat → Bytes → Prop) (s : Sys) (m : Move) (hg : Good c s) (hm : ∀ t j, made (s.scan.phase t) = some j → sc t j)
    (hsc : ∀ t j, m = .thread (.scan t (some j)) → sc t j) (hf : m.fair) (hz : Sized (step c s m).2) (hu : m.leaves c (scanKey c) s.files.fs) :
    Good c (step c s m).1 ∧ (∀ t j, made ((step c s m).1.scan.phase t) = some j → sc t j) ∧ (Part c sc s → Part c sc (step c s m).1) := by
  cases m with
  | event env start e =>
    obtain ⟨h1, h2, h3⟩ := event_any c s hg env start e hf hz hu
    refine ⟨h1, fun t j h => ?_, ?_⟩
    · rcases h2 t with h' | h'
      · exact hm t j (h' ▸ h)
      · rw [h'] at h; exact (nomatch h)
    · rintro ⟨t, json, b, k1, k2, k3⟩
      exact ⟨t, json, b, k1, h3 _ k2, k3⟩
  | thread op =>
    obtain ⟨h1, -, -, h4⟩ := thread_step c s hg op
    have hmade : ∀ t j, made ((step c s (.thread op)).1.scan.phase t) = some j → sc t j := by
      intro t j h
      rcases h4 t j h with h' | h'
      · exact hm t j h'
      · exact hsc t j (by rw [h'])
    refine ⟨h1, hmade, fun hp => ?_⟩
    by_cases hr : ∃ p st, op = .request p st
    · obtain ⟨p, st, rfl⟩ := hr
      exact hp
    · have h : ∀ p st, op ≠ .request p st := fun p st e => hr ⟨p, st, e⟩
      have hfile := thread_file c s op h
      have hscan : (step c s (.thread op)).1.scan = after c s op := by rw [step_thread c s op h]
      rcases DirectoryScanner.step_part hg.inv (allowed c s.files.fs op) with h' | ⟨t, json, b, k1, k2, k3⟩
      · obtain ⟨t, json, b, k1, k2, k3⟩ := hp
        refine ⟨t, json, b, k1, ?_, k3⟩
        rw [hfile, hscan]
        exact h'.trans k2
      · refine ⟨t, json, b, hmade t json ?_, ?_, k3⟩
        · rw [hscan]; exact k1
        · rw [hfile, hscan]; exact k2
  | change k n =>
    obtain ⟨h1, h2⟩ := change_step c s hg k n hu
    refine ⟨h1, hm, ?_⟩
    rintro ⟨t, json, b, k1, k2, k3⟩
    exact ⟨t, json, b, k1, h2.trans k2, k3⟩

theorem run_any (c : Cfg) (sc : Nat → Bytes → Prop) (ms : List Move) (s : Sys) (hg : Good c s) (hm : ∀ t j, made (s.scan.phase t) = some j → sc t j)
    (hsc : ∀ t j, .thread (.scan t (some j)) ∈ ms → sc t j) (hf : ∀ m ∈ ms, m.fair) (hz : Sized (run c s ms).2) (hu : Undisturbed c (scanKey c) s ms) :
    Good c (run c s ms).1 ∧ (∀ t j, made ((run c s ms).1.scan.phase t) = some j → sc t j) ∧ (Part c sc s → Part c sc (run c s ms).1) := by
  induction ms generalizing s with
  | nil => exact ⟨hg, hm, id⟩
  | cons m ms ih =>
    simp only [run] at hz ⊢
    rw [sized_append] at hz
    obtain ⟨k1, k2, k3⟩ := step_any c sc s m hg hm (fun t j h => hsc t j (by rw [h]; simp)) (hf m (by simp)) hz.1 hu.1
    obtain ⟨i1, i2, i3⟩ := ih _ k1 k2 (fun t j h => hsc t j (by simp [h])) (fun x hx => hf x (by simp [hx])) hz.2 hu.2
    exact ⟨i1, i2, fun h => i3 (k3 h)⟩

end Verif.ScanWire
