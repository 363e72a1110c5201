import Verif.Proofs.ScanWire
/-!
Lemmas for C120: runs of the client, the remote directory and the scanner.
-/
namespace Verif.ScanWire
open Verif WSClient RemoteDirectory Instructions
open _root_.Verif.RemoteFiles (Keep reply reply_keep keep_set)
open _root_.Verif.DirectoryScanner (Inv made dirty)

/-- The receive thread runs, and the scanner and its file go together. -/
structure Good (c : Cfg) (s : Sys) : Prop where
  hung : s.files.client.hung = false
  inv : Inv { s.scan with file := fileAt c s.files.fs }

theorem fileAt_keep {c : Cfg} {fs fs' : FS} (h : Keep (scanKey c) fs fs') {d : Bytes} (hf : fileAt c fs = some d) : fileAt c fs' = some d := by
  unfold fileAt at hf
  split at hf
  · rename_i x hx
    injection hf with hf
    subst hf
    rw [fileAt, h.2 _ hx]
  · exact (nomatch hf)

/-- The file may appear, or stay what it is. -/
theorem inv_file {s : DirectoryScanner.State} {f f' : Option Bytes} (h : Inv { s with file := f }) (hf : ∀ d, f = some d → f' = some d) :
    Inv { s with file := f' } := by
  refine ⟨h.lock, h.fresh, h.known, ?_, ?_, h.replies, h.silent⟩
  · intro t json rest hp
    obtain ⟨pre, h1, h2⟩ := h.writing t json rest hp
    exact ⟨pre, hf _ h1, h2⟩
  · intro t json hp
    exact hf _ (h.written t json hp)

theorem asks_event (env : RemoteFiles.Env) (start : Option Text) (e : Ev) :
    (Move.event env start e).asks = match requestIn e with | some .scan => true | _ => false := rfl

theorem event_step (c : Cfg) (s : Sys) (hg : Good c s) (env : RemoteFiles.Env) (start : Option Text) (e : Ev)
    (hf : (Move.event env start e).fair) (hni : (Move.event env start e).noInstruction) (hz : Sized (step c s (.event env start e)).2)
    (hl : (Move.event env start e).leaves c (scanKey c) s.files.fs) :
    Good c (step c s (.event env start e)).1 ∧
    (step c s (.event env start e)).1.scan.next = s.scan.next + (if (Move.event env start e).asks then 1 else 0) ∧
    s.scan.replies.length + (results (step c s (.event env start e)).2).length ≤ (step c s (.event env start e)).1.scan.replies.length ∧
    (∀ u, (step c s (.event env start e)).1.scan.phase u = s.scan.phase u ∨
      (s.scan.phase u = .absent ∧ made ((step c s (.event env start e)).1.scan.phase u) = none)) ∧
    (∀ d, fileAt c s.files.fs = some d → fileAt c (step c s (.event env start e)).1.files.fs = some d) := by
  simp only [step] at hz ⊢
  generalize hst : (if s.scan.lock = none then start else none) = st at hz ⊢
  generalize hen : ({ env with client := { env.client with scanError := st } } : RemoteFiles.Env) = env' at hz ⊢
  have hse : env'.client.scanError = st := by rw [← hen]
  obtain ⟨g1, g2, -, -⟩ := RemoteFiles.event_spec (RemoteFiles.openAnswer []) (RemoteFiles.open_deaf _) c s.files hg.hung env' e hf hz
  have hkeep : ∀ d, fileAt c s.files.fs = some d → fileAt c (RemoteFiles.step c s.files (.event env' e)).1.fs = some d := by
    intro d hd
    rw [g2]
    exact fileAt_keep (reply_keep _ _ _ _ _ hl) hd
  have hreq : (RemoteFiles.step c s.files (.event env' e)).2.filterMap scanRequest = match requestIn e with | some .scan => [true] | _ => [] := by
    simp only [RemoteFiles.step]
    rw [pass_requests, client_requests env'.client s.files.client hg.hung e hf (fun sender d h => hni sender d h)]
    cases requestIn e with
    | none => rfl
    | some r => cases r <;> rfl
  have hres : results (RemoteFiles.step c s.files (.event env' e)).2 = [] ∨ (requestIn e = some .scan ∧ st ≠ none ∧
      (results (RemoteFiles.step c s.files (.event env' e)).2).length ≤ 1) := by
    simp only [RemoteFiles.step] at hz ⊢
    rw [pass_results _ _ _ _ hz, ← hse]
    exact client_results env'.client s.files.client hg.hung e hf (sized_pass _ _ _ _ hz)
  have hlock : st ≠ none → s.scan.lock = none := by
    intro h
    rw [← hst] at h
    split at h
    · assumption
    · exact absurd rfl h
  rw [hreq]
  by_cases ha : requestIn e = some .scan
  · rw [asks_event]
    simp only [ha, List.foldl_cons, List.foldl_nil, if_true]
    refine ⟨⟨g1, ?_⟩, DirectoryScanner.request_next _ _ _, ?_, ?_, hkeep⟩
    · simp only
      rw [DirectoryScanner.request_file]
      exact DirectoryScanner.inv_request (inv_file hg.inv hkeep) _ _
    · rw [DirectoryScanner.request_replies _ _ hlock]
      rcases hres with h | ⟨_, h1, h2⟩
      · rw [h]; simp
      · rw [if_neg h1]; omega
    · exact fun u => by
        have h1 := DirectoryScanner.request_phase hg.inv true st u
        rw [← DirectoryScanner.request_file] at h1
        exact h1
  · have hne : (match requestIn e with | some .scan => [true] | _ => []) = ([] : List Bool) := by
      split
      · rename_i h; exact absurd h ha
      · rfl
    have hna : (match requestIn e with | some .scan => true | _ => false) = false := by
      split
      · rename_i h; exact absurd h ha
      · rfl
    rw [asks_event, hne, hna]
    refine ⟨⟨g1, inv_file hg.inv hkeep⟩, rfl, ?_, fun u => .inl rfl, hkeep⟩
    rcases hres with h | ⟨h, _⟩
    · rw [h]; simp
    · exact absurd h ha

theorem results_success : results success = [[]] := by decide +kernel

theorem allowed_not_request (c : Cfg) (fs : FS) (op : DirectoryScanner.Op) (h : ∀ p st, op ≠ .request p st) :
    ∀ p st, allowed c fs op ≠ .request p st := by
  intro p st
  cases op <;> simp [allowed]
  exact absurd rfl (h _ _)

/-- The scanner after a step of a thread. -/
def after (c : Cfg) (s : Sys) (op : DirectoryScanner.Op) : DirectoryScanner.State :=
  DirectoryScanner.step { s.scan with file := fileAt c s.files.fs } (allowed c s.files.fs op)

theorem step_thread (c : Cfg) (s : Sys) (op : DirectoryScanner.Op) (h : ∀ p st, op ≠ .request p st) :
    step c s (.thread op) =
      (⟨if (after c s op).file = fileAt c s.files.fs then s.files
        else ⟨s.files.client, s.files.fs.set (scanKey c) ((after c s op).file.map .file)⟩,
        after c s op⟩,
      if (after c s op).replies = s.scan.replies then [] else success) := by
  cases op with
  | request p st => exact absurd rfl (h p st)
  | _ => rfl

theorem thread_file (c : Cfg) (s : Sys) (op : DirectoryScanner.Op) (h : ∀ p st, op ≠ .request p st) :
    fileAt c (step c s (.thread op)).1.files.fs = (step c s (.thread op)).1.scan.file := by
  rw [step_thread c s op h]
  dsimp only
  split
  · rename_i he; rw [he]
  · simp only [fileAt, FS.set, if_true]
    cases (after c s op).file <;> rfl

theorem thread_step (c : Cfg) (s : Sys) (hg : Good c s) (op : DirectoryScanner.Op) :
    Good c (step c s (.thread op)).1 ∧ (step c s (.thread op)).1.scan.next = s.scan.next ∧
    s.scan.replies.length + (results (step c s (.thread op)).2).length ≤ (step c s (.thread op)).1.scan.replies.length ∧
    (∀ t j, made ((step c s (.thread op)).1.scan.phase t) = some j → made (s.scan.phase t) = some j ∨ op = .scan t (some j)) := by
  by_cases hr : ∃ p st, op = .request p st
  · obtain ⟨p, st, rfl⟩ := hr
    exact ⟨hg, rfl, by simp [step, results, sentOf], fun t j h => .inl h⟩
  · have h : ∀ p st, op ≠ .request p st := fun p st e => hr ⟨p, st, e⟩
    have ha := allowed_not_request c s.files.fs op h
    have hf := thread_file c s op h
    have hsc : (step c s (.thread op)).1.scan = after c s op := by
      rw [step_thread c s op h]
    refine ⟨⟨?_, ?_⟩, ?_, ?_, ?_⟩
    · rw [step_thread c s op h]
      dsimp only
      split
      · exact hg.hung
      · exact hg.hung
    · rw [hf, hsc]
      exact DirectoryScanner.inv_step hg.inv _
    · rw [hsc]; exact DirectoryScanner.step_next _ _ ha
    · rw [hsc]
      have hout : (step c s (.thread op)).2 = if (after c s op).replies =
          s.scan.replies then [] else success := by rw [step_thread c s op h]
      rw [hout]
      rcases DirectoryScanner.step_replies { s.scan with file := fileAt c s.files.fs } _ ha with e | ⟨t, json, -, -, e, -⟩
      · have e' : (after c s op).replies = s.scan.replies := e
        rw [if_pos e', e']; simp [results, sentOf]
      · have e' : (after c s op).replies.length = s.scan.replies.length + 1 := e
        split
        · rw [e']; simp [results, sentOf]
        · rw [results_success, e']; simp
    · intro t j hm
      rw [hsc] at hm
      rcases DirectoryScanner.step_made _ _ ha t j hm with h1 | h1
      · exact .inl h1
      · refine .inr ?_
        cases op <;> simp [allowed] at h1 ⊢
        exact h1

theorem change_step (c : Cfg) (s : Sys) (hg : Good c s) (k : List Text) (n : Option Node) (hl : ¬ k <+: scanKey c) :
    Good c (step c s (.change k n)).1 ∧ fileAt c (step c s (.change k n)).1.files.fs = fileAt c s.files.fs := by
  have hk : (step c s (.change k n)).1.files.fs (scanKey c) = s.files.fs (scanKey c) := by
    simp only [step, FS.set]
    rw [if_neg]
    intro e
    exact hl (e ▸ List.prefix_refl _)
  have hf : fileAt c (step c s (.change k n)).1.files.fs = fileAt c s.files.fs := by
    unfold fileAt
    rw [hk]
  refine ⟨⟨hg.hung, ?_⟩, hf⟩
  rw [hf]
  exact hg.inv

theorem run_good (c : Cfg) (ms : List Move) (s : Sys) (hg : Good c s) (hf : ∀ m ∈ ms, m.fair) (hni : ∀ m ∈ ms, m.noInstruction)
    (hz : Sized (run c s ms).2) (hu : Undisturbed c (scanKey c) s ms) :
    Good c (run c s ms).1 ∧ (run c s ms).1.scan.next = s.scan.next + ms.countP Move.asks ∧
    s.scan.replies.length + (results (run c s ms).2).length ≤ (run c s ms).1.scan.replies.length ∧
    (∀ t j, made ((run c s ms).1.scan.phase t) = some j → made (s.scan.phase t) = some j ∨ .thread (.scan t (some j)) ∈ ms) := by
  induction ms generalizing s with
  | nil => exact ⟨hg, rfl, by simp [run, results, sentOf], fun t j h => .inl h⟩
  | cons m ms ih =>
    simp only [run] at hz ⊢
    rw [sized_append] at hz
    have key : Good c (step c s m).1 ∧ (step c s m).1.scan.next = s.scan.next + (if m.asks then 1 else 0) ∧
        s.scan.replies.length + (results (step c s m).2).length ≤ (step c s m).1.scan.replies.length ∧
        (∀ t j, made ((step c s m).1.scan.phase t) = some j → made (s.scan.phase t) = some j ∨ m = .thread (.scan t (some j))) := by
      cases m with
      | event env start e =>
        obtain ⟨h1, h2, h3, h4, -⟩ := event_step c s hg env start e (hf _ (by simp)) (hni _ (by simp)) hz.1 hu.1
        refine ⟨h1, h2, h3, fun t j hm => .inl ?_⟩
        rcases h4 t with h | ⟨-, h⟩
        · rw [← h]; exact hm
        · rw [h] at hm; exact (nomatch hm)
      | thread op =>
        obtain ⟨h1, h2, h3, h4⟩ := thread_step c s hg op
        refine ⟨h1, by rw [h2]; rfl, h3, fun t j hm => ?_⟩
        rcases h4 t j hm with h | h
        · exact .inl h
        · exact .inr (by rw [h])
      | change k n =>
        refine ⟨(change_step c s hg k n hu.1).1, rfl, by simp [step, results, sentOf], fun t j h => .inl h⟩
    obtain ⟨k1, k2, k3, k4⟩ := key
    obtain ⟨i1, i2, i3, i4⟩ := ih (step c s m).1 k1 (fun x hx => hf x (by simp [hx])) (fun x hx => hni x (by simp [hx])) hz.2 hu.2
    refine ⟨i1, ?_, ?_, ?_⟩
    · rw [i2, k2, List.countP_cons]; omega
    · rw [results_append, List.length_append]; omega
    · intro t j hm
      rcases i4 t j hm with h | h
      · rcases k4 t j h with h' | h'
        · exact .inl h'
        · exact .inr (by rw [h']; simp)
      · exact .inr (by simp [h])

/-- While no success is reported, the file stays as it is or some thread has opened it without success. -/
theorem run_clean (c : Cfg) (json : Bytes) (ms : List Move) (s : Sys) (hg : Good c s) (hf : ∀ m ∈ ms, m.fair) (hni : ∀ m ∈ ms, m.noInstruction)
    (hz : Sized (run c s ms).2) (hu : Undisturbed c (scanKey c) s ms) (hno : [] ∉ results (run c s ms).2)
    (h : fileAt c s.files.fs = some json ∨ ∃ u, dirty (s.scan.phase u)) :
    fileAt c (run c s ms).1.files.fs = some json ∨ ∃ u, dirty ((run c s ms).1.scan.phase u) := by
  induction ms generalizing s with
  | nil => exact h
  | cons m ms ih =>
    simp only [run] at hz hno ⊢
    rw [sized_append] at hz
    rw [results_append, List.mem_append] at hno
    have key : Good c (step c s m).1 ∧ (fileAt c (step c s m).1.files.fs = some json ∨ ∃ u, dirty ((step c s m).1.scan.phase u)) := by
      cases m with
      | event env start e =>
        obtain ⟨h1, -, -, h4, h5⟩ := event_step c s hg env start e (hf _ (by simp)) (hni _ (by simp)) hz.1 hu.1
        refine ⟨h1, ?_⟩
        rcases h with h | ⟨u, h⟩
        · exact .inl (h5 _ h)
        · refine .inr ⟨u, ?_⟩
          rcases h4 u with h' | ⟨h', -⟩
          · rw [h']; exact h
          · rw [h'] at h; exact h.elim
      | thread op =>
        refine ⟨(thread_step c s hg op).1, ?_⟩
        by_cases hr : ∃ p st, op = .request p st
        · obtain ⟨p, st, rfl⟩ := hr
          exact h
        · have hop : ∀ p st, op ≠ .request p st := fun p st e => hr ⟨p, st, e⟩
          have ha := allowed_not_request c s.files.fs op hop
          rw [thread_file c s op hop, step_thread c s op hop]
          dsimp only
          have hsame : (after c s op).replies = s.scan.replies := by
            apply Decidable.byContradiction
            intro hne
            apply hno
            left
            rw [step_thread c s op hop]
            dsimp only
            rw [if_neg hne, results_success]
            simp
          obtain ⟨d1, d2⟩ := DirectoryScanner.step_dirty { s.scan with file := fileAt c s.files.fs } _ ha hsame
          rcases h with h | h
          · rcases d2 with d2 | d2
            · exact .inl (d2.trans h)
            · exact .inr d2
          · exact .inr (d1 h)
      | change k n =>
        obtain ⟨h1, h2⟩ := change_step c s hg k n hu.1
        refine ⟨h1, ?_⟩
        rcases h with h | h
        · exact .inl (by rw [h2]; exact h)
        · exact .inr h
    exact ih _ key.1 (fun x hx => hf x (by simp [hx])) (fun x hx => hni x (by simp [hx])) hz.2 hu.2 (fun hm => hno (.inr hm)) key.2

theorem good_init (c : Cfg) (client : St) (fs : FS) (h : client.hung = false) : Good c (init client fs) := by
  refine ⟨h, ?_⟩
  have := DirectoryScanner.inv_init (fileAt c fs)
  exact this

theorem run_append (c : Cfg) (s : Sys) (a b : List Move) :
    run c s (a ++ b) = ((run c (run c s a).1 b).1, (run c s a).2 ++ (run c (run c s a).1 b).2) := by
  induction a generalizing s with
  | nil => simp [run]
  | cons m a ih => simp only [List.cons_append, run, ih, List.append_assoc]

theorem undisturbed_append {c : Cfg} {K : List Text} {s : Sys} {a b : List Move} :
    Undisturbed c K s (a ++ b) ↔ Undisturbed c K s a ∧ Undisturbed c K (run c s a).1 b := by
  induction a generalizing s with
  | nil => simp [Undisturbed, run]
  | cons m a ih => simp only [List.cons_append, Undisturbed, run, ih, and_assoc]

/-! ### The remote directory sees the scanner as another program -/

theorem success_out : ∀ m ∈ sentOf success, IsOut m := by
  unfold success
  split
  · rename_i p hp
    split
    · rename_i m hm
      intro m' h'
      simp [sentOf] at h'
      subst h'
      exact (scan_own hp hm).isOut
    · simp [sentOf]
  · simp [sentOf]

/-- The moves as the remote directory sees them. -/
theorem lower_run (c : Cfg) (id : Bytes) (K : List Text) (hK : ¬ scanKey c <+: K) (ms : List Move) (s : Sys) (hf : ∀ m ∈ ms, m.fair)
    (hok : ∀ m ∈ ms, m.readsOk id) (hu : Undisturbed c K s ms) (hz : Sized (run c s ms).2) :
    ∃ ms', (run c s ms).1.files = (RemoteFiles.run c s.files ms').1 ∧ RemoteFiles.Undisturbed c K (fun _ => false) s.files ms' ∧
      (∀ m ∈ ms', m.fair) ∧ (∀ m ∈ ms', m.readsOk id) ∧ RemoteFiles.readRequests id ms' = readRequests id ms ∧
      Sized (RemoteFiles.run c s.files ms').2 ∧ RemoteFiles.readAnswers id (run c s ms).2 = RemoteFiles.readAnswers id (RemoteFiles.run c s.files ms').2 := by
  induction ms generalizing s with
  | nil => exact ⟨[], rfl, trivial, by simp, by simp, rfl, hz, rfl⟩
  | cons m ms ih =>
    simp only [run] at hz
    rw [sized_append] at hz
    obtain ⟨ms', h1, h2, h3, h4, h5, h6, h7⟩ := ih (step c s m).1 (fun x hx => hf x (by simp [hx])) (fun x hx => hok x (by simp [hx])) hu.2 hz.2
    have one : ∀ m' : RemoteFiles.Move, (step c s m).1.files = (RemoteFiles.step c s.files m').1 → m'.leaves c K s.files.fs → m'.fair → m'.readsOk id →
        RemoteFiles.readRequests id [m'] = readRequests id [m] → Sized (RemoteFiles.step c s.files m').2 →
        RemoteFiles.readAnswers id (step c s m).2 = RemoteFiles.readAnswers id (RemoteFiles.step c s.files m').2 → ∃ ms', (run c s (m :: ms)).1.files = (RemoteFiles.run c s.files ms').1 ∧ RemoteFiles.Undisturbed c K (fun _ => false) s.files ms' ∧
      (∀ m ∈ ms', m.fair) ∧ (∀ m ∈ ms', m.readsOk id) ∧ RemoteFiles.readRequests id ms' = readRequests id (m :: ms) ∧
      Sized (RemoteFiles.run c s.files ms').2 ∧ RemoteFiles.readAnswers id (run c s (m :: ms)).2 = RemoteFiles.readAnswers id (RemoteFiles.run c s.files ms').2 := by
      intro m' g1 g2 g3 g4 g5 g6 g7
      rw [g1] at h1 h2 h6 h7
      refine ⟨m' :: ms', ?_, ⟨fun _ => g2, h2⟩, ?_, ?_, ?_, ?_, ?_⟩
      · simp only [run, RemoteFiles.run]; exact h1
      · intro x hx
        rcases List.mem_cons.1 hx with rfl | hx
        · exact g3
        · exact h3 x hx
      · intro x hx
        rcases List.mem_cons.1 hx with rfl | hx
        · exact g4
        · exact h4 x hx
      · rw [show m' :: ms' = [m'] ++ ms' from rfl, show m :: ms = [m] ++ ms from rfl, RemoteFiles.readRequests, readRequests,
          List.filterMap_append, List.filterMap_append]
        rw [RemoteFiles.readRequests, readRequests] at h5 g5
        rw [h5, g5]
      · simp only [RemoteFiles.run]; rw [sized_append]; exact ⟨g6, h6⟩
      · simp only [run, RemoteFiles.run]
        rw [RemoteFiles.readAnswers, RemoteFiles.readAnswers, sentOf_append, sentOf_append, List.filterMap_append, List.filterMap_append]
        rw [RemoteFiles.readAnswers, RemoteFiles.readAnswers] at h7 g7
        rw [h7, g7]
    cases m with
    | event env start e =>
      refine one (.event { env with client := { env.client with scanError := if s.scan.lock = none then start else none } } e) rfl ?_ ?_ ?_ rfl hz.1 rfl
      · exact hu.1
      · exact hf _ (List.mem_cons_self ..)
      · exact hok _ (List.mem_cons_self ..)
    | change k n =>
      exact one (.change k n) rfl hu.1 trivial trivial rfl (by simp [RemoteFiles.step, Sized, sentOf]) rfl
    | thread op =>
      by_cases hr : ∃ p st, op = .request p st
      · obtain ⟨p, st, rfl⟩ := hr
        exact ⟨ms', h1, h2, h3, h4, h5, h6, h7⟩
      · have hop : ∀ p st, op ≠ .request p st := fun p st e => hr ⟨p, st, e⟩
        have hans : RemoteFiles.readAnswers id (step c s (.thread op)).2 = [] := by
          rw [RemoteFiles.readAnswers, List.filterMap_eq_nil_iff]
          intro m hm
          refine RemoteFiles.read_deaf id m ?_ (hz.1 m hm)
          rw [step_thread c s op hop] at hm
          dsimp only at hm
          split at hm
          · exact (nomatch hm)
          · exact success_out m hm
        have hfiles : (step c s (.thread op)).1.files = s.files ∨ ∃ n, (step c s (.thread op)).1.files = (RemoteFiles.step c s.files (.change (scanKey c) n)).1 := by
          rw [step_thread c s op hop]
          dsimp only
          split
          · exact .inl rfl
          · exact .inr ⟨_, rfl⟩
        rcases hfiles with hfi | ⟨n, hfi⟩
        · rw [hfi] at h1 h2 h6 h7
          refine ⟨ms', h1, h2, h3, h4, h5, h6, ?_⟩
          simp only [run]
          rw [RemoteFiles.readAnswers, sentOf_append, List.filterMap_append]
          rw [RemoteFiles.readAnswers] at hans h7
          rw [hans, List.nil_append, h7]
        · exact one (.change (scanKey c) n) hfi hK trivial trivial rfl (by simp [RemoteFiles.step, Sized, sentOf]) hans

end Verif.ScanWire
