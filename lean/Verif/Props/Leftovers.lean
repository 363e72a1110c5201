import Verif.Props.RemoteFiles
/-!
C173: what is left of the temporary files of uploads and downloads.
-/
namespace Verif.RemoteFiles
open Verif WSClient RemoteDirectory Instructions
open _root_.Verif.Path (join lexKey)

/-! ### Helper lemmas -/

theorem pass_fs (c : Cfg) (env : Env) (outs : List Out) (fs : FS) : (pass c env fs outs).1 = (pass c env fs (outs.filter isRequest)).1 := by
  induction outs generalizing fs with
  | nil => rfl
  | cons o outs ih => cases o <;> simp [pass, isRequest, List.filter_cons, ih]

theorem event_fs (c : Cfg) (s : Sys) (hs : s.client.hung = false) (env : Env) (e : Ev)
    (hfair : ∀ data, e = .binary data → ¬ Hangs data ∧ data.length ≤ maxSize) :
    (step c s (.event env e)).1.client.hung = false ∧ (step c s (.event env e)).1.fs = (reply c env s.fs (requestIn e)).1 := by
  have h1 := step_requests env.client s.client hs e hfair
  refine ⟨by simp only [step]; rw [step_hung _ _ _ (fun data hd => (hfair data hd).1), hs], ?_⟩
  simp only [step]
  rw [pass_fs]
  cases hr : requestIn e with
  | none =>
    rw [hr] at h1
    have : (WSClient.step env.client s.client e).2.filter isRequest = [] := by simpa using h1
    rw [this]
    rfl
  | some r =>
    rw [hr] at h1
    simp only [Option.toList_some, List.map_cons, List.map_nil] at h1
    obtain ⟨o, ho, ho'⟩ : ∃ o, (WSClient.step env.client s.client e).2.filter isRequest = [o] ∧ passedOn o = some r := by
      cases hx : (WSClient.step env.client s.client e).2.filter isRequest with
      | nil => rw [hx] at h1; simp at h1
      | cons a l =>
        rw [hx] at h1
        cases l with
        | nil => exact ⟨a, rfl, by simpa using h1⟩
        | cons b l => simp at h1
    rw [ho, (serve_reply c env s.fs o r ho').1]

/-- What is left at the place of the snapshot by a call of `copyfile`. -/
theorem copyfile_left {c : Cfg} {io : Io} {fs : FS} {src dst : Text} {d : Bytes} (h : ∀ d, fs (lexKey (join c.cwd dst)) ≠ some (.file d))
    (hl : (copyfile c io fs src dst).1 (lexKey (join c.cwd dst)) = some (.file d)) :
    ∃ d', fs (lexKey (join c.cwd src)) = some (.file d') ∧ d <+: d' ∧ ((copyfile c io fs src dst).2 = false → ∃ n, io = .fails (some n)) ∧
      ((copyfile c io fs src dst).2 = true → d = d') := by
  unfold copyfile at hl ⊢
  cases hc : fs.content c.cwd src with
  | none => rw [hc] at hl; exact absurd hl (h d)
  | some d0 =>
    cases hw : fs.writable c.cwd dst with
    | none => rw [hc, hw] at hl; exact absurd hl (h d)
    | some k =>
      obtain ⟨-, h2, -⟩ := FS.writable_some hw
      subst h2
      rw [hc, hw] at hl
      simp only at hl ⊢
      refine ⟨d0, (FS.content_some hc).2, ?_⟩
      split at hl
      · exact absurd hl (h d)
      · rename_i hp
        rw [if_neg hp]
        cases io with
        | good =>
          simp only [FS.set_same, Option.some.injEq, Node.file.injEq] at hl
          subst hl
          exact ⟨List.prefix_refl _, fun h => (nomatch h), fun _ => rfl⟩
        | fails w =>
          cases w with
          | none => exact absurd hl (h d)
          | some n =>
            simp only [FS.set_same, Option.some.injEq, Node.file.injEq] at hl
            subst hl
            exact ⟨List.take_prefix _ _, fun _ => ⟨n, rfl⟩, fun h => (nomatch h)⟩

/-! ### C173 -/

/-- C173, the part that holds for closed uploads: after an upload was closed, there is no snapshot, until it is opened again.  Missing for the full
property: the end of the connection (`c173_kept`), and open requests that fail (`c173_left`). -/
theorem c173_closed_partial (c : Cfg) (hs : c.Sane) (id : Text) (hp : Tame id) (env : OpenEnv) (fs fs1 : FS) (path : Text) (n : Nat)
    (ho : addUpload c env fs path id = (fs1, .ok n)) (ops ops' : List RemoteDirectory.Op) (hl : ∀ op ∈ ops, op.leaves c (snapKey c id))
    (hl' : ∀ op ∈ ops', op.leaves c (snapKey c id)) (cenv : CloseEnv) (hc : cenv.removeFails = false) (d : Bytes) :
    RemoteDirectory.run c (closeUpload c cenv (RemoteDirectory.run c fs1 ops) id) ops' (snapKey c id) ≠ some (.file d) := by
  obtain ⟨f, d, -, -, -, h4, -, -⟩ := addUpload_ok ho
  obtain ⟨u1, u2⟩ := snap_ups c hs hp
  have hst := stored_run u1 u2 h4 ops hl
  have hclose : closeUpload c cenv (RemoteDirectory.run c fs1 ops) id (snapKey c id) = none := by
    have hplace : FS.place (RemoteDirectory.run c fs1 ops) c.cwd (join (snapDir c) id) = some (snapKey c id) := hst.1
    have hexists : FS.pathExists (RemoteDirectory.run c fs1 ops) c.cwd (join (snapDir c) id) = true := by
      simp [FS.pathExists, FS.stat, hplace, hst.2.1]
    simp only [closeUpload, getSnapshotPath_of_isDir c _ id hst.2.2, hexists, if_true, RemoteDirectory.remove, hc, Bool.false_eq_true, if_false, hplace,
      hst.2.1]
    exact FS.set_same _ _ _
  have hstart : ∀ d, closeUpload c cenv (RemoteDirectory.run c fs1 ops) id (snapKey c id) ≠ some (.file d) := by rw [hclose]; simp
  generalize closeUpload c cenv (RemoteDirectory.run c fs1 ops) id = g at hstart
  clear hclose
  induction ops' generalizing g with
  | nil => exact hstart _
  | cons op ops' ih =>
    exact ih (fun x hx => hl' x (by simp [hx])) _ (notFile_step c _ g hstart op (hl' op (by simp)))

/-- C173, exactly what an open request that fails leaves, if there was no snapshot before: if anything, the beginning of the file; and then the
system failed while the copy was written, or, with the whole file, when its size was asked for. -/
theorem c173_left (c : Cfg) (id : Text) (env : OpenEnv) (fs fs1 : FS) (path : Text) (e : RemoteDirectory.Err) (h : ∀ d, fs (snapKey c id) ≠ some (.file d))
    (ho : addUpload c env fs path id = (fs1, .error e)) (d : Bytes) (hd : fs1 (snapKey c id) = some (.file d)) :
    ∃ f d', uploadFile c path = .ok f ∧ fs (lexKey (join c.cwd f)) = some (.file d') ∧ d <+: d' ∧
      ((∃ n, env.copy = .fails (some n)) ∨ env.size2Fails = true ∧ d = d') := by
  unfold addUpload at ho
  cases hf : uploadFile c path with
  | error e' =>
    rw [hf] at ho
    injection ho with ho _
    subst ho
    exact absurd hd (h d)
  | ok f =>
    rw [hf] at ho
    simp only at ho
    split at ho
    · injection ho with ho _
      subst ho
      exact absurd hd (h d)
    · obtain ⟨g1, g2, -⟩ := getSnapshotPath_change c env.mkdirFails fs id
      have hno : ∀ d, (getSnapshotPath c env.mkdirFails fs id).1 (snapKey c id) ≠ some (.file d) := by
        intro d hd
        by_cases hz : ([] : List Text) = snapKey c id
        · rcases g1 [[]] (snapKey c id) with h' | h' | h'
          · rw [h'] at hd; exact h d hd
          · rw [h'.2] at hd; exact (nomatch hd)
          · rw [← hz] at h'; simp at h'
        · rcases g1 [] (snapKey c id) with h' | h' | h'
          · rw [h'] at hd; exact h d hd
          · rw [h'.2] at hd; exact (nomatch hd)
          · exact hz h'.1.symm
      have hback : ∀ k d, (getSnapshotPath c env.mkdirFails fs id).1 k = some (.file d) → fs k = some (.file d) := by
        intro k d hd
        by_cases hz : ([] : List Text) = k
        · rcases g1 [[]] k with h' | h' | h'
          · rw [← h']; exact hd
          · rw [h'.2] at hd; exact (nomatch hd)
          · rw [← hz] at h'; simp at h'
        · rcases g1 [] k with h' | h' | h'
          · rw [← h']; exact hd
          · rw [h'.2] at hd; exact (nomatch hd)
          · exact absurd h'.1.symm hz
      rcases hq : getSnapshotPath c env.mkdirFails fs id with ⟨fs2, e' | snap⟩
      · rw [hq] at ho hno
        injection ho with ho _
        subst ho
        exact absurd hd (hno d)
      · rw [hq] at ho hno g2 hback
        have hsn := g2 snap rfl
        subst hsn
        simp only at ho hno hback
        split at ho
        · injection ho with ho _
          subst ho
          exact absurd hd (hno d)
        · have hcl := @copyfile_left c env.copy fs2 f (join (snapDir c) id) d hno
          split at ho
          · rename_i fs3 hcp
            injection ho with ho _
            subst ho
            rw [hcp] at hcl
            obtain ⟨d', h1, h2, h3, -⟩ := hcl hd
            exact ⟨f, d', rfl, hback _ _ h1, h2, .inl (h3 rfl)⟩
          · rename_i fs3 hcp
            rw [hcp] at hcl
            obtain ⟨d0, k1, k2, k3, k4⟩ := copyfile_ok hcp
            have hcont : fs3.content c.cwd (join (snapDir c) id) = some d0 := by
              have hdirs : ∀ k, fs2 k = some .dir → fs3 k = some .dir := by
                intro k hk
                by_cases e : k = lexKey (join c.cwd (join (snapDir c) id))
                · rw [e] at hk; exact absurd hk k4
                · rw [k2, FS.set_other _ _ e]; exact hk
              exact FS.content_of (FS.place_mono hdirs k3) (by rw [k2]; simp)
            rw [hcont] at ho
            simp only at ho
            split at ho
            · rename_i hsz
              injection ho with ho _
              subst ho
              obtain ⟨d', h1, h2, -, h4⟩ := hcl hd
              exact ⟨f, d', rfl, hback _ _ h1, h2, .inr ⟨hsz, h4 rfl⟩⟩
            · injection ho with _ ho
              exact (nomatch ho)

/-- C173, the part that holds for open requests that fail: nothing is left, unless the system fails while the copy is written or when its size is asked
for. -/
theorem c173_failed_partial (c : Cfg) (id : Text) (env : OpenEnv) (fs fs1 : FS) (path : Text) (e : RemoteDirectory.Err) (h : ∀ d, fs (snapKey c id) ≠ some (.file d))
    (ho : addUpload c env fs path id = (fs1, .error e)) (h1 : ∀ n, env.copy ≠ .fails (some n)) (h2 : env.size2Fails = false) (d : Bytes) :
    fs1 (snapKey c id) ≠ some (.file d) := by
  intro hd
  obtain ⟨f, d', -, -, -, ⟨n, hn⟩ | ⟨hn, -⟩⟩ := c173_left c id env fs fs1 path e h ho d hd
  · exact h1 n hn
  · rw [h2] at hn; exact (nomatch hn)

/-- C173 fails for uploads and downloads that are under way when the connection ends, and for what an open request that fails has left: whatever
happens, the end of connections and new ones among it, a file stays unless a request or another program names it. -/
theorem c173_kept (c : Cfg) (K : List Text) (s : Sys) (hs : s.client.hung = false) (ms : List Move) (hfair : ∀ m ∈ ms, m.fair)
    (hun : Undisturbed c K (fun _ => false) s ms) (d : Bytes) (hd : s.fs K = some (.file d)) : (run c s ms).1.fs K = some (.file d) := by
  induction ms generalizing s with
  | nil => exact hd
  | cons m ms ih =>
    have h1 : (step c s m).1.client.hung = false ∧ (step c s m).1.fs K = some (.file d) := by
      have hl := hun.1 rfl
      cases m with
      | event env e =>
        have hf : Move.fair (.event env e) := hfair (.event env e) List.mem_cons_self
        obtain ⟨h1, h2⟩ := event_fs c s hs env e hf
        exact ⟨h1, by rw [h2]; exact (reply_keep c env s.fs K _ hl).2 d hd⟩
      | change k n => exact ⟨hs, (keep_set n s.fs hl).2 d hd⟩
    exact ih _ h1.1 (fun m hm => hfair m (List.mem_cons_of_mem _ hm)) hun.2 h1.2

/-- C173: events that are no requests change no file at all. -/
theorem c173_no_request (c : Cfg) (s : Sys) (hs : s.client.hung = false) (env : Env) (e : Ev)
    (hfair : ∀ data, e = .binary data → ¬ Hangs data ∧ data.length ≤ maxSize) (hr : requestIn e = none) :
    (step c s (.event env e)).1.fs = s.fs := by
  rw [(event_fs c s hs env e hfair).2, hr]
  rfl

/-- C173, a case: a file is opened and closed, and the copy is gone; a request for a file that is not there leaves nothing. -/
example :
    (run exampleCfg ⟨{}, exampleFS⟩ [.event {} (.binary (asc "li24e2:u11:ae")), .event {} (.binary (asc "li26e2:u1e"))]).1.fs
      ["var".toList, "tmp".toList, "dataplicity_remote".toList, "u1".toList] = none ∧
    (run exampleCfg ⟨{}, exampleFS⟩ [.event {} (.binary (asc "li24e2:u11:ze"))]).1.fs
      ["var".toList, "tmp".toList, "dataplicity_remote".toList, "u1".toList] = none := by decide +kernel

/-- C173 fails: the server opens a file and begins a download, the connection ends, and another one is made; the copy and the first part of the
download are still there. -/
theorem c173_counterexample_lost :
    let s := (run exampleCfg ⟨{}, exampleFS⟩ [.event {} (.binary (asc "li24e2:u11:ae")), .event {} (.binary (asc "li31e2:d11:x0:i0e2:hii0ee")),
      .event {} .disconnected, .event {} .ready]).1
    s.fs ["var".toList, "tmp".toList, "dataplicity_remote".toList, "u1".toList] = some (.file [1, 2, 3, 4, 5]) ∧
    s.fs ["var".toList, "tmp".toList, "dataplicity_remote_downloads".toList, "d1".toList] = some (.file (asc "hi")) := by decide +kernel

/-- C173 fails: the disk is full after two bytes; the server is told that the request failed, and the two bytes stay. -/
theorem c173_counterexample_failed :
    let r := run exampleCfg ⟨{}, exampleFS⟩ [.event { opn := { usage := none, copy := .fails (some 2) } } (.binary (asc "li24e2:u11:ae"))]
    openAnswers (asc "u1") r.2 = [(-1, 1)] ∧ r.1.fs ["var".toList, "tmp".toList, "dataplicity_remote".toList, "u1".toList] = some (.file [1, 2]) := by
  decide +kernel

end Verif.RemoteFiles
