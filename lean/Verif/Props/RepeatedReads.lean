import Verif.Props.Repeated
/-!
C194: requests to open, read and close a file that the server sends again because it got no answer.
-/
namespace Verif.RemoteDirectory
open Verif Path

theorem copyfile_inv {c : Cfg} {io : Io} {fs fs' : FS} {src dst : Text} (h : copyfile c io fs src dst = (fs', true)) :
    ∃ d k, fs.content c.cwd src = some d ∧ fs.writable c.cwd dst = some k ∧ fs.place c.cwd src ≠ some k ∧ fs' = fs.set k (some (.file d)) := by
  simp only [copyfile] at h
  split at h
  · rename_i d k h1 h2
    split at h
    · injection h with _ h; exact (nomatch h)
    · rename_i hne
      split at h
      · injection h with h _
        exact ⟨d, k, h1, h2, hne, h.symm⟩
      · injection h with _ h; exact (nomatch h)
      · injection h with _ h; exact (nomatch h)
  · injection h with _ h; exact (nomatch h)

/-- What an upload that was opened leaves behind: the file is still there, and it is not the snapshot. -/
theorem addUpload_kept {c : Cfg} {env : OpenEnv} {fs fs' : FS} {path id : Text} {n : Nat} (h : addUpload c env fs path id = (fs', .ok n)) :
    ∃ f d, uploadFile c path = .ok f ∧ fs'.content c.cwd f = some d ∧ n = d.length ∧ Stored c id d fs' ∧ fs'.place c.cwd f ≠ some (snapKey c id) ∧
      startsWith c.temp (join (snapDir c) id) = true := by
  obtain ⟨f0, d0, a1, a2, a3, a4, -, a6⟩ := addUpload_ok h
  simp only [addUpload, a1] at h
  split at h
  · injection h with _ h; exact (nomatch h)
  · obtain ⟨-, g2, -⟩ := getSnapshotPath_change c env.mkdirFails fs id
    split at h
    · injection h with _ h; exact (nomatch h)
    · rename_i fs1 snap hq
      rw [hq] at g2
      have hs := g2 snap rfl
      subst hs
      split at h
      · injection h with _ h; exact (nomatch h)
      · split at h
        · injection h with _ h; exact (nomatch h)
        · rename_i fs2 hcp
          obtain ⟨d, k, c1, c2, c3, c4⟩ := copyfile_inv hcp
          have he : fs' = fs2 := by
            split at h
            · split at h
              · injection h with _ h; exact (nomatch h)
              · injection h with h _; exact h.symm
            · injection h with _ h; exact (nomatch h)
          subst he
          obtain ⟨w1, w2, w3⟩ := FS.writable_some c2
          obtain ⟨p1, p2⟩ := FS.content_some c1
          have hk : k = snapKey c id := w2
          have hne : lexKey (join c.cwd f0) ≠ k := fun e => c3 (by rw [p1, e])
          have hdirs : ∀ x, fs1 x = some .dir → fs' x = some .dir := by
            intro x hx
            rw [c4, FS.set_other]
            · exact hx
            · intro e; rw [e] at hx; exact w3 hx
          have hp := FS.place_mono hdirs p1
          have hsame : fs' (lexKey (join c.cwd f0)) = some (.file d) := by rw [c4, FS.set_other _ _ hne]; exact p2
          have hd : d = d0 := by
            have := a4.2.1
            rw [← hk, c4, FS.set_same] at this
            injection this with this
            injection this
          subst hd
          exact ⟨f0, d, a1, FS.content_of hp hsame, a3, a4, by rw [hp, ← hk]; intro e; injection e with e; exact hne e, a6⟩

/-- C194, the part that holds for opening: a request that is sent again while the file has not changed, while there is room for one more copy of it and
the copy is made, changes nothing, and gets the same answer.  Missing: see `c194_no_room`, `c194_cut` and `c194_changed`. -/
theorem c194_open_partial (r : PyVal → String) (c : Cfg) (env env' : OpenEnv) (fs fs1 : FS) (path id : Text) (n : Nat)
    (h : addUpload c env fs path id = (fs1, .ok n)) (hc : env'.copy = .good) (h2 : env'.size2Fails = false)
    (hu : ∀ used total, env'.usage = some (used, total) → used + n + 50000000 ≤ total) :
    addUpload c env' fs1 path id = (fs1, .ok n) ∧
    onOpen r c env' fs1 (utf8Encode id) (utf8Encode path) = onOpen r c env fs (utf8Encode id) (utf8Encode path) := by
  obtain ⟨f, d, a1, a2, a3, a4, a5, a6⟩ := addUpload_kept h
  have hlow : lowSpace c env' fs1 f = false := by
    simp only [lowSpace]
    cases hus : env'.usage with
    | none => rfl
    | some ut =>
      obtain ⟨used, total⟩ := ut
      have := hu used total hus
      simp only [FS.content_stat a2, margin]
      split
      · rfl
      · apply decide_eq_false
        omega
  have hw : fs1.writable c.cwd (join (snapDir c) id) = some (snapKey c id) := by
    simp only [FS.writable, a4.1, a4.2.1]
    simp
  have hsnap := FS.content_of (p := join (snapDir c) id) a4.1 a4.2.1
  have hagain : addUpload c env' fs1 path id = (fs1, .ok n) := by
    simp only [addUpload, a1, hlow, Bool.false_eq_true, if_false, getSnapshotPath_of_isDir c _ id a4.2.2, a6, Bool.not_true, copyfile, a2, hw, if_neg a5, hc,
      set_eq _ _ _ a4.2.1, hsnap, h2, a3]
  refine ⟨hagain, ?_⟩
  simp only [onOpen, utf8Decode_encode, hagain, h]

/-- C194 fails: the snapshot that the first request made counts as used space; if there is no room for a second one, the request that is sent again is
refused, although the upload is open. -/
theorem c194_no_room (c : Cfg) (env env' : OpenEnv) (fs fs1 : FS) (path id : Text) (n : Nat) (h : addUpload c env fs path id = (fs1, .ok n))
    (used total : Nat) (hu : env'.usage = some (used, total)) (hs : env'.sizeFails = false) (hl : total < used + n + 50000000) :
    ∃ m, addUpload c env' fs1 path id = (fs1, .error (.low m)) := by
  obtain ⟨f, d, a1, a2, a3, -⟩ := addUpload_kept h
  exact c56_refused_partial c env' fs1 path id f used total d hu hs a1 a2 (by omega)

theorem getSnapshotPath_again (c : Cfg) (b : Bool) (fs : FS) (id : Text) :
    (∃ e, getSnapshotPath c b fs id = (fs, .error e)) ∨
    ∃ fs1, getSnapshotPath c b fs id = (fs1, .ok (join (snapDir c) id)) ∧ fs1.isDir c.cwd (snapDir c) = true := by
  cases h : getSnapshotPath c b fs id with
  | mk fs1 res =>
    cases res with
    | error e =>
      left
      refine ⟨e, ?_⟩
      simp only [getSnapshotPath] at h
      split at h
      · injection h with _ h; exact (nomatch h)
      · split at h
        · injection h with h1 h2; rw [h1]
        · split at h
          · injection h with _ h; exact (nomatch h)
          · injection h with h1 h2; rw [h1]
    | ok p =>
      right
      have := (getSnapshotPath_change c b fs id).2.1 p (by rw [h])
      subst this
      exact ⟨fs1, rfl, getSnapshotPath_isDir h⟩

/-- C194 for reading, in full: a request to read that is sent again gets the same answer, and changes nothing more. -/
theorem c194_read (r : PyVal → String) (c : Cfg) (env : ReadEnv) (fs : FS) (uploadId : Bytes) (offset size : Int) :
    onRead r c env (onRead r c env fs uploadId offset size).1 uploadId offset size = onRead r c env fs uploadId offset size := by
  simp only [onRead]
  cases utf8Decode uploadId with
  | none => rfl
  | some id =>
    have key : ∀ fs', (readUpload c env fs id offset size).1 = fs' →
        readUpload c env fs' id offset size = readUpload c env fs id offset size := by
      rintro fs' rfl
      rcases getSnapshotPath_again c env.mkdirFails fs id with ⟨e, h⟩ | ⟨fs1, h, hd⟩
      · have h1 : readUpload c env fs id offset size = (fs, .error e) := by simp only [readUpload, h]
        rw [h1]; exact h1
      · have h1 : ∀ g, getSnapshotPath c env.mkdirFails g id = (fs1, .ok (join (snapDir c) id)) →
            readUpload c env g id offset size = (fs1, (readUpload c env fs1 id offset size).2) := by
          intro g hg
          simp only [readUpload, hg, getSnapshotPath_of_isDir c _ id hd]
          split
          · rfl
          · split
            · rfl
            · split <;> rfl
        rw [h1 fs h]
        exact h1 fs1 (getSnapshotPath_of_isDir c _ id hd)
    rcases hr : readUpload c env fs id offset size with ⟨fs', res⟩
    have h2 := key fs' (by rw [hr])
    rw [hr] at h2
    cases res <;> simp only [hr, h2]

/-- C194 for closing, in full: a request to close that is sent again changes nothing more (there is no answer). -/
theorem c194_close (c : Cfg) (env : CloseEnv) (fs : FS) (uploadId : Bytes) : onClose c env (onClose c env fs uploadId) uploadId = onClose c env fs uploadId := by
  simp only [onClose]
  cases utf8Decode uploadId with
  | none => rfl
  | some id =>
    simp only
    rcases getSnapshotPath_again c env.mkdirFails fs id with ⟨e, h⟩ | ⟨fs1, h, hd⟩
    · have h1 : closeUpload c env fs id = fs := by simp only [closeUpload, h]
      rw [h1, h1]
    · have h1 : closeUpload c env fs id = closeUpload c env fs1 id := by
        simp only [closeUpload, h, getSnapshotPath_of_isDir c _ id hd]
      rw [h1]
      have h2 : ∀ g : FS, g.isDir c.cwd (snapDir c) = true → closeUpload c env g id =
          if g.pathExists c.cwd (join (snapDir c) id) then remove c.cwd env.removeFails g (join (snapDir c) id) else g := by
        intro g hg
        simp only [closeUpload, getSnapshotPath_of_isDir c _ id hg]
      rw [h2 fs1 hd]
      by_cases he : fs1.pathExists c.cwd (join (snapDir c) id) = true
      · rw [if_pos he]
        by_cases hsame : remove c.cwd env.removeFails fs1 (join (snapDir c) id) = fs1
        · rw [hsame, h2 fs1 hd, if_pos he, hsame]
        · have hrem : ∃ k d, fs1.place c.cwd (join (snapDir c) id) = some k ∧ fs1 k = some (.file d) ∧
              remove c.cwd env.removeFails fs1 (join (snapDir c) id) = fs1.set k none := by
            simp only [remove] at hsame ⊢
            split at hsame
            · exact absurd rfl hsame
            · rename_i hf
              rw [if_neg hf]
              split at hsame
              · rename_i k hk
                split at hsame
                · rename_i d hkd
                  exact ⟨k, d, hk, hkd, by simp only [hk, hkd]⟩
                · exact absurd rfl hsame
              · exact absurd rfl hsame
          obtain ⟨k, d, hk, hkd, hset⟩ := hrem
          rw [hset]
          have hdirs : ∀ x, fs1 x = some .dir → (fs1.set k none) x = some .dir := by
            intro x hx
            rw [FS.set_other]
            · exact hx
            · intro e; rw [e, hkd] at hx; exact (nomatch hx)
          rw [h2 _ (isDir_mono hdirs hd)]
          have hgone : ¬ (fs1.set k none).pathExists c.cwd (join (snapDir c) id) = true := by
            simp only [FS.pathExists, FS.stat, FS.place_mono hdirs hk, Option.bind_some, FS.set_same]
            decide
          rw [if_neg hgone]
      · rw [if_neg he, h2 fs1 hd, if_neg he]

/-- Opening without any trouble, on a disk of which so many bytes are used. -/
def openEnv (used : Nat) : OpenEnv := { usage := some (used, 50000005) }

/-- C194 fails: there is room for the first snapshot, but then no more. -/
theorem c194_counterexample :
    let once := addUpload exampleCfg (openEnv 0) exampleFS "a".toList "u".toList
    once.2 = .ok 5 ∧ (∃ m, (addUpload exampleCfg (openEnv 5) once.1 "a".toList "u".toList).2 = .error (.low m)) ∧
    (readUpload exampleCfg {} (addUpload exampleCfg (openEnv 5) once.1 "a".toList "u".toList).1 "u".toList 0 10).2 = .ok [1, 2, 3, 4, 5] := by
  refine ⟨by decide +kernel, ⟨_, rfl⟩, by decide +kernel⟩

/-- C194 fails: if the disk is full when the request comes again, the snapshot that was there is cut off, and what is read then ends early, without an
error. -/
theorem c194_cut :
    let once := addUpload exampleCfg { usage := none } exampleFS "a".toList "u".toList
    let again := addUpload exampleCfg { usage := none, copy := .fails (some 2) } once.1 "a".toList "u".toList
    once.2 = .ok 5 ∧ again.2 = .error (.add []) ∧ (readUpload exampleCfg {} once.1 "u".toList 0 5).2 = .ok [1, 2, 3, 4, 5] ∧
    (readUpload exampleCfg {} again.1 "u".toList 0 5).2 = .ok [1, 2] := by decide +kernel

/-- C194 fails: if the file was changed between the two requests, the snapshot is replaced. -/
theorem c194_changed :
    let once := addUpload exampleCfg { usage := none } exampleFS "a".toList "u".toList
    let changed := once.1.set (lexKey (join exampleCfg.root "a".toList)) (some (.file [7]))
    let again := addUpload exampleCfg { usage := none } changed "a".toList "u".toList
    once.2 = .ok 5 ∧ again.2 = .ok 1 ∧ (readUpload exampleCfg {} changed "u".toList 0 5).2 = .ok [1, 2, 3, 4, 5] ∧
    (readUpload exampleCfg {} again.1 "u".toList 0 5).2 = .ok [7] := by decide +kernel

end Verif.RemoteDirectory
