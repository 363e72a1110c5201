import Verif.Proofs.RemoteDirectory
/-!
Properties C52-C61: the remote directory.
-/
namespace Verif.RemoteDirectory
open Verif Path

/-- Settings in which the folders are absolute paths that do not go up. -/
structure Cfg.Sane (c : Cfg) : Prop where
  cwd : c.cwd.head? = some '/'
  root : c.root.head? = some '/'
  rootUp : ¬ GoesUp c.root
  temp : c.temp.head? = some '/'
  tempUp : ¬ GoesUp c.temp

/-- The agent's settings are of this kind: `abspath` gives such a path, whatever path it is given. -/
theorem Cfg.init_sane (cwd path temp sysTemp : Text) (repr : Text → Text) (h : cwd.head? = some '/') (ht : temp.head? = some '/')
    (hu : ¬ GoesUp temp) : (Cfg.init cwd path temp sysTemp repr).Sane :=
  have a := abspath_spec cwd path h
  ⟨h, a.2.2, a.2.1, ht, hu⟩

/-! ### C52 -/

theorem uploadFile_plain (c : Cfg) (path : Text) (h : path.head? ≠ some (Char.ofNat 0)) :
    uploadFile c path = if validatePath (join c.root (lstripSlash path)) && startsWith c.root (join c.root (lstripSlash path)) then
      .ok (join c.root (lstripSlash path)) else .error (.illegal ("Path ".toList ++ join c.root (lstripSlash path) ++ " is illegal".toList)) := by
  have hs : ¬ startsWith [Char.ofNat 0] path = true := by
    cases path with
    | nil => simp [startsWith]
    | cons x p => simp [startsWith] at h ⊢; exact fun e => h e.symm
  rw [uploadFile, if_neg hs]
  show (if (!validatePath (join c.root (lstripSlash path)) || !startsWith c.root (join c.root (lstripSlash path))) = true then _ else _) = _
  cases validatePath (join c.root (lstripSlash path)) <;> cases startsWith c.root (join c.root (lstripSlash path)) <;> rfl

theorem uploadFile_special (c : Cfg) (path : Text) (h : path.head? = some (Char.ofNat 0)) :
    uploadFile c path = if path = Char.ofNat 0 :: "scan.json".toList then
      .ok (join c.sysTemp "__dataplicity_remote_directory_scan___.json".toList)
      else .error (.illegal ("Unknown special path; ".toList ++ c.repr path)) := by
  have hs : startsWith [Char.ofNat 0] path = true := by
    cases path with
    | nil => simp at h
    | cons x p => simp [startsWith] at h ⊢; exact h.symm
  rw [uploadFile, if_pos hs]

theorem uploadFile_valid (c : Cfg) (hr : c.root.head? = some '/') (hu : ¬ GoesUp c.root) (path : Text) :
    (validatePath (join c.root (lstripSlash path)) && startsWith c.root (join c.root (lstripSlash path))) = true ↔ ¬ GoesUp path := by
  have hpre : startsWith c.root (join c.root (lstripSlash path)) = true :=
    (startsWith_iff _ _).2 (join_prefix _ _ (lstripSlash_head path))
  rw [hpre, Bool.and_true, validatePath_iff, GoesUp, split_join _ _ (ne_nil_of_head hr) (lstripSlash_head path)]
  have h1 : ['.', '.'] ∉ splitOn '/' c.root := hu
  simp only [h1, false_or, GoesUp, (lstripSlash_split path).2]

/-- C52: the file served for a request is inside the remote directory: below it, along exactly the names of the request; or it is the scan
result file and exactly its special name was requested. -/
theorem c52_inside (cwd rootPath temp sysTemp : Text) (repr : Text → Text) (h : cwd.head? = some '/') (path f : Text)
    (hf : uploadFile (Cfg.init cwd rootPath temp sysTemp repr) path = .ok f) :
    (path = Char.ofNat 0 :: "scan.json".toList ∧ f = join sysTemp "__dataplicity_remote_directory_scan___.json".toList) ∨
    (Inside (join cwd rootPath) f ∧ lexKey f = lexKey (join cwd rootPath) ++ names path ∧ ¬ GoesUp path) := by
  obtain ⟨a1, a2, a3⟩ := abspath_spec cwd rootPath h
  by_cases hn : path.head? = some (Char.ofNat 0)
  · rw [uploadFile_special _ _ hn] at hf
    split at hf
    · rename_i e
      injection hf with hf
      exact .inl ⟨e, hf.symm⟩
    · exact nomatch hf
  · rw [uploadFile_plain _ _ hn] at hf
    split at hf
    · rename_i hv
      rw [uploadFile_valid (Cfg.init cwd rootPath temp sysTemp repr) a3 a2] at hv
      injection hf with hf
      subst hf
      right
      have hup : ['.', '.'] ∉ splitOn '/' (lstripSlash path) := fun hm => hv ((lstripSlash_split path).2.1 hm)
      have hkey : lexKey (join (abspath cwd rootPath) (lstripSlash path)) = lexKey (join cwd rootPath) ++ names path := by
        rw [lexKey_join _ _ (ne_nil_of_head a3) (lstripSlash_head path), foldl_lexStep _ _ hup, (lstripSlash_split path).1, a1]
        rfl
      exact ⟨by rw [Inside]; exact hkey ▸ List.prefix_append _ _, hkey, hv⟩
    · exact nomatch hf

/-- C52: a request is refused exactly if it goes up, or starts with NUL and is not the special name. -/
theorem c52_refused_iff (cwd rootPath temp sysTemp : Text) (repr : Text → Text) (h : cwd.head? = some '/') (path : Text) :
    (∃ m, uploadFile (Cfg.init cwd rootPath temp sysTemp repr) path = .error (.illegal m)) ↔
      (if path.head? = some (Char.ofNat 0) then path ≠ Char.ofNat 0 :: "scan.json".toList else GoesUp path) := by
  obtain ⟨a1, a2, a3⟩ := abspath_spec cwd rootPath h
  by_cases hn : path.head? = some (Char.ofNat 0)
  · rw [if_pos hn, uploadFile_special _ _ hn]
    split
    · rename_i e; exact ⟨fun hm => (nomatch hm.choose_spec), fun hne => absurd e hne⟩
    · rename_i e; exact ⟨fun _ => e, fun _ => ⟨_, rfl⟩⟩
  · rw [if_neg hn, uploadFile_plain _ _ hn]
    have hv := uploadFile_valid (Cfg.init cwd rootPath temp sysTemp repr) a3 a2 path
    split
    · rename_i e; exact ⟨fun hm => (nomatch hm.choose_spec), fun hg => absurd hg (hv.1 e)⟩
    · rename_i e; exact ⟨fun _ => Classical.byContradiction fun hg => e (hv.2 hg), fun _ => ⟨_, rfl⟩⟩

/-- C52: a refused request changes nothing. -/
theorem c52_refused_nothing (c : Cfg) (env : OpenEnv) (fs : FS) (path id : Text) (e : Err) (h : uploadFile c path = .error e) :
    addUpload c env fs path id = (fs, .error e) := by
  simp [addUpload, h]

/-- Settings used in the examples. -/
def exampleCfg : Cfg := Cfg.init ['/'] "/home/dataplicity/x/../remote/".toList "/var/tmp".toList "/tmp".toList id

example : exampleCfg.root = "/home/dataplicity/remote".toList := by decide +kernel
example : uploadFile exampleCfg "//a/./b.txt".toList = .ok "/home/dataplicity/remote/a/./b.txt".toList := by decide +kernel
example : ∃ m, uploadFile exampleCfg "a/../../secret".toList = .error (.illegal m) := ⟨_, rfl⟩

/-! ### C53 -/

theorem snapKey_eq (c : Cfg) (hs : c.Sane) (id : Text) (hi : id.head? ≠ some '/') :
    snapKey c id = (splitOn '/' id).foldl lexStep (lexKey (snapDir c)) ∧ lexKey (join c.cwd (snapDir c)) = lexKey (snapDir c) ∧
      (snapDir c).head? = some '/' := by
  have h1 : (snapDir c).head? = some '/' := join_head _ _ hs.temp
  have h2 : (join (snapDir c) id).head? = some '/' := join_head _ _ h1
  refine ⟨?_, by rw [join_abs _ _ h1], h1⟩
  rw [snapKey, join_abs _ _ h2, lexKey_join _ _ (ne_nil_of_head h1) hi]

/-- C53, exact, for any id: opening, reading and closing change at most the snapshot folder itself, which is made if it is missing, and, unless
it is a read, the place that the id names, taken as a path relative to the snapshot folder; a read returns data of the file at that place. -/
theorem c53_touched (c : Cfg) (id : Text) (fs : FS) (k : List Text) :
    (∀ env path, (addUpload c env fs path id).1 k ≠ fs k → k = lexKey (join c.cwd (snapDir c)) ∨ k = snapKey c id) ∧
    (∀ env o s, (readUpload c env fs id o s).1 k ≠ fs k → k = lexKey (join c.cwd (snapDir c))) ∧
    (∀ env, closeUpload c env fs id k ≠ fs k → k = lexKey (join c.cwd (snapDir c)) ∨ k = snapKey c id) ∧
    (∀ env o s r, (readUpload c env fs id o s).2 = .ok r → ∃ d, fs (snapKey c id) = some (.file d) ∧ seekRead d o s = some r) := by
  have hdir : ∀ b k, (getSnapshotPath c b fs id).1 k ≠ fs k → k = lexKey (join c.cwd (snapDir c)) :=
    fun b => (getSnapshotPath_change c b fs id).2.2
  refine ⟨?_, ?_, ?_, ?_⟩
  · intro env path hk
    by_cases hK : k = snapKey c id
    · exact .inr hK
    · refine .inl (hdir env.mkdirFails k ?_)
      intro hsame
      apply hk
      simp only [addUpload]
      split
      · rfl
      · split
        · rfl
        · rename_i f _ _
          have g2 := (getSnapshotPath_change c env.mkdirFails fs id).2.1
          split
          · rename_i hq; rw [hq] at hsame; exact hsame
          · rename_i fs1 snap hq
            rw [hq] at hsame g2
            have hsn := g2 snap rfl
            subst hsn
            split
            · exact hsame
            · have hcp : (copyfile c env.copy fs1 f (join (snapDir c) id)).1 k = fs1 k := by
                simp only [copyfile]
                split
                · rename_i hw
                  obtain ⟨-, w2, -⟩ := FS.writable_some hw
                  have hkk : k ≠ _ := fun e => hK (e.trans w2)
                  split
                  · rfl
                  · split
                    · exact FS.set_other _ _ hkk
                    · rfl
                    · exact FS.set_other _ _ hkk
                · rfl
              split
              · rename_i hq2; rw [hq2] at hcp; exact hcp.trans hsame
              · rename_i hq2
                rw [hq2] at hcp
                split
                · split <;> exact hcp.trans hsame
                · exact hcp.trans hsame
  · intro env o s hk
    apply hdir env.mkdirFails
    intro hsame
    apply hk
    simp only [readUpload]
    split
    · rename_i hq; rw [hq] at hsame; exact hsame
    · rename_i hq
      rw [hq] at hsame
      split
      · exact hsame
      · split
        · exact hsame
        · split <;> exact hsame
  · intro env hk
    by_cases hK : k = snapKey c id
    · exact .inr hK
    · refine .inl (hdir env.mkdirFails k ?_)
      intro hsame
      apply hk
      have g2 := (getSnapshotPath_change c env.mkdirFails fs id).2.1
      simp only [closeUpload]
      rcases hq : getSnapshotPath c env.mkdirFails fs id with ⟨fs1, _ | snap⟩
      · rw [hq] at hsame; exact hsame
      · rw [hq] at hsame g2
        have hsn := g2 snap rfl
        subst hsn
        simp only
        by_cases hex : fs1.pathExists c.cwd (join (snapDir c) id) = true
        · rw [if_pos hex]
          have : remove c.cwd env.removeFails fs1 (join (snapDir c) id) k = fs1 k :=
            Classical.byContradiction fun hne => hK (remove_only _ _ _ _ _ hne)
          exact this.trans hsame
        · rw [if_neg hex]; exact hsame
  · intro env o s r hr
    have g := getSnapshotPath_change c env.mkdirFails fs id
    simp only [readUpload] at hr
    split at hr
    · simp at hr
    · rename_i fs1 snap hq
      rw [hq] at g
      obtain ⟨g1, g2, -⟩ := g
      have hsn := g2 snap rfl
      subst hsn
      split at hr
      · simp at hr
      · split at hr
        · simp at hr
        · rename_i d hd
          have hfile := (FS.content_some hd).2
          split at hr
          · simp at hr
          · rename_i r' hsr
            simp at hr
            subst hr
            refine ⟨d, ?_, hsr⟩
            have hfile' : fs1 (snapKey c id) = some (.file d) := hfile
            rcases g1 [] (snapKey c id) with h | h | h
            · exact h ▸ hfile'
            · have := h.2; simp only [hfile'] at this; simp at this
            · rcases g1 [[]] (snapKey c id) with h' | h' | h'
              · exact h' ▸ hfile'
              · have := h'.2; simp only [hfile'] at this; simp at this
              · exact absurd (h.1.symm.trans h'.1) (by simp)

/-- C53, for ids that are relative and do not go up: opening, reading and closing change only places inside the snapshot folder, and a
read returns data of a file inside it.  Missing for the full claim: see the counterexamples. -/
theorem c53_inside_partial (c : Cfg) (hs : c.Sane) (id : Text) (ht : Tame id) (fs : FS) (k : List Text) :
    (∀ env path, (addUpload c env fs path id).1 k ≠ fs k → lexKey (snapDir c) <+: k) ∧
    (∀ env o s, (readUpload c env fs id o s).1 k ≠ fs k → lexKey (snapDir c) <+: k) ∧
    (∀ env, closeUpload c env fs id k ≠ fs k → lexKey (snapDir c) <+: k) ∧
    (∀ env o s r, (readUpload c env fs id o s).2 = .ok r →
      ∃ k d, lexKey (snapDir c) <+: k ∧ fs k = some (.file d) ∧ seekRead d o s = some r) := by
  obtain ⟨e1, e2, e3⟩ := snapKey_eq c hs id ht.1
  have hin : lexKey (snapDir c) <+: snapKey c id := by
    rw [e1, foldl_lexStep _ _ ht.2]; exact List.prefix_append _ _
  have hdir : k = lexKey (join c.cwd (snapDir c)) → lexKey (snapDir c) <+: k := by
    intro hk
    rw [hk, e2]
    exact List.prefix_refl _
  obtain ⟨t1, t2, t3, t4⟩ := c53_touched c id fs k
  refine ⟨fun env path h => (t1 env path h).elim hdir (fun e => e ▸ hin), fun env o s h => hdir (t2 env o s h),
    fun env h => (t3 env h).elim hdir (fun e => e ▸ hin), fun env o s r h => ?_⟩
  obtain ⟨d, h1, h2⟩ := t4 env o s r h
  exact ⟨_, d, hin, h1, h2⟩

/-- C53: and for any id the file at that place, wherever it lies, is read, and removed by a close. -/
theorem c53_anywhere (c : Cfg) (id : Text) (fs : FS) (d : Bytes) (hd : fs.isDir c.cwd (snapDir c) = true)
    (hf : fs.content c.cwd (join (snapDir c) id) = some d) (hm : d.length ≤ maxSize) :
    fs (snapKey c id) = some (.file d) ∧ (readUpload c {} fs id 0 d.length).2 = .ok d ∧ closeUpload c {} fs id (snapKey c id) = none := by
  obtain ⟨h1, h2⟩ := FS.content_some hf
  have hp : fs.place c.cwd (join (snapDir c) id) = some (snapKey c id) := h1
  have hexists : FS.pathExists fs c.cwd (join (snapDir c) id) = true := by simp [FS.pathExists, FS.stat, hp, h2, snapKey]
  refine ⟨h2, ?_, ?_⟩
  · rw [stored_read ⟨hp, h2, hd⟩ {} 0 d.length rfl]
    have hsr : seekRead d 0 d.length = some d := by
      simp only [seekRead]
      rw [if_neg (by omega)]
      simp
    rw [hsr]
  · simp only [closeUpload, getSnapshotPath_of_isDir c _ id hd, hexists, if_true, remove, Bool.false_eq_true, if_false, hp, show fs (snapKey c id) = _ from h2]
    exact FS.set_same _ _ _

/-- The files of an example. -/
def exampleFS : FS := fun k =>
  if k = [] ∨ k = ["var".toList] ∨ k = ["var".toList, "tmp".toList] ∨ k = ["home".toList] ∨ k = ["home".toList, "dataplicity".toList] ∨
    k = ["home".toList, "dataplicity".toList, "remote".toList] ∨ k = ["etc".toList] then some .dir
  else if k = ["etc".toList, "passwd".toList] then some (.file [114, 111, 111, 116])
  else if k = ["home".toList, "dataplicity".toList, "remote".toList, "a".toList] then some (.file [1, 2, 3, 4, 5])
  else if k = ["home".toList, "dataplicity".toList, "remote".toList, "b".toList] then some (.file [9, 8, 7])
  else none

/-- C53 fails: a read with an absolute id returns the contents of any file. -/
theorem c53_counterexample_read :
    (readUpload exampleCfg {} exampleFS "/etc/passwd".toList 0 100).2 = .ok [114, 111, 111, 116] := by decide +kernel

/-- C53 fails: closing an absolute id removes any file. -/
theorem c53_counterexample_close :
    exampleFS ["etc".toList, "passwd".toList] = some (.file [114, 111, 111, 116]) ∧
    closeUpload exampleCfg {} exampleFS "/etc/passwd".toList ["etc".toList, "passwd".toList] = none := by decide +kernel

/-- C53 fails: opening with an id that goes up overwrites files outside the snapshot folder, if the path of the snapshot starts with the
path of the temporary folder. -/
theorem c53_counterexample_open :
    (addUpload exampleCfg ⟨none, false, false, .good, false, [], 4096⟩ exampleFS "a".toList "../../../etc/passwd".toList).1
      ["etc".toList, "passwd".toList] = some (.file [1, 2, 3, 4, 5]) := by decide +kernel

/-! ### C54 -/

theorem plain_tame {id : Text} (h : Plain id) : Tame id ∧ splitOn '/' id = [id] := by
  obtain ⟨h1, h2, h3, h4⟩ := h
  have hsp := splitOn_plain '/' id h4
  refine ⟨⟨?_, ?_⟩, hsp⟩
  · intro e
    cases id with
    | nil => simp at e
    | cons x r => simp at e; subst e; simp at h4
  · rw [GoesUp, hsp]; simp; exact fun e => h3 e.symm

theorem plain_snapKey (c : Cfg) (hs : c.Sane) {id : Text} (h : Plain id) : snapKey c id = lexKey (snapDir c) ++ [id] := by
  obtain ⟨ht, hsp⟩ := plain_tame h
  obtain ⟨e1, -, -⟩ := snapKey_eq c hs id ht.1
  rw [e1, hsp]
  simp [lexStep, h.1, h.2.1, h.2.2.1]

/-- Different plain ids have different snapshots. -/
theorem c54_plain_ids (c : Cfg) (hs : c.Sane) {id id' : Text} (h : Plain id) (h' : Plain id') (hne : id ≠ id') :
    snapKey c id ≠ snapKey c id' := by
  rw [plain_snapKey c hs h, plain_snapKey c hs h']
  intro e
  exact hne (by simpa using e)

/-- C54: exactly which relative ids that do not go up have the same snapshot: those that are equal up to empty parts and dots. -/
theorem c54_same_iff (c : Cfg) (hs : c.Sane) {id id' : Text} (h : Tame id) (h' : Tame id') :
    snapKey c id = snapKey c id' ↔
      (splitOn '/' id).filter (fun p => p ≠ [] ∧ p ≠ ['.']) = (splitOn '/' id').filter (fun p => p ≠ [] ∧ p ≠ ['.']) := by
  have e : ∀ {x : Text}, Tame x → (splitOn '/' x).filter isName = (splitOn '/' x).filter (fun p => p ≠ [] ∧ p ≠ ['.']) := by
    intro x hx
    refine List.filter_congr fun p hp => ?_
    have : p ≠ ['.', '.'] := fun e => hx.2 (by rw [e] at hp; exact hp)
    simp [isName, this]
  rw [(snapKey_eq c hs id h.1).1, (snapKey_eq c hs id' h'.1).1, foldl_lexStep _ _ h.2, foldl_lexStep _ _ h'.2, List.append_cancel_left_eq, e h, e h']

/-- Two names of one snapshot and two names of different ones. -/
example : snapKey exampleCfg "x/y".toList = snapKey exampleCfg "./x//y/".toList ∧ snapKey exampleCfg "x/y".toList ≠ snapKey exampleCfg "xy".toList := by
  decide +kernel

theorem snap_ups (c : Cfg) (hs : c.Sane) {id : Text} (ht : Tame id) :
    ¬ GoesUp (join c.cwd (join (snapDir c) id)) ∧ ¬ GoesUp (join c.cwd (snapDir c)) ∧
      lexKey (join c.cwd (snapDir c)) <+: snapKey c id := by
  obtain ⟨e1, e2, e3⟩ := snapKey_eq c hs id ht.1
  have hd : ¬ GoesUp (snapDir c) := by
    rw [GoesUp, snapDir, split_join _ _ (ne_nil_of_head hs.temp) (by decide)]
    intro h
    rcases h with h | h
    · exact hs.tempUp h
    · revert h; decide +kernel
  have hj : ¬ GoesUp (join (snapDir c) id) := by
    rw [GoesUp, split_join _ _ (ne_nil_of_head e3) ht.1]
    rintro (h | h)
    · exact hd h
    · exact ht.2 h
  refine ⟨by rw [join_abs _ _ (join_head _ _ e3)]; exact hj, by rw [join_abs _ _ e3]; exact hd, ?_⟩
  rw [e2, e1, foldl_lexStep _ _ ht.2]
  exact List.prefix_append _ _

/-- C54, for an upload with a relative id that does not go up: after it was opened, whatever happens (other requests, changes of files), as long as this
snapshot is not opened again or closed and no other program interferes with the snapshot folder, reads return the contents that the file
had at the time of opening; and the size reported was the length of these contents.  Missing for the full claim: two different ids may
name the same snapshot, see `c54_counterexample`. -/
theorem c54_isolated_partial (c : Cfg) (hs : c.Sane) (id : Text) (hp : Tame id) (env : OpenEnv) (fs fs1 : FS) (path : Text) (n : Nat)
    (ho : addUpload c env fs path id = (fs1, .ok n)) :
    ∃ f d, uploadFile c path = .ok f ∧ fs (lexKey (join c.cwd f)) = some (.file d) ∧ n = d.length ∧
      ∀ ops, (∀ op ∈ ops, op.leaves c (snapKey c id)) → ∀ renv : ReadEnv, renv.readFails = false → ∀ o s,
        (readUpload c renv (run c fs1 ops) id o s).2 = match seekRead d o s with
          | some r => .ok r
          | none => .error (.read ("unable to read ".toList ++ c.repr id)) := by
  obtain ⟨f, d, h1, h2, h3, h4, -, -⟩ := addUpload_ok ho
  obtain ⟨u1, u2⟩ := snap_ups c hs hp
  refine ⟨f, d, h1, h2, h3, ?_⟩
  intro ops hl renv hr o s
  rw [stored_read (stored_run u1 u2 h4 ops hl) renv o s hr]
  rfl

/-- Nothing that leaves a snapshot alone makes it appear. -/
theorem notFile_step (c : Cfg) (K : List Text) (fs : FS) (h : ∀ d, fs K ≠ some (.file d)) (op : Op) (hl : op.leaves c K) :
    ∀ d, step c fs op K ≠ some (.file d) := by
  have key : ∀ (fs' : FS) (K' : List Text), Change K' fs fs' → K' ≠ K → ∀ d, fs' K ≠ some (.file d) := by
    intro fs' K' hc hne d
    rcases hc K with h' | h' | h'
    · rw [h']; exact h d
    · rw [h'.2]; simp
    · exact absurd h'.1.symm hne
  cases op with
  | opn env path id => exact key _ _ (addUpload_change c env fs path id) hl
  | rd env id o s =>
    by_cases hz : ([] : List Text) = K
    · exact key _ [[]] (readUpload_change c env fs id o s _) (by rw [← hz]; simp)
    · exact key _ [] (readUpload_change c env fs id o s _) hz
  | cls env id => exact key _ _ (closeUpload_change c env fs id) hl
  | change k n =>
    intro d
    show fs.set k n K ≠ _
    rw [FS.set_other]
    · exact h d
    · intro e; exact hl (by rw [e]; exact List.prefix_refl _)

theorem read_notFile (c : Cfg) (fs : FS) (id : Text) (h : ∀ d, fs (snapKey c id) ≠ some (.file d)) (env : ReadEnv) (o s : Int) (r : Bytes) :
    (readUpload c env fs id o s).2 ≠ .ok r := by
  intro hr
  have g := getSnapshotPath_change c env.mkdirFails fs id
  simp only [readUpload] at hr
  split at hr
  · simp at hr
  · rename_i fs1 snap hq
    rw [hq] at g
    obtain ⟨g1, g2, -⟩ := g
    have hsn := g2 snap rfl
    subst hsn
    split at hr
    · simp at hr
    · split at hr
      · simp at hr
      · rename_i d hd
        have hfile : fs1 (snapKey c id) = some (.file d) := (FS.content_some hd).2
        by_cases hz : ([] : List Text) = snapKey c id
        · rcases g1 [[]] (snapKey c id) with h' | h' | h'
          · exact h d (h' ▸ hfile)
          · have := h'.2; simp only [hfile] at this; simp at this
          · rw [← hz] at h'; simp at h'
        · rcases g1 [] (snapKey c id) with h' | h' | h'
          · exact h d (h' ▸ hfile)
          · have := h'.2; simp only [hfile] at this; simp at this
          · exact absurd h'.1.symm hz

/-- C54: after an upload was closed reads fail, until it is opened again. -/
theorem c54_closed (c : Cfg) (hs : c.Sane) (id : Text) (hp : Tame id) (env : OpenEnv) (fs fs1 : FS) (path : Text) (n : Nat)
    (ho : addUpload c env fs path id = (fs1, .ok n)) (ops ops' : List Op) (hl : ∀ op ∈ ops, op.leaves c (snapKey c id))
    (hl' : ∀ op ∈ ops', op.leaves c (snapKey c id)) (cenv : CloseEnv) (hc : cenv.removeFails = false) (renv : ReadEnv) (o s : Int)
    (r : Bytes) : (readUpload c renv (run c (closeUpload c cenv (run c fs1 ops) id) ops') id o s).2 ≠ .ok r := by
  obtain ⟨f, d, -, -, -, h4, -, -⟩ := addUpload_ok ho
  obtain ⟨u1, u2⟩ := snap_ups c hs hp
  have hst := stored_run u1 u2 h4 ops hl
  apply read_notFile
  have hclose : closeUpload c cenv (run c fs1 ops) id (snapKey c id) = none := by
    have hplace : FS.place (run c fs1 ops) c.cwd (join (snapDir c) id) = some (snapKey c id) := hst.1
    have hexists : FS.pathExists (run c fs1 ops) c.cwd (join (snapDir c) id) = true := by
      simp [FS.pathExists, FS.stat, hplace, hst.2.1]
    simp only [closeUpload, getSnapshotPath_of_isDir c _ id hst.2.2, hexists, if_true, remove, hc, Bool.false_eq_true, if_false, hplace,
      hst.2.1]
    exact FS.set_same _ _ _
  have hstart : ∀ d, closeUpload c cenv (run c fs1 ops) id (snapKey c id) ≠ some (.file d) := by rw [hclose]; simp
  generalize closeUpload c cenv (run c fs1 ops) id = g at hstart
  clear hclose
  induction ops' generalizing g with
  | nil => exact hstart
  | cons op ops' ih =>
    exact ih (fun x hx => hl' x (by simp [hx])) _ (notFile_step c _ g hstart op (hl' op (by simp)))

/-- C54: closing an upload that is not open is harmless: at most the snapshot folder is made. -/
theorem c54_close_twice (c : Cfg) (env : CloseEnv) (fs : FS) (id : Text) (h : ∀ d, fs (snapKey c id) ≠ some (.file d)) (k : List Text) :
    closeUpload c env fs id k = fs k ∨ (k = lexKey (join c.cwd (snapDir c)) ∧ fs k = none ∧ closeUpload c env fs id k = some .dir) := by
  obtain ⟨g1, g2, g3⟩ := getSnapshotPath_change c env.mkdirFails fs id
  have hgen : ∀ fs1 : FS, (∀ K, Change K fs fs1) → (∀ k, fs1 k ≠ fs k → k = lexKey (join c.cwd (snapDir c))) → ∀ k,
      fs1 k = fs k ∨ (k = lexKey (join c.cwd (snapDir c)) ∧ fs k = none ∧ fs1 k = some .dir) := by
    intro fs1 h1 h3 k
    by_cases e : fs1 k = fs k
    · exact .inl e
    · by_cases hz : ([] : List Text) = k
      · rcases h1 [[]] k with h' | h' | h'
        · exact .inl h'
        · exact .inr ⟨h3 k e, h'⟩
        · rw [← hz] at h'; simp at h'
      · rcases h1 [] k with h' | h' | h'
        · exact .inl h'
        · exact .inr ⟨h3 k e, h'⟩
        · exact absurd h'.1.symm hz
  simp only [closeUpload]
  rcases hq : getSnapshotPath c env.mkdirFails fs id with ⟨fs1, _ | snap⟩
  · rw [hq] at g1 g3; exact hgen _ g1 g3 k
  · rw [hq] at g1 g2 g3
    have hsn := g2 snap rfl
    subst hsn
    have hnf : ∀ d, fs1 (snapKey c id) ≠ some (.file d) := by
      intro d hd
      rcases hgen fs1 g1 g3 (snapKey c id) with h' | h'
      · exact h d (by rw [← h', hd])
      · rw [h'.2.2] at hd; simp at hd
    have hrem : remove c.cwd env.removeFails fs1 (join (snapDir c) id) = fs1 := by
      simp only [remove]
      split
      · rfl
      · split
        · rename_i k' hp
          have e := FS.place_lex hp
          subst e
          split
          · rename_i d hd; exact absurd hd (hnf d)
          · rfl
        · rfl
    simp only [hrem, ite_self]
    exact hgen _ g1 g3 k

/-- C54 fails for ids that are not plain: the ids `a` and `./a` name the same snapshot, so the second upload replaces the first. -/
theorem c54_counterexample :
    let opened : OpenEnv := ⟨none, false, false, .good, false, [], 4096⟩
    let fs1 := (addUpload exampleCfg opened exampleFS "a".toList "a".toList).1
    let fs2 := (addUpload exampleCfg opened fs1 "b".toList "./a".toList).1
    (readUpload exampleCfg {} fs1 "a".toList 0 10).2 = .ok [1, 2, 3, 4, 5] ∧
    (readUpload exampleCfg {} fs2 "a".toList 0 10).2 = .ok [9, 8, 7] := by decide +kernel

/-- Two uploads, a change of the file, and reads of both. -/
example :
    let opened : OpenEnv := ⟨some (0, 100000000), false, false, .good, false, [], 4096⟩
    let ops : List Op := [.opn opened "a".toList "1".toList, .opn opened "b".toList "2".toList,
      .change ["home".toList, "dataplicity".toList, "remote".toList, "a".toList] (some (.file []))]
    let fs := run exampleCfg exampleFS ops
    (readUpload exampleCfg {} fs "1".toList 1 3).2 = .ok [2, 3, 4] ∧ (readUpload exampleCfg {} fs "2".toList 1 (-1)).2 = .ok [8, 7] ∧
    (readUpload exampleCfg {} (closeUpload exampleCfg {} fs "1".toList) "1".toList 1 3).2 =
      .error (.read "unable to read 1".toList) := by decide +kernel

/-! ### C55 -/

/-- C55: a read at offset `o` of size `n` gives bytes `o` to `o + n`, fewer at the end. -/
theorem c55_slice (d : Bytes) (o n : Nat) (ho : o ≤ maxSize) (hn : n ≤ maxSize) :
    ∃ r, seekRead d o n = some r ∧ (∀ i, i < n → r[i]? = d[o + i]?) ∧ r.length = min n (d.length - o) := by
  refine ⟨(d.drop o).take n, ?_, ?_, by simp⟩
  · have h1 : ¬ ((o : Int) < 0 ∨ (o : Int) > maxSize ∨ (n : Int) < -1 ∨ (n : Int) > maxSize) := by omega
    have h2 : ¬ (n : Int) = -1 := by omega
    simp only [seekRead, h1, if_false, h2, Int.toNat_natCast]
  · intro i hi
    rw [List.getElem?_take_of_lt hi, List.getElem?_drop]

theorem readPieces_eq (d : Bytes) (size : Nat) (hs : 0 < size) (read : Nat → Bytes) (hr : ∀ o, o ≤ d.length + size → read o = (d.drop o).take size)
    (fuel o : Nat) (hf : d.length < fuel + o) (ho : o ≤ d.length + size) : readPieces read size fuel o = d.drop o := by
  induction fuel generalizing o with
  | zero => simp only [readPieces]; rw [List.drop_eq_nil_of_le (by omega)]
  | succ fuel ih =>
    simp only [readPieces, hr o ho]
    by_cases he : d.length ≤ o
    · rw [List.drop_eq_nil_of_le he]; simp
    · have hne : (d.drop o).take size ≠ [] := by
        intro e
        have := congrArg List.length e
        simp at this
        omega
      simp only [hne, if_false]
      rw [ih (o + size) (by omega) (by omega), ← List.drop_drop, List.take_append_drop]

/-- C55: reading an open upload in consecutive pieces of any positive size until nothing comes back gives the whole snapshot, and its
length is the size that was reported. -/
theorem c55_reassemble (c : Cfg) (env : OpenEnv) (fs fs1 : FS) (path id : Text) (n : Nat)
    (ho : addUpload c env fs path id = (fs1, .ok n)) (size : Nat) (hs : 0 < size) (hb : n + size ≤ maxSize) :
    ∃ d, fs1 (snapKey c id) = some (.file d) ∧ d.length = n ∧
      readPieces (fun o => match (readUpload c {} fs1 id o size).2 with | .ok r => r | .error _ => []) size (n + 1) 0 = d := by
  obtain ⟨f, d, -, -, h3, h4, -, -⟩ := addUpload_ok ho
  refine ⟨d, h4.2.1, h3.symm, ?_⟩
  subst h3
  rw [readPieces_eq d size hs _ _ _ _ (by omega) (by omega)]
  · rfl
  · intro o hle
    have h1 : ¬ ((o : Int) < 0 ∨ (o : Int) > maxSize ∨ (size : Int) < -1 ∨ (size : Int) > maxSize) := by omega
    have h2 : ¬ (size : Int) = -1 := by omega
    simp only [stored_read h4 {} o size rfl, seekRead, h1, if_false, h2, Int.toNat_natCast]

example : readPieces (fun o => ((([1, 2, 3, 4, 5] : Bytes).drop o).take 2)) 2 6 0 = [1, 2, 3, 4, 5] := by decide

/-! ### C56 -/

/-- C56 if disk usage and file size are known: a snapshot is only made if 50,000,000 bytes stay free. -/
theorem c56_margin_partial (c : Cfg) (env : OpenEnv) (fs fs1 : FS) (path id f : Text) (n used total : Nat) (d : Bytes)
    (hu : env.usage = some (used, total)) (hk : env.sizeFails = false) (hf : uploadFile c path = .ok f)
    (hd : fs.content c.cwd f = some d) (ho : addUpload c env fs path id = (fs1, .ok n)) : used + n + 50000000 ≤ total := by
  obtain ⟨f', d', h1, h2, h3, -, hlow, -⟩ := addUpload_ok ho
  rw [hf] at h1
  simp at h1
  subst h1
  have := (FS.content_some hd).2
  rw [this] at h2
  simp at h2
  subst h2
  simp only [lowSpace, hu, hk, FS.content_stat hd, Bool.false_eq_true, if_false, margin] at hlow
  have := of_decide_eq_false hlow
  omega

/-- C56, under the same condition: otherwise the request fails and nothing is changed. -/
theorem c56_refused_partial (c : Cfg) (env : OpenEnv) (fs : FS) (path id f : Text) (used total : Nat) (d : Bytes)
    (hu : env.usage = some (used, total)) (hk : env.sizeFails = false) (hf : uploadFile c path = .ok f)
    (hd : fs.content c.cwd f = some d) (hl : total < used + d.length + 50000000) :
    ∃ m, addUpload c env fs path id = (fs, .error (.low m)) := by
  have : lowSpace c env fs f = true := by
    simp only [lowSpace, hu, hk, FS.content_stat hd, Bool.false_eq_true, if_false, margin]
    apply decide_eq_true
    omega
  exact ⟨_, by simp [addUpload, hf, this]; rfl⟩

/-- C56: and a request is only refused for this reason if too little would stay free. -/
theorem c56_only (c : Cfg) (env : OpenEnv) (fs : FS) (path id f : Text) (used total : Nat) (d : Bytes)
    (hu : env.usage = some (used, total)) (hf : uploadFile c path = .ok f)
    (hd : fs.content c.cwd f = some d) (m : Text) (h : (addUpload c env fs path id).2 = .error (.low m)) :
    total < used + d.length + 50000000 := by
  have hlow : lowSpace c env fs f = true := by
    cases hl : lowSpace c env fs f with
    | true => rfl
    | false =>
      exfalso
      simp only [addUpload, hf, hl, Bool.false_eq_true, if_false] at h
      split at h
      · rename_i e hq
        simp only [getSnapshotPath] at hq
        split at hq
        · simp at hq
        · split at hq
          · injection hq with _ e1; injection e1 with e1; rw [← e1] at h; exact nomatch h
          · split at hq
            · simp at hq
            · injection hq with _ e1; injection e1 with e1; rw [← e1] at h; exact nomatch h
      · split at h
        · exact nomatch h
        · split at h
          · exact nomatch h
          · split at h
            · split at h <;> exact nomatch h
            · exact nomatch h
  simp only [lowSpace, hu, FS.content_stat hd, margin] at hlow
  split at hlow
  · exact nomatch hlow
  · have := of_decide_eq_true hlow
    omega

/-- C56, exactly when a request for a file is refused for lack of space: the usage and the size of the file can be determined, and too
little would stay free. -/
theorem c56_iff (c : Cfg) (env : OpenEnv) (fs : FS) (path id f : Text) (d : Bytes) (hf : uploadFile c path = .ok f)
    (hd : fs.content c.cwd f = some d) :
    (∃ m, (addUpload c env fs path id).2 = .error (.low m)) ↔
      env.sizeFails = false ∧ ∃ used total, env.usage = some (used, total) ∧ total < used + d.length + 50000000 := by
  have key : (∃ m, (addUpload c env fs path id).2 = .error (.low m)) → lowSpace c env fs f = true := by
    rintro ⟨m, h⟩
    cases hl : lowSpace c env fs f with
    | true => rfl
    | false =>
      exfalso
      simp only [addUpload, hf, hl, Bool.false_eq_true, if_false] at h
      split at h
      · rename_i e hq
        simp only [getSnapshotPath] at hq
        split at hq
        · simp at hq
        · split at hq
          · injection hq with _ e1; injection e1 with e1; rw [← e1] at h; exact nomatch h
          · split at hq
            · simp at hq
            · injection hq with _ e1; injection e1 with e1; rw [← e1] at h; exact nomatch h
      · split at h
        · exact nomatch h
        · split at h
          · exact nomatch h
          · split at h
            · split at h <;> exact nomatch h
            · exact nomatch h
  constructor
  · intro h
    have hlow := key h
    cases hu : env.usage with
    | none => simp only [lowSpace, hu, Bool.false_eq_true] at hlow
    | some v =>
      obtain ⟨used, total⟩ := v
      cases hs : env.sizeFails with
      | true => simp only [lowSpace, hu, hs, if_true, Bool.false_eq_true] at hlow
      | false =>
        obtain ⟨m, hm⟩ := h
        exact ⟨rfl, used, total, rfl, c56_only c env fs path id f used total d hu hf hd m hm⟩
  · rintro ⟨hs, used, total, hu, hl⟩
    obtain ⟨m, hm⟩ := c56_refused_partial c env fs path id f used total d hu hs hf hd hl
    exact ⟨m, by rw [hm]⟩

/-- C56 fails: if the size of the file can not be determined there is no check, although the disk usage is known; here the copy leaves
no byte free. -/
theorem c56_unknown_size_false :
    (addUpload exampleCfg ⟨some (7, 12), true, false, .good, false, [], 4096⟩ exampleFS "a".toList "1".toList).2 = .ok 5 := by
  decide +kernel

/-- One byte too few, and just enough. -/
example : (addUpload exampleCfg ⟨some (7, 50000011), false, false, .good, false, [], 4096⟩ exampleFS "a".toList "1".toList).2 =
    .error (.low "not enough space on /var/tmp to create snapshot".toList) := by decide +kernel
example : (addUpload exampleCfg ⟨some (7, 50000012), false, false, .good, false, [], 4096⟩ exampleFS "a".toList "1".toList).2 = .ok 5 := by
  decide +kernel

/-! ### C57 -/

/-- C57: each open request is answered by exactly one message with its id: the size and code 0, or size -1, code 1 and a reason. -/
theorem c57_open (r : PyVal → String) (c : Cfg) (env : OpenEnv) (fs : FS) (uploadId path : Bytes) :
    (∃ n : Nat, (onOpen r c env fs uploadId path).2 = [.ok ⟨openResult, [.bytes uploadId, .int n, .int 0, .bytes []]⟩]) ∨
    ∃ reason, (onOpen r c env fs uploadId path).2 = [.ok ⟨openResult, [.bytes uploadId, .int (-1), .int 1, .bytes reason]⟩] := by
  simp only [onOpen]
  split
  · split
    · exact .inr ⟨_, by rw [create25_kw]⟩
    · rename_i n _
      exact .inl ⟨n, by rw [create25_pos]; rfl⟩
  · exact .inr ⟨_, by rw [create25_kw]⟩

/-- C57: each read request is answered by exactly one message with its id, offset and size: data and code 0, or code 1 and a reason. -/
theorem c57_read (r : PyVal → String) (c : Cfg) (env : ReadEnv) (fs : FS) (uploadId : Bytes) (offset size : Int) :
    (∃ d, (onRead r c env fs uploadId offset size).2 =
      [.ok ⟨readResult, [.bytes uploadId, .int offset, .int size, .bytes d, .int 0, .bytes []]⟩]) ∨
    ∃ reason, (onRead r c env fs uploadId offset size).2 =
      [.ok ⟨readResult, [.bytes uploadId, .int offset, .int size, .bytes [], .int 1, .bytes reason]⟩] := by
  simp only [onRead]
  split
  · split
    · exact .inr ⟨_, by rw [create28 _ _ _ _ _ _ _ (.inr ⟨_, rfl⟩)]; rfl⟩
    · exact .inl ⟨_, by rw [create28 _ _ _ _ _ _ _ (.inl ⟨_, rfl⟩)]; rfl⟩
  · exact .inr ⟨_, by rw [create28 _ _ _ _ _ _ _ (.inr ⟨_, rfl⟩)]; rfl⟩

/-- C57: the answer to a read request carries the data that was read exactly if the read succeeded. -/
theorem c57_read_data (r : PyVal → String) (c : Cfg) (env : ReadEnv) (fs : FS) (idText : Text) (offset size : Int) (d : Bytes)
    (h : (readUpload c env fs idText offset size).2 = .ok d) :
    (onRead r c env fs (utf8Encode idText) offset size).2 =
      [.ok ⟨readResult, [.bytes (utf8Encode idText), .int offset, .int size, .bytes d, .int 0, .bytes []]⟩] := by
  simp only [onRead, utf8Decode_encode]
  rcases hq : readUpload c env fs idText offset size with ⟨fs', res⟩
  rw [hq] at h
  simp only at h
  subst h
  simp only
  rw [create28 _ _ _ _ _ _ _ (.inl ⟨_, rfl⟩)]
  rfl

/-- C57, write requests, if the device path is valid UTF-8: exactly one message, with the id, the length of the data and a code.
Missing for the full claim: see `c57_counterexample`. -/
theorem c57_write_partial (r : PyVal → String) (c : Cfg) (env : WriteEnv) (fs : FS) (id path devicePath : Bytes) (offset : Int) (data : Bytes)
    (final : Int) (hd : utf8Decode devicePath ≠ none) :
    ∃ position device code reason, (onWrite r c env fs id path devicePath offset data final).2 =
      some [.ok ⟨writeResult, [.bytes id, .int position, .int data.length, .bytes device, .int code, .bytes reason]⟩] ∧
      (code = 0 ∧ position = offset + data.length ∨ (code = 1 ∨ code = 2 ∨ code = 3) ∧ position = offset) := by
  simp only [onWrite]
  split
  · rename_i h; exact absurd h hd
  · split
    · exact ⟨_, _, _, _, by rw [create32], .inr ⟨.inl rfl, rfl⟩⟩
    · split
      · exact ⟨_, _, _, _, by rw [create32], .inr ⟨.inr (.inl rfl), rfl⟩⟩
      · split
        · exact ⟨_, _, _, _, by rw [create32], .inr ⟨.inr (.inr rfl), rfl⟩⟩
        · exact ⟨_, _, _, _, by rw [create32], .inl ⟨rfl, rfl⟩⟩

/-- C57, exactly when a write request gets no answer: its device path is not UTF-8. -/
theorem c57_unanswered_iff (r : PyVal → String) (c : Cfg) (env : WriteEnv) (fs : FS) (id path devicePath : Bytes) (offset : Int) (data : Bytes)
    (final : Int) : (onWrite r c env fs id path devicePath offset data final).2 = none ↔ utf8Decode devicePath = none := by
  constructor
  · intro h
    apply Classical.byContradiction
    intro hd
    obtain ⟨_, _, _, _, he, _⟩ := c57_write_partial r c env fs id path devicePath offset data final hd
    rw [he] at h
    exact nomatch h
  · intro h
    simp only [onWrite, h]

/-- C57 fails for a write request with a device path that is not valid UTF-8: no message is sent, whatever the rest. -/
theorem c57_counterexample (r : PyVal → String) (c : Cfg) (env : WriteEnv) (fs : FS) (id path : Bytes) (offset : Int) (data : Bytes)
    (final : Int) : (onWrite r c env fs id path [255] offset data final).2 = none := rfl

/-! ### C58 -/

theorem digit_char : ∀ n, n < 10 → [UInt8.ofNat (48 + n)].map (fun b => Char.ofNat b.toNat) = [Nat.digitChar n] := by
  intro n hn
  match n, hn with
  | 0, _ | 1, _ | 2, _ | 3, _ | 4, _ | 5, _ | 6, _ | 7, _ | 8, _ | 9, _ => rfl

theorem numText_decimal (n : Nat) : numText n = decimal n := by
  induction n using decNat_induct with
  | h1 n hn =>
    rw [numText, decNat_eq, if_pos hn, decimal, if_pos hn]
    exact digit_char n hn
  | h2 n hn ih =>
    rw [numText, decNat_eq, if_neg hn, decimal, if_neg hn, List.map_append, ← ih, numText]
    rw [← digit_char (n % 10) (Nat.mod_lt _ (by omega))]

/-- The candidates of the specification are those tried by the agent. -/
theorem candidate_succ (c : Cfg) (fs : FS) (path : Text) (n : Nat) :
    candidate c fs path (n + 1) = copyName
      (if fs.isDir c.cwd (Path.split (join c.root (lstripSlash path))).1 then (Path.split (join c.root (lstripSlash path))).1 else c.root)
      (splitext (Path.split (join c.root (lstripSlash path))).2).1 (n + 1) (splitext (Path.split (join c.root (lstripSlash path))).2).2 := by
  simp [candidate, copyName, numText_decimal]

/-- The requests for the chunks of a download, one after the other: the first without device path, the others with the one that was
given in the replies; the last one is final. -/
def sendAll (r : PyVal → String) (c : Cfg) (id path device : Bytes) : Bytes → FS → List Chunk → FS × List (Option (List Sent))
  | _, fs, [] => (fs, [])
  | dev, fs, ch :: rest =>
    let a := onWrite r c {} fs id path dev ch.offset ch.data (if rest = [] then 1 else 0)
    let b := sendAll r c id path device device a.1 rest
    (b.1, a.2 :: b.2)

/-- The reply to a chunk that was written. -/
def written (id device : Bytes) (ch : Chunk) : Option (List Sent) :=
  some [.ok ⟨writeResult, [.bytes id, .int (ch.offset + ch.data.length), .int ch.data.length, .bytes device, .int 0, .bytes []]⟩]

/-- One chunk, once the temporary file exists. -/
theorem onWrite_chunk (r : PyVal → String) (c : Cfg) (fs : FS) (id path : Bytes) (dev : Text) (hdev : dev ≠ []) (cur : Bytes)
    (hc : fs.content c.cwd dev = some cur) (ch : Chunk) (ho : ch.offset ≤ maxSize) (final : Int) :
    ∃ fs' cur', fs'.content c.cwd dev = some cur' ∧ (ch.data = [] ∧ cur' = cur ∨ cur' = writeAt cur ch.offset ch.data) ∧
      onWrite r c {} fs id path (utf8Encode dev) ch.offset ch.data final =
        (if final = 0 then (fs', written id (utf8Encode dev) ch)
        else match copyDownload c {} fs' dev path with
          | (fs'', true) => (fs'', written id (utf8Encode dev) ch)
          | (fs'', false) => (fs'', some [.ok ⟨writeResult, [.bytes id, .int ch.offset, .int ch.data.length, .bytes (utf8Encode dev), .int 3,
              .bytes []]⟩])) ∧ ∀ k, fs' k = some .dir → fs k = some .dir := by
  have hgen : onWrite r c {} fs id path (utf8Encode dev) ch.offset ch.data final =
      (match (if ch.data.isEmpty then (fs, true) else writeChunk c.cwd .good fs dev ch.offset ch.data) with
      | (fs, false) => (remove c.cwd false fs dev, some [Packets.create r 32 [.bytes id, .int ch.offset, .int ch.data.length,
          .bytes (utf8Encode dev), .int 2, .bytes (utf8Encode [])] []])
      | (fs, true) => match (if final ≠ 0 then copyDownload c {} fs dev path else (fs, true)) with
        | (fs, false) => (fs, some [Packets.create r 32 [.bytes id, .int ch.offset, .int ch.data.length,
            .bytes (utf8Encode dev), .int 3, .bytes (utf8Encode [])] []])
        | (fs, true) => (fs, some [Packets.create r 32 [.bytes id, .int (ch.offset + ch.data.length), .int ch.data.length,
            .bytes (utf8Encode dev), .int 0, .bytes []] []])) := by
    simp only [onWrite, utf8Decode_encode, hdev, if_false]
    rfl
  by_cases he : ch.data = []
  · refine ⟨fs, cur, hc, .inl ⟨he, rfl⟩, ?_, fun _ h => h⟩
    rw [hgen]
    simp only [he, List.isEmpty_nil, if_true]
    by_cases hf : final = 0
    · simp [hf, create32, written, he]
    · simp only [hf, ne_eq, not_false_eq_true, if_true, if_false]
      rcases copyDownload c {} fs dev path with ⟨fs'', b⟩
      cases b
      · simp only [create32]; rfl
      · simp only [create32, written, he]
  · have hie : ch.data.isEmpty = false := by cases hx : ch.data with
      | nil => exact absurd hx he
      | cons a b => rfl
    refine ⟨_, _, content_set hc (writeAt cur ch.offset ch.data), .inr rfl, ?_, ?_⟩
    rotate_left
    · intro k hk
      by_cases e : k = lexKey (join c.cwd dev)
      · rw [e, FS.set_same] at hk; exact nomatch hk
      · rwa [FS.set_other _ _ e] at hk
    rw [hgen]
    simp only [hie, Bool.false_eq_true, if_false, writeChunk_good hc ch.offset ho ch.data]
    by_cases hf : final = 0
    · simp [hf, create32, written]
    · simp only [hf, ne_eq, not_false_eq_true, if_true, if_false]
      rcases copyDownload c {} _ dev path with ⟨fs'', b⟩
      cases b
      · simp only [create32]; rfl
      · simp only [create32, written]

/-- The chunks after the first. -/
theorem sendAll_rest (r : PyVal → String) (c : Cfg) (id path : Bytes) (dev : Text) (hdev : dev ≠ []) (content : Bytes)
    (hlen : content.length ≤ maxSize) (chunks : List Chunk) (hne : chunks ≠ []) (hch : ∀ ch ∈ chunks, ch.of content)
    (done : List Chunk) (fs : FS) (cur : Bytes) (hc : fs.content c.cwd dev = some cur) (hp : Partial content done cur)
    (hcov : Covers content (chunks ++ done)) :
    ∃ fs', fs'.content c.cwd dev = some content ∧
      sendAll r c id path (utf8Encode dev) (utf8Encode dev) fs chunks =
        ((copyDownload c {} fs' dev path).1,
         chunks.dropLast.map (written id (utf8Encode dev)) ++
          [if (copyDownload c {} fs' dev path).2 then written id (utf8Encode dev) (chunks.getLast hne)
           else some [.ok ⟨writeResult, [.bytes id, .int (chunks.getLast hne).offset, .int (chunks.getLast hne).data.length,
             .bytes (utf8Encode dev), .int 3, .bytes []]⟩]]) := by
  induction chunks generalizing done fs cur with
  | nil => exact absurd rfl hne
  | cons ch rest ih =>
    have ho : ch.offset ≤ maxSize := by have := (hch ch (by simp)).2; omega
    obtain ⟨fs', cur', h1, h2, h3, -⟩ := onWrite_chunk r c fs id path dev hdev cur hc ch ho (if rest = [] then 1 else 0)
    have hp' : Partial content (ch :: done) cur' := by
      rcases h2 with ⟨e, rfl⟩ | rfl
      · exact partial_skip hp ch e
      · exact partial_write hp ch (hch ch (by simp))
    have hcov' : Covers content (rest ++ ch :: done) := by
      intro i hi
      obtain ⟨x, hx, h⟩ := hcov i hi
      refine ⟨x, ?_, h⟩
      simp only [List.cons_append, List.mem_cons, List.mem_append] at hx ⊢
      rcases hx with h | h | h
      · exact .inr (.inl h)
      · exact .inl h
      · exact .inr (.inr h)
    by_cases hr : rest = []
    · subst hr
      have hfull : cur' = content := partial_full hp' (by simpa [Covers] using hcov')
      subst hfull
      refine ⟨fs', h1, ?_⟩
      simp only [if_true, Int.one_ne_zero, if_false] at h3
      simp only [sendAll, if_true, h3]
      rcases copyDownload c {} fs' dev path with ⟨fs'', b⟩
      cases b <;> simp
    · obtain ⟨fs'', g1, g2⟩ := ih hr (fun x hx => hch x (by simp [hx])) (ch :: done) fs' cur' h1 hp' hcov'
      refine ⟨fs'', g1, ?_⟩
      simp only [hr, if_false, if_true] at h3
      simp only [sendAll, hr, if_false, h3, g2]
      have e1 : (ch :: rest).dropLast = ch :: rest.dropLast := by
        cases rest with
        | nil => exact absurd rfl hr
        | cons a b => rfl
      rw [e1, List.getLast_cons hr]
      rfl

/-- C58: the chunks of a file, sent in any order, overlapping or not, as long as they cover the contents, are assembled to exactly the
contents before they are copied; each chunk that is written is answered with the position at its end; the copy is answered with success
exactly if it succeeded. -/
theorem c58_assembled (r : PyVal → String) (c : Cfg) (idText : Text) (path : Bytes) (content : Bytes) (hlen : content.length ≤ maxSize)
    (chunks : List Chunk) (hne : chunks ≠ []) (hch : ∀ ch ∈ chunks, ch.of content) (hcov : Covers content chunks) (fs fs1 : FS) (dev : Text)
    (hdev : dev ≠ []) (hadd : addDownload c false false fs idText = (fs1, some dev)) :
    ∃ fs', fs'.content c.cwd dev = some content ∧
      sendAll r c (utf8Encode idText) path (utf8Encode dev) [] fs chunks =
        ((copyDownload c {} fs' dev path).1,
         chunks.dropLast.map (written (utf8Encode idText) (utf8Encode dev)) ++
          [if (copyDownload c {} fs' dev path).2 then written (utf8Encode idText) (utf8Encode dev) (chunks.getLast hne)
           else some [.ok ⟨writeResult, [.bytes (utf8Encode idText), .int (chunks.getLast hne).offset,
             .int (chunks.getLast hne).data.length, .bytes (utf8Encode dev), .int 3, .bytes []]⟩]]) := by
  have hfirst : ∀ ch final, onWrite r c {} fs (utf8Encode idText) path [] ch.offset ch.data final =
      onWrite r c {} fs1 (utf8Encode idText) path (utf8Encode dev) (ch : Chunk).offset ch.data final := by
    intro ch final
    simp only [onWrite, utf8Decode_encode, hdev, if_false]
    have : utf8Decode [] = some [] := rfl
    simp only [this, if_true, hadd]
  cases chunks with
  | nil => exact absurd rfl hne
  | cons ch rest =>
    have hsame : sendAll r c (utf8Encode idText) path (utf8Encode dev) [] fs (ch :: rest) =
        sendAll r c (utf8Encode idText) path (utf8Encode dev) (utf8Encode dev) fs1 (ch :: rest) := by
      simp only [sendAll, hfirst]
    rw [hsame]
    refine sendAll_rest r c _ path dev hdev content hlen _ hne hch [] fs1 [] (addDownload_some hadd).2 ⟨by simp, by simp⟩ (by simpa using hcov)

/-- C58: and the file stored by the copy has exactly the contents: if the destination can be written. -/
theorem c58_stored (c : Cfg) (fs : FS) (dev : Text) (path content : Bytes) (hc : fs.content c.cwd dev = some content) (dest : Text)
    (hd : destination c fs path = some dest) (hw : fs.place c.cwd dest = some (lexKey (join c.cwd dest))) :
    (copyDownload c {} fs dev path).2 = true ∧
    (copyDownload c {} fs dev path).1 (lexKey (join c.cwd dest)) = some (.file content) := by
  have hfree : fs.pathExists c.cwd dest = false := by
    simp only [destination] at hd
    split at hd
    · simp at hd
    · rename_i p _
      replace hd := (findFree_spec fs c.cwd _ _ _ (candidate c fs p) (candidate_succ c fs p) 100 (by omega) dest).1 hd
      obtain ⟨n, -, -, h3, h4, -⟩ := hd
      rw [h3]; exact h4
  have hnone : fs (lexKey (join c.cwd dest)) = none := by
    simp only [FS.pathExists, FS.stat, hw, Option.bind_some, Option.isSome_eq_false_iff, Option.isNone_iff_eq_none] at hfree
    exact hfree
  obtain ⟨p1, p2⟩ := FS.content_some hc
  have hstat : fs.stat c.cwd dev = some (.file content) := by simp [FS.stat, p1, p2]
  have hwr : fs.writable c.cwd dest = some (lexKey (join c.cwd dest)) := by simp [FS.writable, hw, hnone]
  simp only [copyDownload, hd, moveFile, p1, hstat, hwr, if_true]
  exact ⟨trivial, FS.set_same _ _ _⟩

/-- C58: in any case, a copy that is answered with success has stored exactly the contents, and the temporary file is gone.  (If the
server names a directory as device path there is no temporary file; that case is in C59 and C60.) -/
theorem c58_success (c : Cfg) (env : WriteEnv) (fs fs' : FS) (dev : Text) (path : Bytes) (hsrc : fs.isDir c.cwd dev = false)
    (h : copyDownload c env fs dev path = (fs', true)) :
    ∃ dest content, destination c fs path = some dest ∧ fs.content c.cwd dev = some content ∧
      fs' (lexKey (join c.cwd dest)) = some (.file content) ∧
      (lexKey (join c.cwd dev) = lexKey (join c.cwd dest) ∨ fs' (lexKey (join c.cwd dev)) = none) := by
  simp only [copyDownload] at h
  cases hd : destination c fs path with
  | none => rw [hd] at h; simp at h
  | some dest =>
    simp only [hd, moveFile] at h
    split at h
    · rename_i k d h1 h2
      split at h
      rotate_left
      · exact nomatch h
      rename_i k' h3
      have e1 := FS.place_lex h1
      obtain ⟨-, e3, -⟩ := FS.writable_some h3
      have hc : fs.content c.cwd dev = some d := by
        simp only [FS.content, h2]
      have hset : fs' = (fs.set k none).set k' (some (.file d)) := by
        split at h
        · injection h with h _; exact h.symm
        · split at h
          · split at h
            · injection h with h _; exact h.symm
            · simp at h
          · simp at h
          · simp at h
      refine ⟨dest, d, rfl, hc, ?_, ?_⟩
      · rw [hset, ← e3]; exact FS.set_same _ _ _
      · by_cases e : k = k'
        · left; rw [← e1, ← e3, e]
        · right
          rw [hset, ← e1, FS.set_other _ _ e]
          exact FS.set_same _ _ _
    · rename_i hs
      simp [FS.isDir, hs] at hsrc
    · exact nomatch h

/-- C58, if the copy fails: the temporary file is kept, and what the copy may leave behind is a beginning of the contents. -/
theorem c58_failed (c : Cfg) (env : WriteEnv) (fs fs' : FS) (dev : Text) (path : Bytes) (hsrc : fs.isDir c.cwd dev = false)
    (h : copyDownload c env fs dev path = (fs', false)) (k : List Text) (hk : fs' k ≠ fs k) :
    ∃ dest content part, destination c fs path = some dest ∧ k = lexKey (join c.cwd dest) ∧ fs.content c.cwd dev = some content ∧
      fs' k = some (.file part) ∧ part <+: content := by
  simp only [copyDownload] at h
  cases hd : destination c fs path with
  | none => rw [hd] at h; injection h with h _; rw [h] at hk; exact absurd rfl hk
  | some dest =>
    simp only [hd, moveFile] at h
    split at h
    · rename_i k0 d h1 h2
      split at h
      rotate_left
      · injection h with h _; rw [h] at hk; exact absurd rfl hk
      rename_i k' h3
      obtain ⟨-, e3, -⟩ := FS.writable_some h3
      have hc : fs.content c.cwd dev = some d := by
        simp only [FS.content, h2]
      have hset : fs' = fs ∨ ∃ part, part <+: d ∧ fs' = fs.set k' (some (.file part)) := by
        split at h
        · simp at h
        · split at h
          · split at h
            · simp at h
            · injection h with h _; exact .inr ⟨d, List.prefix_rfl, h.symm⟩
          · injection h with h _; exact .inl h.symm
          · injection h with h _; exact .inr ⟨_, List.take_prefix _ _, h.symm⟩
      rcases hset with hset | ⟨part, hp, hset⟩
      · rw [hset] at hk; exact absurd rfl hk
      · by_cases e : k = k'
        · exact ⟨dest, d, part, rfl, by rw [e, e3], hc, by rw [hset, e]; exact FS.set_same _ _ _, hp⟩
        · rw [hset, FS.set_other _ _ e] at hk; exact absurd rfl hk
    · rename_i hs
      simp [FS.isDir, hs] at hsrc
    · injection h with h _; rw [h] at hk; exact absurd rfl hk

/-- C58: and at the place where it is stored nothing was before. -/
theorem c58_free (c : Cfg) (env : WriteEnv) (fs fs' : FS) (dev : Text) (path : Bytes) (hsrc : fs.isDir c.cwd dev = false)
    (h : copyDownload c env fs dev path = (fs', true)) (dest : Text) (hd : destination c fs path = some dest) :
    fs (lexKey (join c.cwd dest)) = none := by
  have hfree : fs.pathExists c.cwd dest = false := by
    simp only [destination] at hd
    split at hd
    · simp at hd
    · rename_i p _
      replace hd := (findFree_spec fs c.cwd _ _ _ (candidate c fs p) (candidate_succ c fs p) 100 (by omega) dest).1 hd
      obtain ⟨n, -, -, h3, h4, -⟩ := hd
      rw [h3]; exact h4
  simp only [copyDownload, hd, moveFile] at h
  split at h
  · split at h
    · rename_i k' h3
      obtain ⟨e1, e2, -⟩ := FS.writable_some h3
      subst e2
      simp only [FS.pathExists, FS.stat, e1, Option.bind_some, Option.isSome_eq_false_iff, Option.isNone_iff_eq_none] at hfree
      exact hfree
    · exact (nomatch h)
  · rename_i hs
    simp [FS.isDir, hs] at hsrc
  · exact (nomatch h)

/-- C58, if the server named a directory as device path: a success is only reported if all that was in it is in the new place, where nothing
was before, and the old place is empty.  (A destination of slashes only is not possible with a root directory that exists.) -/
theorem c58_directory (c : Cfg) (env : WriteEnv) (fs fs' : FS) (dev : Text) (path : Bytes) (hsrc : fs.isDir c.cwd dev = true)
    (h : copyDownload c env fs dev path = (fs', true)) :
    ∃ dest k', destination c fs path = some dest ∧ (k' = lexKey (join c.cwd dest) ∨ ∀ ch ∈ dest, ch = '/') ∧ fs k' = none ∧
      ¬ lexKey (join c.cwd dev) <+: k' ∧
      ∀ x, (fs (lexKey (join c.cwd dev) ++ x) ≠ none → fs' (k' ++ x) = fs (lexKey (join c.cwd dev) ++ x)) ∧
        (k' <+: lexKey (join c.cwd dev) ++ x ∨ fs' (lexKey (join c.cwd dev) ++ x) = none) := by
  simp only [copyDownload] at h
  cases hd : destination c fs path with
  | none => rw [hd] at h; simp at h
  | some dest =>
    simp only [hd, moveFile] at h
    split at h
    · rename_i hs
      simp [FS.isDir, hs] at hsrc
    · rename_i k hk _
      obtain ⟨k', h1, h2, h3, h4⟩ := moveDir_success h
      have e := FS.place_lex hk
      subst e
      exact ⟨dest, k', rfl, h1, h2, h3, h4⟩
    · exact nomatch h

/-- C58, if the server named a directory as device path and a failure is reported: whatever was in the directory is still there or in the new
place, and only directories, and the files of the directory or beginnings of them, are new. -/
theorem c58_directory_failed (c : Cfg) (env : WriteEnv) (fs fs' : FS) (hc : Closed fs) (dev : Text) (path : Bytes)
    (hsrc : fs.isDir c.cwd dev = true) (h : copyDownload c env fs dev path = (fs', false)) :
    fs' = fs ∨ ∃ dest k', destination c fs path = some dest ∧ (k' = lexKey (join c.cwd dest) ∨ ∀ ch ∈ dest, ch = '/') ∧
      (∀ x, fs (lexKey (join c.cwd dev) ++ x) ≠ none → fs' (lexKey (join c.cwd dev) ++ x) = fs (lexKey (join c.cwd dev) ++ x) ∨
        fs' (k' ++ x) = fs (lexKey (join c.cwd dev) ++ x)) ∧
      ∀ y, fs' y ≠ fs y → (lexKey (join c.cwd dev) <+: y ∧ fs' y = none) ∨ fs y = none ∧ (fs' y = some .dir ∨
        ∃ x content part, y = k' ++ x ∧ fs (lexKey (join c.cwd dev) ++ x) = some (.file content) ∧ fs' y = some (.file part) ∧
          part <+: content) := by
  simp only [copyDownload] at h
  cases hd : destination c fs path with
  | none => rw [hd] at h; injection h with h _; exact .inl h.symm
  | some dest =>
    simp only [hd, moveFile] at h
    split at h
    · rename_i hs
      simp [FS.isDir, hs] at hsrc
    · rename_i k hk _
      obtain ⟨k', h1, h2, h3⟩ := moveDir_failed hc h
      have e := FS.place_lex hk
      subst e
      exact .inr ⟨dest, k', rfl, h1, h2, h3⟩
    · injection h with h _; exact .inl h.symm

theorem mem_dropSlash {ch : Char} (h : ch ≠ '/') : ∀ {s : Text}, ch ∈ s → ch ∈ s.dropWhile (· == '/')
  | x :: xs, hm => by
    rw [List.dropWhile_cons]
    split
    · rename_i hx
      rcases List.mem_cons.1 hm with rfl | hm
      · exact absurd (by simpa using hx) h
      · exact mem_dropSlash h hm
    · exact hm

theorem mem_join {ch : Char} {a b : Text} (h : ch ∈ b) : ch ∈ join a b := by
  unfold join
  repeat' split
  all_goals simp [h]

/-- C58: a path with a NUL character in it can not be stored, whatever is moved; the reply is a failure and nothing is changed. -/
theorem c58_nul (c : Cfg) (env : WriteEnv) (fs : FS) (dev : Text) (path : Text) (h : Char.ofNat 0 ∈ path) :
    copyDownload c env fs dev (utf8Encode path) = (fs, false) := by
  have hn : (Char.ofNat 0) ≠ '/' := by decide
  have hm : Char.ofNat 0 ∈ join c.root (lstripSlash path) := mem_join (mem_dropSlash hn h)
  have hpl : fs.place c.cwd (join c.root (lstripSlash path)) = none := by
    unfold FS.place
    rw [if_pos (by simpa using hm)]
  have hd : destination c fs (utf8Encode path) = some (join c.root (lstripSlash path)) := by
    simp only [destination, utf8Decode_encode]
    unfold findFree
    rw [if_neg (by simp [FS.pathExists, FS.stat, hpl])]
  have hr : (rstripSlash (join c.root (lstripSlash path))).contains (Char.ofNat 0) = true := by
    simpa [rstripSlash] using mem_dropSlash hn (List.mem_reverse.2 hm)
  simp only [copyDownload, hd, moveFile, FS.writable, hpl, moveDir, hr, if_true]
  split <;> rfl

/-- The old directory could not be removed, and the copy that stops after two bytes. -/
example :
    let new := ["home".toList, "dataplicity".toList, "remote".toList, "new".toList, "passwd".toList]
    let out := copyDownload exampleCfg { renameOk := false, tree := .removeFails (fun _ => false) } exampleFS "/etc".toList (asc "/new")
    let out' := copyDownload exampleCfg { renameOk := false, tree := .copyFails (fun _ => some 2) } exampleFS "/etc".toList (asc "/new")
    out.2 = false ∧ out.1 ["etc".toList, "passwd".toList] = some (.file [114, 111, 111, 116]) ∧
      out.1 new = some (.file [114, 111, 111, 116]) ∧ out'.2 = false ∧ out'.1 new = some (.file [114, 111]) := by decide +kernel

/-- A directory with a file, moved across devices. -/
example :
    let out := copyDownload exampleCfg { renameOk := false } exampleFS "/etc".toList (asc "/new")
    out.2 = true ∧ out.1 ["etc".toList, "passwd".toList] = none ∧
      out.1 ["home".toList, "dataplicity".toList, "remote".toList, "new".toList, "passwd".toList] = some (.file [114, 111, 111, 116]) := by
  decide +kernel

/-- Three chunks out of order. -/
example :
    let out := sendAll (fun _ => "") exampleCfg (asc "d") (asc "/c.txt") (utf8Encode "/var/tmp/dataplicity_remote_downloads/d".toList) []
      exampleFS [⟨4, [5, 6]⟩, ⟨0, [1, 2]⟩, ⟨2, [3, 4]⟩]
    out.1 ["home".toList, "dataplicity".toList, "remote".toList, "c.txt".toList] = some (.file [1, 2, 3, 4, 5, 6]) ∧
    out.1 ["var".toList, "tmp".toList, "dataplicity_remote_downloads".toList, "d".toList] = none := by decide +kernel

/-! ### C59 -/

/-- C59: the name chosen for a download is the requested one if it is free, or else the first free `name(N)` with N from 1 to 100. -/
theorem c59_first_free (c : Cfg) (fs : FS) (path : Text) (dest : Text) :
    destination c fs (utf8Encode path) = some dest ↔
      ∃ n, n ≤ 100 ∧ dest = candidate c fs path n ∧ FirstFree (fs.pathExists c.cwd) (candidate c fs path) n := by
  simp only [destination, utf8Decode_encode]
  have := findFree_spec fs c.cwd _ _ _ (candidate c fs path) (candidate_succ c fs path) 100 (by omega) dest
  rw [show (100 : Nat) - 100 = 0 from rfl] at this
  exact this.trans ⟨fun ⟨n, _, h2, h3, h4, h5⟩ => ⟨n, h2, h3, h4, fun m hm => h5 m (by omega) hm⟩,
    fun ⟨n, h2, h3, h4, h5⟩ => ⟨n, by omega, h2, h3, h4, fun m _ hm => h5 m hm⟩⟩

/-- C59: if all names are taken nothing is changed and the download is refused. -/
theorem c59_all_taken (c : Cfg) (env : WriteEnv) (fs : FS) (dev path : Text)
    (h : ∀ n, n ≤ 100 → fs.pathExists c.cwd (candidate c fs path n) = true) :
    copyDownload c env fs dev (utf8Encode path) = (fs, false) := by
  have hd : destination c fs (utf8Encode path) = none := by
    cases hx : destination c fs (utf8Encode path) with
    | none => rfl
    | some dest =>
      obtain ⟨n, h1, h2, h3, -⟩ := (c59_first_free c fs path dest).1 hx
      rw [h n h1] at h3
      simp at h3
  simp [copyDownload, hd]

theorem destination_free (c : Cfg) (fs : FS) (path : Bytes) (dest : Text) (hd : destination c fs path = some dest) :
    fs.pathExists c.cwd dest = false := by
  simp only [destination] at hd
  split at hd
  · simp at hd
  · rename_i p _
    replace hd := (findFree_spec fs c.cwd _ _ _ (candidate c fs p) (candidate_succ c fs p) 100 (by omega) dest).1 hd
    obtain ⟨n, -, -, h3, h4, -⟩ := hd
    rw [h3]; exact h4

/-- C59: a copy changes no place except that of the temporary file, and the chosen one, at which nothing was before; whatever the
operating system does. -/
theorem c59_no_overwrite (c : Cfg) (env : WriteEnv) (fs : FS) (dev : Text) (path : Bytes) (hsrc : fs.isDir c.cwd dev = false)
    (k : List Text) (h : (copyDownload c env fs dev path).1 k ≠ fs k) :
    k = lexKey (join c.cwd dev) ∨ ∃ dest, destination c fs path = some dest ∧ k = lexKey (join c.cwd dest) ∧ fs k = none := by
  simp only [copyDownload] at h
  cases hd : destination c fs path with
  | none => rw [hd] at h; exact absurd rfl h
  | some dest =>
    rw [hd] at h
    rcases moveFile_change c.cwd env.renameOk env.copy env.unlinkOk env.tree fs dev dest (destination_free c fs path dest hd) hsrc k h
      with h | h
    · exact .inl h
    · exact .inr ⟨dest, rfl, h⟩

/-- C59, also when the server names a directory as device path, which is then moved with all that is in it: whatever the system does,
a place outside of what is moved that had something has the same after the copy. -/
theorem c59_kept (c : Cfg) (env : WriteEnv) (fs : FS) (hc : Closed fs) (dev : Text) (path : Bytes) (k : List Text) (hk : fs k ≠ none)
    (hout : ¬ lexKey (join c.cwd dev) <+: k) : (copyDownload c env fs dev path).1 k = fs k := by
  apply Classical.byContradiction
  intro h
  cases hs : fs.isDir c.cwd dev with
  | false =>
    rcases c59_no_overwrite c env fs dev path hs k h with e | ⟨_, _, _, e⟩
    · exact hout (e ▸ List.prefix_refl _)
    · exact hk e
  | true =>
    simp only [copyDownload] at h
    cases hd : destination c fs path with
    | none => rw [hd] at h; exact absurd rfl h
    | some dest =>
      rw [hd] at h
      simp only [moveFile] at h
      split at h
      · rename_i e
        simp [FS.isDir, e] at hs
      · rename_i k1 hp _
        rcases moveDir_change _ _ _ fs hc k1 dest k h with e | e
        · exact hout (FS.place_lex hp ▸ e)
        · exact hk e
      · exact absurd rfl h

/-- The name `a` is taken. -/
example : destination exampleCfg exampleFS (asc "a") = some "/home/dataplicity/remote/a(1)".toList := by decide +kernel
example : candidate exampleCfg exampleFS "x.tar.gz".toList 12 = "/home/dataplicity/remote/x.tar(12).gz".toList := by decide +kernel

/-! ### C93 -/

/-- C93: if the destination as requested has no place, because its directory is missing, the copy fails and changes nothing; the
other candidates, which would be in the remote directory itself, are never tried. -/
theorem c93_refused (c : Cfg) (env : WriteEnv) (fs : FS) (dev path : Text) (hsrc : fs.isDir c.cwd dev = false)
    (h : fs.place c.cwd (join c.root (lstripSlash path)) = none) : copyDownload c env fs dev (utf8Encode path) = (fs, false) := by
  have hfree : fs.pathExists c.cwd (join c.root (lstripSlash path)) = false := by simp [FS.pathExists, FS.stat, h]
  have hd : destination c fs (utf8Encode path) = some (join c.root (lstripSlash path)) :=
    (c59_first_free c fs path _).2 ⟨0, by omega, rfl, hfree, by omega⟩
  have hw : fs.writable c.cwd (join c.root (lstripSlash path)) = none := by simp [FS.writable, h]
  simp only [copyDownload, hd, moveFile, hw]
  split
  · rfl
  · rename_i e; simp [FS.isDir, e] at hsrc
  · rfl

/-- C93: the request is then answered with code 3. -/
theorem c93_reported (r : PyVal → String) (c : Cfg) (fs : FS) (id : Bytes) (dev path : Text) (hdev : dev ≠ []) (cur : Bytes)
    (hc : fs.content c.cwd dev = some cur) (ch : Chunk) (ho : ch.offset ≤ maxSize) (final : Int) (hf : final ≠ 0)
    (h : fs.place c.cwd (join c.root (lstripSlash path)) = none) :
    (onWrite r c {} fs id (utf8Encode path) (utf8Encode dev) ch.offset ch.data final).2 =
      some [.ok ⟨writeResult, [.bytes id, .int ch.offset, .int ch.data.length, .bytes (utf8Encode dev), .int 3, .bytes []]⟩] := by
  obtain ⟨fs', cur', hcont, -, h3, hdirs⟩ := onWrite_chunk r c fs id (utf8Encode path) dev hdev cur hc ch ho final
  have h' : fs'.place c.cwd (join c.root (lstripSlash path)) = none := by
    cases hp : fs'.place c.cwd (join c.root (lstripSlash path)) with
    | none => rfl
    | some k => rw [FS.place_mono hdirs hp] at h; exact nomatch h
  have hsrc : fs'.isDir c.cwd dev = false := isDir_of_content hcont
  rw [h3, if_neg hf, c93_refused c {} fs' dev path hsrc h']

/-- The directory `gone` does not exist: the data stays in the download folder. -/
example :
    let out := onWrite (fun _ => "") exampleCfg {} exampleFS (asc "d") (asc "gone/c.txt") [] 0 [1, 2, 3] 1
    out.2 = some [.ok ⟨writeResult, [.bytes (asc "d"), .int 0, .int 3, .bytes (asc "/var/tmp/dataplicity_remote_downloads/d"), .int 3,
      .bytes []]⟩] ∧
    out.1 ["home".toList, "dataplicity".toList, "remote".toList, "c.txt".toList] = none ∧
    out.1 ["var".toList, "tmp".toList, "dataplicity_remote_downloads".toList, "d".toList] = some (.file [1, 2, 3]) := by
  decide +kernel

/-! ### C60 -/

theorem byte_noslash (b : UInt8) : Char.ofNat b.toNat = '/' → isDigitB b = true → False := by
  intro e hd
  have hlt : b.toNat < 256 := b.toNat_lt
  have hb : b = 47 := by
    have h1 : (Char.ofNat b.toNat).toNat = 47 := by rw [e]; rfl
    have h2 : (Char.ofNat b.toNat).toNat = b.toNat := by
      rw [Char.ofNat, dif_pos (.inl (by omega))]
      rfl
    apply UInt8.toNat_inj.1
    rw [← h2, h1]; rfl
  subst hb
  exact absurd hd (by decide)

theorem numText_noslash (n : Nat) : '/' ∉ numText n := by
  simp only [numText, List.mem_map, not_exists, not_and]
  intro b hb e
  have hd := decNat_all_digits n b hb
  revert hd e
  exact byte_noslash b

/-- C60, the file stored: if the requested path does not go up, every candidate name is inside the remote directory. -/
theorem candidate_inside (c : Cfg) (hs : c.Sane) (fs : FS) (path : Text) (hp : ¬ GoesUp path) (n : Nat) :
    Inside c.root (candidate c fs path n) ∧ (candidate c fs path n).head? = some '/' := by
  have hup : ['.', '.'] ∉ splitOn '/' (lstripSlash path) := fun hm => hp ((lstripSlash_split path).2.1 hm)
  have hne := ne_nil_of_head hs.root
  have hhead := join_head c.root (lstripSlash path) hs.root
  cases n with
  | zero =>
    refine ⟨?_, hhead⟩
    rw [Inside, candidate, lexKey_join _ _ hne (lstripSlash_head path), foldl_lexStep _ _ hup]
    exact List.prefix_append _ _
  | succ n =>
    rw [candidate_succ]
    have hdir : Inside c.root (Path.split (join c.root (lstripSlash path))).1 := by
      rw [Inside, lexKey_split]
      obtain ⟨pre, e1, e2⟩ := splitOn_join c.root (lstripSlash path) hne (lstripSlash_head path)
      rw [e1, List.dropLast_append_of_ne_nil (splitOn_ne_nil _ _), List.foldl_append, e2, foldl_lexStep]
      · exact List.prefix_append _ _
      · exact fun hm => hup ((List.dropLast_sublist _).subset hm)
    have hdh := split_head _ hhead
    have hgen : ∀ dir : Text, Inside c.root dir → dir.head? = some '/' →
        Inside c.root (copyName dir (splitext (Path.split (join c.root (lstripSlash path))).2).1 (n + 1)
          (splitext (Path.split (join c.root (lstripSlash path))).2).2) ∧
        (copyName dir (splitext (Path.split (join c.root (lstripSlash path))).2).1 (n + 1)
          (splitext (Path.split (join c.root (lstripSlash path))).2).2).head? = some '/' := by
      intro dir h1 h2
      have hsl := splitext_noslash _ (split_noslash (join c.root (lstripSlash path)))
      have hname : '/' ∉ (splitext (Path.split (join c.root (lstripSlash path))).2).1 ++
          '(' :: numText (n + 1) ++ ')' :: (splitext (Path.split (join c.root (lstripSlash path))).2).2 := by
        simp only [List.mem_append, List.mem_cons, not_or]
        exact ⟨⟨hsl.1, by decide, numText_noslash _⟩, by decide, hsl.2⟩
      constructor
      · have : copyName dir (splitext (Path.split (join c.root (lstripSlash path))).2).1 (n + 1)
            (splitext (Path.split (join c.root (lstripSlash path))).2).2 = dir ++ '/' ::
            ((splitext (Path.split (join c.root (lstripSlash path))).2).1 ++ '(' :: numText (n + 1) ++ ')' ::
              (splitext (Path.split (join c.root (lstripSlash path))).2).2) := by simp [copyName]
        rw [Inside, this, lexKey_slash, splitOn_plain _ _ hname, foldl_lexStep]
        · exact List.IsPrefix.trans h1 (List.prefix_append _ _)
        · simp only [List.mem_singleton]
          intro e
          have : '(' ∈ ['.', '.'] := by rw [e]; simp
          revert this; decide
      · cases dir with
        | nil => simp at h2
        | cons x d => simpa [copyName] using h2
    split
    · exact hgen _ hdir hdh
    · exact hgen _ (List.prefix_refl _) hs.root

theorem destination_inside (c : Cfg) (hs : c.Sane) (fs : FS) (path : Bytes) (hp : ∀ p, utf8Decode path = some p → ¬ GoesUp p) (dest : Text)
    (hd : destination c fs path = some dest) : lexKey c.root <+: lexKey (join c.cwd dest) := by
  simp only [destination] at hd
  split at hd
  · simp at hd
  · rename_i p hq
    replace hd := (findFree_spec fs c.cwd _ _ _ (candidate c fs p) (candidate_succ c fs p) 100 (by omega) dest).1 hd
    obtain ⟨n, -, -, h3, -, -⟩ := hd
    obtain ⟨i1, i2⟩ := candidate_inside c hs fs p (hp p hq) n
    rw [h3, join_abs _ _ i2]
    exact i1

theorem onWrite_fst (r : PyVal → String) (c : Cfg) (env : WriteEnv) (fs : FS) (id path devicePath : Bytes) (offset : Int) (data : Bytes)
    (final : Int) : (onWrite r c env fs id path devicePath offset data final).1 = match utf8Decode devicePath with
      | none => fs
      | some given =>
        match (if given = [] then
            match utf8Decode id with
            | none => (fs, none)
            | some id => addDownload c env.mkdirFails env.createFails fs id
          else (fs, some given) : FS × Option Text) with
        | (fs, none) => fs
        | (fs, some dev) =>
          match (if data.isEmpty then (fs, true) else writeChunk c.cwd env.write fs dev offset data : FS × Bool) with
          | (fs, false) => remove c.cwd env.removeFails fs dev
          | (fs, true) => (if final ≠ 0 then copyDownload c env fs dev path else (fs, true) : FS × Bool).1 := by
  simp only [onWrite]
  cases utf8Decode devicePath with
  | none => rfl
  | some given =>
    simp only
    rcases (if given = [] then match utf8Decode id with
            | none => (fs, none)
            | some id => addDownload c env.mkdirFails env.createFails fs id
          else (fs, some given) : FS × Option Text) with ⟨fs1, _ | dev⟩
    · rfl
    · simp only
      rcases (if data.isEmpty then (fs1, true) else writeChunk c.cwd env.write fs1 dev offset data : FS × Bool) with ⟨fs2, _ | _⟩
      · rfl
      · simp only
        rcases (if final ≠ 0 then copyDownload c env fs2 dev path else (fs2, true) : FS × Bool) with ⟨fs3, _ | _⟩ <;> rfl

/-- The download folder. -/
def inDownloads (c : Cfg) (k : List Text) : Prop := lexKey (downloadDir c) <+: k

/-- Which places a write request changes, whatever the request is, unless it names a directory as device path. -/
theorem onWrite_places (r : PyVal → String) (c : Cfg) (env : WriteEnv) (fs : FS) (id path devicePath : Bytes) (offset : Int) (data : Bytes)
    (final : Int) (P : List Text → Prop) (hP1 : P (lexKey (join c.cwd (downloadDir c))))
    (hP2 : ∀ i, utf8Decode devicePath = some [] → utf8Decode id = some i → P (lexKey (join c.cwd (join (downloadDir c) i))))
    (hP3 : ∀ fs' dest, destination c fs' path = some dest → P (lexKey (join c.cwd dest)))
    (hdev : ∀ d, utf8Decode devicePath = some d → d ≠ [] → P (lexKey (join c.cwd d)) ∧ fs.isDir c.cwd d = false) (k : List Text)
    (hk : (onWrite r c env fs id path devicePath offset data final).1 k ≠ fs k) : P k := by
  have later : ∀ (fs1 : FS) (dev : Text), P (lexKey (join c.cwd dev)) → fs1.isDir c.cwd dev = false → ∀ fs2 fs3 : FS,
      (fs2 = fs1 ∨ fs2 = (writeChunk c.cwd env.write fs1 dev offset data).1) →
      (fs3 = fs2 ∨ fs3 = remove c.cwd env.removeFails fs2 dev ∨ fs3 = (copyDownload c env fs2 dev path).1) → fs3 k ≠ fs1 k →
      P k := by
    intro fs1 dev hd hnd fs2 fs3 h2 h3 hne
    have hnd2 : fs2.isDir c.cwd dev = false := by
      rcases h2 with rfl | rfl
      · exact hnd
      · exact writeChunk_notdir _ _ _ _ _ _ hnd
    by_cases e2 : fs2 k = fs1 k
    · have hne3 : fs3 k ≠ fs2 k := by rw [e2]; exact hne
      rcases h3 with rfl | rfl | rfl
      · exact absurd rfl hne3
      · exact remove_only _ _ _ _ _ hne3 ▸ hd
      · rcases c59_no_overwrite c env fs2 dev path hnd2 k hne3 with h | ⟨dest, h4, h5, -⟩
        · exact h ▸ hd
        · exact h5 ▸ hP3 fs2 dest h4
    · rcases h2 with rfl | rfl
      · exact absurd rfl e2
      · exact writeChunk_change _ _ _ _ _ _ _ e2 ▸ hd
  have tail : ∀ (fs1 : FS) (dev : Text), P (lexKey (join c.cwd dev)) → fs1.isDir c.cwd dev = false → ∀ fs3 : FS,
      fs3 = (match (if data.isEmpty then (fs1, true) else writeChunk c.cwd env.write fs1 dev offset data : FS × Bool) with
        | (fs, false) => remove c.cwd env.removeFails fs dev
        | (fs, true) => (if final ≠ 0 then copyDownload c env fs dev path else (fs, true) : FS × Bool).1) → fs3 k ≠ fs1 k →
      P k := by
    intro fs1 dev hd hnd fs3 h3 hne
    rcases hw : (if data.isEmpty then (fs1, true) else writeChunk c.cwd env.write fs1 dev offset data : FS × Bool) with ⟨fs2, b⟩
    have h2 : fs2 = fs1 ∨ fs2 = (writeChunk c.cwd env.write fs1 dev offset data).1 := by
      split at hw
      · injection hw with e _; exact .inl e.symm
      · rw [hw]; exact .inr rfl
    rw [hw] at h3
    cases b
    · exact later fs1 dev hd hnd fs2 fs3 h2 (.inr (.inl h3)) hne
    · by_cases hf : final ≠ 0
      · exact later fs1 dev hd hnd fs2 fs3 h2 (.inr (.inr (by simpa [hf] using h3))) hne
      · exact later fs1 dev hd hnd fs2 fs3 h2 (.inl (by simpa [hf] using h3)) hne
  rw [onWrite_fst] at hk
  cases hg : utf8Decode devicePath with
  | none => rw [hg] at hk; exact absurd rfl hk
  | some given =>
    simp only [hg] at hk
    have fin : ∀ (fs1 : FS) (dev : Text), P (lexKey (join c.cwd dev)) → fs1.isDir c.cwd dev = false →
        (fs1 k ≠ fs k → P k) →
        (match (if data.isEmpty then (fs1, true) else writeChunk c.cwd env.write fs1 dev offset data : FS × Bool) with
        | (fs, false) => remove c.cwd env.removeFails fs dev
        | (fs, true) => (if final ≠ 0 then copyDownload c env fs dev path else (fs, true) : FS × Bool).1) k ≠ fs k →
        P k := by
      intro fs1 dev hd hnd h1 hne
      by_cases e : fs1 k = fs k
      · exact tail fs1 dev hd hnd _ rfl (by rw [e]; exact hne)
      · exact h1 e
    by_cases hgiven : given = []
    · simp only [hgiven, if_true] at hk
      cases hi : utf8Decode id with
      | none => rw [hi] at hk; exact absurd rfl hk
      | some idText =>
        simp only [hi] at hk
        have hin : P (lexKey (join c.cwd (join (downloadDir c) idText))) := hP2 idText (hgiven ▸ hg) hi
        have hch := addDownload_change c env.mkdirFails env.createFails fs idText k
        have hin' : (addDownload c env.mkdirFails env.createFails fs idText).1 k ≠ fs k → P k := by
          intro h
          rcases hch h with h | h
          · rw [h.1]; exact hP1
          · rw [h]; exact hin
        rcases hadd : addDownload c env.mkdirFails env.createFails fs idText with ⟨fs1, _ | dev⟩
        · rw [hadd] at hk hin'; exact hin' hk
        · have hpd := (addDownload_some hadd).1
          rw [hadd] at hk hin'
          exact fin fs1 dev (hpd ▸ hin) (isDir_of_content (addDownload_some hadd).2) hin' hk
    · simp only [hgiven, if_false] at hk
      exact fin fs given (hdev given hg hgiven).1 (hdev given hg hgiven).2 (fun h => absurd rfl h) hk

/-- C60, if the request has a tame id and no device path, or a device path of a file in the download folder, and its path does not go up:
a write request changes only places inside the download folder and the remote directory, whatever the system does.  Missing for the full claim:
these conditions are not checked by the agent, see the counterexamples. -/
theorem c60_inside_partial (r : PyVal → String) (c : Cfg) (hs : c.Sane) (env : WriteEnv) (fs : FS) (id path devicePath : Bytes)
    (offset : Int) (data : Bytes) (final : Int) (hp : ∀ p, utf8Decode path = some p → ¬ GoesUp p)
    (hdev : ∀ d, utf8Decode devicePath = some d → d ≠ [] → inDownloads c (lexKey (join c.cwd d)) ∧ fs.isDir c.cwd d = false)
    (hid : ∀ i, utf8Decode id = some i → Tame i) (k : List Text)
    (hk : (onWrite r c env fs id path devicePath offset data final).1 k ≠ fs k) : inDownloads c k ∨ lexKey c.root <+: k := by
  have hddir : (downloadDir c).head? = some '/' := join_head _ _ hs.temp
  refine onWrite_places r c env fs id path devicePath offset data final (fun k => inDownloads c k ∨ lexKey c.root <+: k) ?_ ?_ ?_ ?_ k hk
  · left
    rw [inDownloads, join_abs _ _ hddir]
    exact List.prefix_refl _
  · intro i _ hi
    have htame := hid i hi
    left
    rw [inDownloads, join_abs _ _ (join_head _ _ hddir), lexKey_join _ _ (ne_nil_of_head hddir) htame.1, foldl_lexStep _ _ htame.2]
    exact List.prefix_append _ _
  · exact fun fs' dest h => .inr (destination_inside c hs fs' path hp dest h)
  · exact fun d h1 h2 => ⟨.inl (hdev d h1 h2).1, (hdev d h1 h2).2⟩

/-- C60, exact, for any id and path: a write request changes at most the download folder itself, which is made if it is missing, the file that
the device path names (if it names no directory), or, without a device path, the place that the id names, taken as a path relative to the download
folder, and the place that is chosen for the path (C59). -/
theorem c60_touched (r : PyVal → String) (c : Cfg) (env : WriteEnv) (fs : FS) (id path devicePath : Bytes) (offset : Int) (data : Bytes)
    (final : Int) (hdev : ∀ d, utf8Decode devicePath = some d → d ≠ [] → fs.isDir c.cwd d = false) (k : List Text)
    (hk : (onWrite r c env fs id path devicePath offset data final).1 k ≠ fs k) :
    k = lexKey (join c.cwd (downloadDir c)) ∨
    (∃ d, utf8Decode devicePath = some d ∧ d ≠ [] ∧ k = lexKey (join c.cwd d)) ∨
    (∃ i, utf8Decode devicePath = some [] ∧ utf8Decode id = some i ∧ k = lexKey (join c.cwd (join (downloadDir c) i))) ∨
    ∃ fs' dest, destination c fs' path = some dest ∧ k = lexKey (join c.cwd dest) :=
  onWrite_places r c env fs id path devicePath offset data final
    (fun k => k = lexKey (join c.cwd (downloadDir c)) ∨
      (∃ d, utf8Decode devicePath = some d ∧ d ≠ [] ∧ k = lexKey (join c.cwd d)) ∨
      (∃ i, utf8Decode devicePath = some [] ∧ utf8Decode id = some i ∧ k = lexKey (join c.cwd (join (downloadDir c) i))) ∨
      ∃ fs' dest, destination c fs' path = some dest ∧ k = lexKey (join c.cwd dest))
    (.inl rfl) (fun i h1 h2 => .inr (.inr (.inl ⟨i, h1, h2, rfl⟩))) (fun fs' dest h => .inr (.inr (.inr ⟨fs', dest, h, rfl⟩)))
    (fun d h1 h2 => ⟨.inr (.inl ⟨d, h1, h2, rfl⟩), hdev d h1 h2⟩) k hk

/-- C60 fails: a path that goes up stores the download outside the remote directory. -/
theorem c60_counterexample_path :
    (onWrite (fun _ => "") exampleCfg {} exampleFS (asc "d") (asc "../../../etc/evil") [] 0 [6, 6, 6] 1).1 ["etc".toList, "evil".toList] =
      some (.file [6, 6, 6]) := by decide +kernel

/-- C60 fails: any file can be overwritten by naming it as device path. -/
theorem c60_counterexample_device :
    (onWrite (fun _ => "") exampleCfg {} exampleFS (asc "d") (asc "x") (asc "/etc/passwd") 0 [6, 6, 6] 0).1 ["etc".toList, "passwd".toList] =
      some (.file [6, 6, 6, 116]) := by decide +kernel

/-- C60 fails: a file is moved into the remote directory by naming it as device path in a final request. -/
theorem c60_counterexample_move :
    let fs := (onWrite (fun _ => "") exampleCfg {} exampleFS (asc "d") (asc "x") (asc "/etc/passwd") 0 [] 1).1
    fs ["etc".toList, "passwd".toList] = none ∧
    fs ["home".toList, "dataplicity".toList, "remote".toList, "x".toList] = some (.file [114, 111, 111, 116]) := by decide +kernel

/-- C60 fails: a directory with all its files is moved into the remote directory, from where they can be read. -/
theorem c60_counterexample_directory :
    let fs := (onWrite (fun _ => "") exampleCfg {} exampleFS (asc "d") (asc "x") (asc "/etc") 0 [] 1).1
    fs ["etc".toList] = none ∧ fs ["etc".toList, "passwd".toList] = none ∧
    fs ["home".toList, "dataplicity".toList, "remote".toList, "x".toList] = some .dir ∧
    fs ["home".toList, "dataplicity".toList, "remote".toList, "x".toList, "passwd".toList] = some (.file [114, 111, 111, 116]) := by
  decide +kernel

/-- C60 fails: and if the rename is not possible, directories are made on the way to the destination. -/
example :
    let fs := (onWrite (fun _ => "") exampleCfg { renameOk := false } exampleFS (asc "d") (asc "p/../q/x/") (asc "/etc") 0 [] 1).1
    fs ["etc".toList] = none ∧ fs ["home".toList, "dataplicity".toList, "remote".toList, "p".toList] = some .dir ∧
    fs ["home".toList, "dataplicity".toList, "remote".toList, "q".toList, "x".toList, "passwd".toList] =
      some (.file [114, 111, 111, 116]) := by
  decide +kernel

/-- A directory can not be moved into itself. -/
example : (onWrite (fun _ => "") exampleCfg {} exampleFS (asc "d") (asc "x") (asc "/home") 0 [] 1).2 =
    some [.ok ⟨writeResult, [.bytes (asc "d"), .int 0, .int 0, .bytes (asc "/home"), .int 3, .bytes []]⟩] := by decide +kernel

/-! ### C61 -/

/-- C61: if a chunk can not be written the reply has code 2 and the offset of the chunk, no place but that of the temporary file is
changed by this and by the clean-up, and if the system allows to remove the temporary file it is gone. -/
theorem c61_failed_chunk (r : PyVal → String) (c : Cfg) (env : WriteEnv) (fs : FS) (id path : Bytes) (dev : Text) (hdev : dev ≠ [])
    (offset : Int) (data : Bytes) (hne : data ≠ []) (final : Int)
    (hf : (writeChunk c.cwd env.write fs dev offset data).2 = false) :
    (onWrite r c env fs id path (utf8Encode dev) offset data final).2 =
      some [.ok ⟨writeResult, [.bytes id, .int offset, .int data.length, .bytes (utf8Encode dev), .int 2, .bytes (utf8Encode env.msg)]⟩] ∧
    (∀ k, (onWrite r c env fs id path (utf8Encode dev) offset data final).1 k ≠ fs k → k = lexKey (join c.cwd dev)) ∧
    (env.removeFails = false → (onWrite r c env fs id path (utf8Encode dev) offset data final).1.content c.cwd dev = none) := by
  have hie : data.isEmpty = false := by cases data with
    | nil => exact absurd rfl hne
    | cons a b => rfl
  rcases hq : writeChunk c.cwd env.write fs dev offset data with ⟨fs1, b⟩
  rw [hq] at hf
  simp only at hf
  subst hf
  have heq : onWrite r c env fs id path (utf8Encode dev) offset data final =
      (remove c.cwd env.removeFails fs1 dev, some [Packets.create r 32 [.bytes id, .int offset, .int data.length, .bytes (utf8Encode dev),
        .int 2, .bytes (utf8Encode env.msg)] []]) := by
    simp only [onWrite, utf8Decode_encode, hdev, if_false, hie, Bool.false_eq_true, hq]
  rw [heq]
  refine ⟨by rw [create32], ?_, ?_⟩
  · intro k hk
    apply Classical.byContradiction
    intro hn
    apply hk
    have h1 : remove c.cwd env.removeFails fs1 dev k = fs1 k := Classical.byContradiction fun h => hn (remove_only _ _ _ _ _ h)
    have h2 : (writeChunk c.cwd env.write fs dev offset data).1 k = fs k :=
      Classical.byContradiction fun h => hn (writeChunk_change _ _ _ _ _ _ _ h)
    rw [hq] at h2
    exact h1.trans h2
  · intro hr
    simp only [hr]
    exact remove_gone _ _ _

/-- C61: a chunk can not be written, for instance, at a negative offset, if there is no such file, or if the system fails. -/
theorem c61_cases (cwd : Text) (io : Io) (fs : FS) (dev : Text) (offset : Int) (data : Bytes)
    (h : offset < 0 ∨ fs.content cwd dev = none ∨ io ≠ .good) : (writeChunk cwd io fs dev offset data).2 = false := by
  simp only [writeChunk]
  split
  · rename_i hc
    split
    · rfl
    · rename_i ho
      split
      · rename_i hio
        rcases h with h | h | h
        · exact absurd (.inl h) ho
        · rw [hc] at h; simp at h
        · exact absurd rfl h
      · rfl
      · rfl
      · rfl
  · rfl

/-- C61 for the first chunk, which comes without device path: the same, except that the download folder may have been made. -/
theorem c61_failed_first (r : PyVal → String) (c : Cfg) (env : WriteEnv) (fs fs1 : FS) (idText : Text) (path : Bytes) (dev : Text)
    (hdev : dev ≠ []) (hadd : addDownload c env.mkdirFails env.createFails fs idText = (fs1, some dev))
    (offset : Int) (data : Bytes) (hne : data ≠ []) (final : Int)
    (hf : (writeChunk c.cwd env.write fs1 dev offset data).2 = false) :
    (onWrite r c env fs (utf8Encode idText) path [] offset data final).2 =
      some [.ok ⟨writeResult, [.bytes (utf8Encode idText), .int offset, .int data.length, .bytes (utf8Encode dev), .int 2,
        .bytes (utf8Encode env.msg)]⟩] ∧
    (∀ k, (onWrite r c env fs (utf8Encode idText) path [] offset data final).1 k ≠ fs k →
      k = lexKey (join c.cwd dev) ∨ (k = lexKey (join c.cwd (downloadDir c)) ∧ fs k = none)) ∧
    (env.removeFails = false → (onWrite r c env fs (utf8Encode idText) path [] offset data final).1.content c.cwd dev = none) := by
  have hsame : onWrite r c env fs (utf8Encode idText) path [] offset data final =
      onWrite r c env fs1 (utf8Encode idText) path (utf8Encode dev) offset data final := by
    simp only [onWrite, utf8Decode_encode, hdev, if_false]
    have : utf8Decode [] = some [] := rfl
    simp only [this, if_true, hadd]
  obtain ⟨h1, h2, h3⟩ := c61_failed_chunk r c env fs1 (utf8Encode idText) path dev hdev offset data hne final hf
  rw [hsame]
  refine ⟨h1, ?_, h3⟩
  intro k hk
  by_cases e : fs1 k = fs k
  · exact .inl (h2 k (by rw [e]; exact hk))
  · have := addDownload_change c env.mkdirFails env.createFails fs idText k (by rw [hadd]; exact e)
    rcases this with h | h
    · exact .inr h
    · exact .inl (by rw [h, (addDownload_some hadd).1])

/-- The first chunk fails: the file that was just created is removed. -/
example :
    let k := ["var".toList, "tmp".toList, "dataplicity_remote_downloads".toList, "d".toList]
    let out := onWrite (fun _ => "") exampleCfg { write := .fails (some 1) } exampleFS (asc "d") (asc "c") [] 0 [3, 4] 1
    (addDownload exampleCfg false false exampleFS "d".toList).1 k = some (.file []) ∧ out.1 k = none ∧
    out.2 = some [.ok ⟨writeResult, [.bytes (asc "d"), .int 0, .int 2, .bytes (asc "/var/tmp/dataplicity_remote_downloads/d"), .int 2,
      .bytes []]⟩] := by decide +kernel

/-- The second chunk fails half way. -/
example :
    let fs := (onWrite (fun _ => "") exampleCfg {} exampleFS (asc "d") (asc "c") [] 0 [1, 2] 0).1
    let k := ["var".toList, "tmp".toList, "dataplicity_remote_downloads".toList, "d".toList]
    let out := onWrite (fun _ => "") exampleCfg { write := .fails (some 1) } fs (asc "d") (asc "c")
      (asc "/var/tmp/dataplicity_remote_downloads/d") 2 [3, 4] 1
    fs k = some (.file [1, 2]) ∧ out.1 k = none := by decide +kernel

end Verif.RemoteDirectory
