import Verif.Proofs.Links
/-!
Properties C125-C127: symbolic links in and around the remote directory.
-/
namespace Verif.Links
open Verif Path
open _root_.Verif.RemoteDirectory (Cfg GoesUp Tame Plain snapDir uploadFile OpenEnv ReadEnv CloseEnv Io Err seekRead exampleCfg)

/-- An example: the remote directory with a link to a file and one to a directory outside, one to a file inside, and two that lead in a
circle; and a snapshot folder in which somebody has put a link. -/
def linkFS : LFS := fun k =>
  if k = [] ∨ k = ["var".toList] ∨ k = ["var".toList, "tmp".toList] ∨ k = ["var".toList, "tmp".toList, "dataplicity_remote".toList] ∨
    k = ["home".toList] ∨ k = ["home".toList, "dataplicity".toList] ∨
    k = ["home".toList, "dataplicity".toList, "remote".toList] ∨ k = ["etc".toList] ∨ k = ["tmp".toList] then some .dir
  else if k = ["etc".toList, "passwd".toList] then some (.file [114, 111, 111, 116])
  else if k = ["home".toList, "dataplicity".toList, "remote".toList, "a".toList] then some (.file [1, 2, 3, 4, 5])
  else if k = ["home".toList, "dataplicity".toList, "remote".toList, "in".toList] then some (.link "./a".toList)
  else if k = ["home".toList, "dataplicity".toList, "remote".toList, "out".toList] then some (.link "../../../etc/passwd".toList)
  else if k = ["home".toList, "dataplicity".toList, "remote".toList, "etc".toList] then some (.link "/etc".toList)
  else if k = ["home".toList, "dataplicity".toList, "remote".toList, "x".toList] then some (.link "y".toList)
  else if k = ["home".toList, "dataplicity".toList, "remote".toList, "y".toList] then some (.link "x".toList)
  else if k = ["var".toList, "tmp".toList, "dataplicity_remote".toList, "trap".toList] then some (.link "/etc/passwd".toList)
  else if k = ["tmp".toList, "__dataplicity_remote_directory_scan___.json".toList] then some (.link "/etc/passwd".toList)
  else none

/-- A file system given by a list. -/
def ofList (l : List (List Text × LNode)) : LFS := fun k => l.lookup k

theorem lookup_mem {l : List (List Text × LNode)} {k : List Text} {n : LNode} (h : l.lookup k = some n) : (k, n) ∈ l := by
  induction l with
  | nil => exact (nomatch h)
  | cons x l ih =>
    obtain ⟨k', n'⟩ := x
    rw [List.lookup_cons] at h
    split at h
    · rename_i e
      injection h with h
      rw [h, eq_of_beq e]
      exact List.mem_cons_self
    · exact List.mem_cons_of_mem _ (ih h)

theorem ofList_tree (l : List (List Text × LNode)) (h0 : ofList l [] = some .dir)
    (h : ∀ x ∈ l, x.1 ≠ [] → ofList l x.1.dropLast = some .dir) : Tree (ofList l) := by
  refine ⟨h0, fun k name hn => ?_⟩
  cases hx : ofList l (k ++ [name]) with
  | none => exact absurd hx hn
  | some n =>
    have := h _ (lookup_mem hx) (by simp)
    simpa using this

/-- Does this entry, if it is a link in the directory `R`, lead to a place inside `R`, however many links are allowed? -/
def staysIn (l : List (List Text × LNode)) (R : List Text) (x : List Text × LNode) : Bool := match x.2 with
  | .link t => !R.isPrefixOf x.1.dropLast || (List.range 41).all (fun n =>
    match (ofList l).walk true n (LFS.base x.1.dropLast t) (splitOn '/' t) with
    | some key => R.isPrefixOf key
    | none => true)
  | _ => true

theorem ofList_contained (l : List (List Text × LNode)) (R : List Text) (h : l.all (staysIn l R) = true) : Contained (ofList l) R := by
  intro k name t hk ht n key hn hw
  have := List.all_eq_true.1 h _ (lookup_mem ht)
  simp only [staysIn, List.dropLast_concat, List.isPrefixOf_iff_prefix.2 hk, Bool.not_true, Bool.false_or] at this
  have := List.all_eq_true.1 this n (List.mem_range.2 (by omega))
  rw [show (ofList l).walk true n (LFS.base k t) (splitOn '/' t) = some key from hw] at this
  exact List.isPrefixOf_iff_prefix.1 this

/-- A remote directory that is itself reached through a link, with links inside, among them a link to a link. -/
def safeList : List (List Text × LNode) :=
  [([], .dir), (["var".toList], .dir), (["var".toList, "tmp".toList], .dir), (["var".toList, "tmp".toList, "dataplicity_remote".toList], .dir),
   (["home".toList], .dir), (["home".toList, "dataplicity".toList], .link "/disk".toList), (["disk".toList], .dir),
   (["disk".toList, "remote".toList], .dir), (["disk".toList, "remote".toList, "a".toList], .file [1, 2, 3, 4, 5]),
   (["disk".toList, "remote".toList, "in".toList], .link "sub/../a".toList),
   (["disk".toList, "remote".toList, "sub".toList], .dir),
   (["disk".toList, "remote".toList, "sub".toList, "b".toList], .link "/home/dataplicity/remote/in".toList)]

def safeRoot : List Text := ["disk".toList, "remote".toList]

theorem safe_tree : Tree (ofList safeList) := ofList_tree _ (by decide +kernel) (by decide +kernel)

theorem safe_contained : Contained (ofList safeList) safeRoot := ofList_contained _ _ (by decide +kernel)

/-! ### C125 -/

theorem read_stored {c : Cfg} {fs : LFS} {id : Text} {d : Bytes} (hd : fs.isDir c.cwd (snapDir c) = true)
    (hc : fs.content c.cwd (join (snapDir c) id) = some d) (o s : Nat) (ho : (o : Int) ≤ maxSize) (hs : (s : Int) ≤ maxSize) :
    (readUpload c {} fs id o s).2 = .ok ((d.drop o).take s) := by
  have hr : seekRead d o s = some ((d.drop o).take s) := by
    simp only [seekRead]
    rw [if_neg (by omega), if_neg (by omega)]
    simp only [Int.toNat_natCast]
  simp only [readUpload, getSnapshotPath_dir _ _ _ hd, hc, hr]
  rfl

/-- C125, the part that holds: the links inside the remote directory lead to places inside it, or nowhere.  Then what is served for a
request is a file inside the place to which the path of the remote directory leads: the size reported is its size, and reads return its
bytes.  Missing for the full claim: links that lead out, see `c125_counterexample`. -/
theorem c125_inside_partial (c : Cfg) (hs : c.Sane) (env : OpenEnv) (fs fs' : LFS) (ht : Tree fs)
    (hd : fs.isDir c.cwd (snapDir c) = true) (R : List Text) (hroot : fs.place c.cwd c.root = some R) (hcont : Contained fs R)
    (path id : Text) (hsp : path.head? ≠ some (Char.ofNat 0)) (n : Nat) (h : addUpload c env fs path id = (fs', .ok n)) :
    ∃ k d, R <+: k ∧ fs k = some (.file d) ∧ n = d.length ∧
      ∀ o s : Nat, (o : Int) ≤ maxSize → (s : Int) ≤ maxSize → (readUpload c {} fs' id o s).2 = .ok ((d.drop o).take s) := by
  obtain ⟨f, d, k', hf, hc, hw, hne, rfl, d', hd', rfl⟩ := addUpload_ok hd h
  rw [stored_content ht hw] at hd'
  injection hd' with hd'
  subst hd'
  obtain ⟨k, hk, hkd⟩ := content_some hc
  refine ⟨k, d, ?_, hkd, rfl, fun o s ho hs' => read_stored (isDir_set ht hw d hd) (stored_content ht hw d) o s ho hs'⟩
  rw [RemoteDirectory.uploadFile_plain c path hsp] at hf
  split at hf
  · rename_i hv
    injection hf with hf
    subst hf
    have hup := (RemoteDirectory.uploadFile_valid c hs.root hs.rootUp path).1 hv
    obtain ⟨A, B, h1, h2, h3, h4⟩ := join_below hs hup
    have hw := (place_walk hk).1
    rw [join_abs _ _ (join_head _ _ hs.root), h1] at hw
    have hr := (place_walk hroot).1
    rw [join_abs _ _ hs.root] at hr
    exact walk_below hs.rootUp h2 h3 (.inl h4) hr hcont hw
  · exact (nomatch hf)

/-- C125 exactly: an accepted open request does not go up, and serves the file to which the requested path leads by links, wherever that lies; the copy
is put at the place to which the name of the snapshot leads, and nothing else changes. -/
theorem c125_exact (c : Cfg) (hs : c.Sane) (env : OpenEnv) (fs fs' : LFS) (ht : Tree fs)
    (hd : fs.isDir c.cwd (snapDir c) = true) (path id : Text) (hsp : path.head? ≠ some (Char.ofNat 0)) (n : Nat)
    (h : addUpload c env fs path id = (fs', .ok n)) :
    ¬ GoesUp path ∧ ∃ k d k', fs.place c.cwd (join c.root (lstripSlash path)) = some k ∧ fs k = some (.file d) ∧ n = d.length ∧
      fs.place c.cwd (join (snapDir c) id) = some k' ∧ k ≠ k' ∧ fs' k' = some (.file d) ∧ (∀ j, j ≠ k' → fs' j = fs j) ∧
      ∀ o s : Nat, (o : Int) ≤ maxSize → (s : Int) ≤ maxSize → (readUpload c {} fs' id o s).2 = .ok ((d.drop o).take s) := by
  obtain ⟨f, d, k', hf, hc, hw, hne, rfl, d', hd', rfl⟩ := addUpload_ok hd h
  rw [stored_content ht hw] at hd'
  injection hd' with hd'
  subst hd'
  obtain ⟨k, hk, hkd⟩ := content_some hc
  rw [RemoteDirectory.uploadFile_plain c path hsp] at hf
  split at hf
  · rename_i hv
    injection hf with hf
    subst hf
    refine ⟨(RemoteDirectory.uploadFile_valid c hs.root hs.rootUp path).1 hv, k, d, k', hk, hkd, rfl, (writable_some hw).1, ?_, set_self _ _ _,
      fun j hj => set_other _ _ hj, fun o s ho hs' => read_stored (isDir_set ht hw d hd) (stored_content ht hw d) o s ho hs'⟩
    intro e
    exact hne (by rw [hk, e])
  · exact (nomatch hf)

/-- C125 fails if a link leads out: whatever file a requested path leads to by links, wherever it is, is served. -/
theorem c125_follows_false (c : Cfg) (hs : c.Sane) (fs : LFS) (ht : Tree fs) (hd : fs.isDir c.cwd (snapDir c) = true)
    (path id : Text) (hsp : path.head? ≠ some (Char.ofNat 0)) (hup : ¬ GoesUp path) (k k' : List Text) (d : Bytes)
    (hk : fs.place c.cwd (join c.root (lstripSlash path)) = some k) (hkd : fs k = some (.file d))
    (hid : id.head? ≠ some '/') (hw : fs.writable c.cwd (join (snapDir c) id) = some k') (hne : k ≠ k') :
    (addUpload c ⟨none, false, false, .good, false, [], 4096⟩ fs path id).2 = .ok d.length ∧
    ∀ o s : Nat, (o : Int) ≤ maxSize → (s : Int) ≤ maxSize →
      (readUpload c {} (addUpload c ⟨none, false, false, .good, false, [], 4096⟩ fs path id).1 id o s).2 = .ok ((d.drop o).take s) := by
  have hf : uploadFile c path = .ok (join c.root (lstripSlash path)) := by
    rw [RemoteDirectory.uploadFile_plain c path hsp, if_pos ((RemoteDirectory.uploadFile_valid c hs.root hs.rootUp path).2 hup)]
  have hpre : startsWith c.temp (join (snapDir c) id) = true := by
    rw [startsWith_iff]
    refine List.IsPrefix.trans (join_prefix c.temp _ ?_) (join_prefix _ _ hid)
    decide
  have hcp : copyfile c .good fs (join c.root (lstripSlash path)) (join (snapDir c) id) = (fs.set k' (some (.file d)), true) := by
    simp only [copyfile, content_of hk hkd, hw, hk]
    rw [if_neg (fun e => hne (Option.some.inj e))]
  have hall : addUpload c ⟨none, false, false, .good, false, [], 4096⟩ fs path id = (fs.set k' (some (.file d)), .ok d.length) := by
    simp only [addUpload, hf, lowSpace, getSnapshotPath_dir _ _ _ hd, hpre, hcp, stored_content ht hw]
    rfl
  rw [hall]
  exact ⟨rfl, fun o s ho hs' => read_stored (isDir_set ht hw d hd) (stored_content ht hw d) o s ho hs'⟩

/-- C125 fails: a file outside is served through a link to it, and through a link to its directory. -/
theorem c125_counterexample :
    (readUpload exampleCfg {} (addUpload exampleCfg ⟨none, false, false, .good, false, [], 4096⟩ linkFS "out".toList "i".toList).1
      "i".toList 0 100).2 = .ok [114, 111, 111, 116] ∧
    (readUpload exampleCfg {} (addUpload exampleCfg ⟨none, false, false, .good, false, [], 4096⟩ linkFS "etc/passwd".toList "i".toList).1
      "i".toList 0 100).2 = .ok [114, 111, 111, 116] := by decide +kernel

theorem exampleCfg_sane : exampleCfg.Sane :=
  Cfg.init_sane ['/'] _ _ _ _ (by decide +kernel) (by decide +kernel) (by rw [← RemoteDirectory.validatePath_iff]; decide +kernel)

def subB : Text := "sub/b".toList
def idI : Text := "i".toList
def noTrouble : OpenEnv := ⟨none, false, false, .good, false, [], 4096⟩

/-- The conditions of `c125_inside_partial` hold in the example, and the request for `sub/b` is accepted. -/
example : ∃ k d, safeRoot <+: k ∧ ofList safeList k = some (.file d) ∧ 5 = d.length ∧
    ∀ o s : Nat, (o : Int) ≤ maxSize → (s : Int) ≤ maxSize → (readUpload exampleCfg {}
      (addUpload exampleCfg noTrouble (ofList safeList) subB idI).1 idI o s).2 = .ok ((d.drop o).take s) := by
  have h1 : (ofList safeList).isDir exampleCfg.cwd (snapDir exampleCfg) = true := by decide +kernel
  have h2 : (ofList safeList).place exampleCfg.cwd exampleCfg.root = some safeRoot := by decide +kernel
  have h3 : subB.head? ≠ some (Char.ofNat 0) := by decide +kernel
  have h4 : (addUpload exampleCfg noTrouble (ofList safeList) subB idI).2 = .ok 5 := by decide +kernel
  have h5 : addUpload exampleCfg noTrouble (ofList safeList) subB idI =
      ((addUpload exampleCfg noTrouble (ofList safeList) subB idI).1, .ok 5) := by rw [← h4]
  exact c125_inside_partial exampleCfg exampleCfg_sane noTrouble (ofList safeList) _ safe_tree h1 safeRoot h2 safe_contained subB idI h3 5 h5

/-- Links inside are followed, circles are an error. -/
example :
    (addUpload exampleCfg ⟨none, false, false, .good, false, [], 4096⟩ linkFS "in".toList "i".toList).2 = .ok 5 ∧
    (addUpload exampleCfg ⟨none, false, false, .good, false, [], 4096⟩ linkFS "x".toList "i".toList).2 = .error (.add []) := by
  decide +kernel

/-- Without links this is the model of C52-C61. -/
theorem c125_same (c : Cfg) (fs : FS) (id : Text) :
    (∀ env path, addUpload c env (plain fs) path id =
      (plain (RemoteDirectory.addUpload c env fs path id).1, (RemoteDirectory.addUpload c env fs path id).2)) ∧
    (∀ env o s, readUpload c env (plain fs) id o s =
      (plain (RemoteDirectory.readUpload c env fs id o s).1, (RemoteDirectory.readUpload c env fs id o s).2)) ∧
    (∀ env, closeUpload c env (plain fs) id = plain (RemoteDirectory.closeUpload c env fs id)) := by
  refine ⟨fun env path => ?_, fun env o s => ?_, fun env => ?_⟩
  · simp only [addUpload, RemoteDirectory.addUpload, plain_lowSpace, plain_getSnapshotPath]
    cases uploadFile c path with
    | error e => rfl
    | ok f =>
      simp only
      split
      · rfl
      · rcases RemoteDirectory.getSnapshotPath c env.mkdirFails fs id with ⟨fs1, e | snap⟩
        · rfl
        · simp only
          split
          · rfl
          · rw [plain_copyfile]
            rcases RemoteDirectory.copyfile c env.copy fs1 f snap with ⟨fs2, _ | _⟩
            · rfl
            · simp only [plain_content]
              cases fs2.content c.cwd snap with
              | none => rfl
              | some d => simp only; split <;> rfl
  · simp only [readUpload, RemoteDirectory.readUpload, plain_getSnapshotPath]
    rcases RemoteDirectory.getSnapshotPath c env.mkdirFails fs id with ⟨fs1, e | snap⟩
    · rfl
    · simp only [plain_content]
      split
      · rfl
      · cases fs1.content c.cwd snap with
        | none => rfl
        | some d =>
          simp only
          cases seekRead d o s <;> rfl
  · simp only [closeUpload, RemoteDirectory.closeUpload, plain_getSnapshotPath]
    rcases RemoteDirectory.getSnapshotPath c env.mkdirFails fs id with ⟨fs1, e | snap⟩
    · rfl
    · simp only [plain_pathExists]
      split
      · exact plain_remove _ _ _ _
      · rfl

/-! ### C126 -/

/-- A plain name in a directory that a path leads to. -/
theorem walk_in {fs : LFS} {cwd dir name : Text} {S k : List Text} {last : Bool} (hh : dir.head? = some '/') (hn : Plain name)
    (hS : fs.place cwd dir = some S) (hl : last = false ∨ NoLink fs (S ++ [name]))
    (h : fs.walk last LFS.maxLinks [] (splitOn '/' (join cwd (join dir name))) = some k) : k = S ++ [name] := by
  have hne := RemoteDirectory.ne_nil_of_head hh
  have hslash : name.head? ≠ some '/' := by
    intro e
    cases name with
    | nil => exact (nomatch e)
    | cons x r => simp only [List.head?_cons, Option.some.injEq] at e; exact hn.2.2.2 (by simp [e])
  have hstep : ∀ K, lexStep K name = K ++ [name] := by
    intro K
    simp only [lexStep, hn.1, hn.2.1, hn.2.2.1, or_self, if_false]
  have hw := (place_walk hS).1
  rw [join_abs _ _ hh] at hw
  rw [join_abs _ _ (join_head _ _ hh)] at h
  have hsplit : ∃ A, splitOn '/' (join dir name) = A ++ [name] ∧ Thin A (splitOn '/' dir) := by
    simp only [join, hslash, if_false, hne, false_or]
    split
    · rename_i hlast
      obtain ⟨a', rfl⟩ : ∃ a', dir = a' ++ ['/'] := List.getLast?_eq_some_iff.1 hlast
      refine ⟨splitOn '/' a', ?_, ?_⟩
      · rw [List.append_assoc]
        exact (splitOn_append '/' a' name).trans (by rw [splitOn_plain _ _ hn.2.2.2])
      · rw [show splitOn '/' (a' ++ ['/']) = splitOn '/' a' ++ [[]] from splitOn_append '/' a' []]
        have := Thin.append (splitOn '/' a') (Thin.drop [] (.inl rfl) Thin.nil)
        rw [List.append_nil] at this
        exact this
    · exact ⟨_, (splitOn_append '/' dir name).trans (by rw [splitOn_plain _ _ hn.2.2.2]), Thin.refl _⟩
  obtain ⟨A, hA, hthin⟩ := hsplit
  rw [hA] at h
  obtain ⟨m, k', h1, h2, h3⟩ := walk_append _ _ (.inl (by simp)) h
  have e := walk_thin _ hthin hw
  rw [e] at h2
  injection h2 with h2
  subst h2
  obtain ⟨hd, h3 | h3 | h3⟩ := walk_cases h3
  · obtain ⟨_, _, _, _, e⟩ := h3
    rw [e, hstep]
  · obtain ⟨t, m', ht, hnl, -, -⟩ := h3
    rcases hl with hl | hl
    · exact absurd ⟨rfl, hl⟩ hnl
    · rw [hstep] at ht
      exact absurd ht (hl t)
  · have := h3.2
    rw [walk_nil, hstep] at this
    injection this with this
    exact this.symm

/-- C126, the part that holds for uploads: the snapshot folder exists, the upload id is a plain name, and nobody has put a link there under
this name.  Then opening changes only this file in the folder to which the path of the snapshot folder leads, and reading changes nothing
and gives bytes of this file only.  Missing for the full claim: the agent does not look whether there is a link, see
`c126_counterexample_upload`. -/
theorem c126_upload_partial (c : Cfg) (hs : c.Sane) (fs : LFS) (S : List Text) (hS : fs.place c.cwd (snapDir c) = some S)
    (hdir : fs S = some .dir) (id : Text) (hid : Plain id) (hl : NoLink fs (S ++ [id])) :
    (∀ env path k, (addUpload c env fs path id).1 k ≠ fs k → k = S ++ [id]) ∧
    (∀ env o s, (readUpload c env fs id o s).1 = fs ∧ ∀ r, (readUpload c env fs id o s).2 = .ok r →
      ∃ d, fs (S ++ [id]) = some (.file d) ∧ seekRead d o s = some r) := by
  have hd : fs.isDir c.cwd (snapDir c) = true := (isDir_iff _ _ _).2 ⟨S, hS, hdir⟩
  have hh : (snapDir c).head? = some '/' := join_head _ _ hs.temp
  refine ⟨fun env path k h => ?_, fun env o s => ?_⟩
  · simp only [addUpload] at h
    split at h
    · exact absurd rfl h
    · split at h
      · exact absurd rfl h
      · rw [getSnapshotPath_dir _ _ _ hd] at h
        simp only at h
        split at h
        · exact absurd rfl h
        · rename_i f _ _ _
          have key : ∀ k, (copyfile c env.copy fs f (join (snapDir c) id)).1 k ≠ fs k → k = S ++ [id] := fun k hk =>
            walk_in hh hid hS (.inr hl) (place_walk (writable_some (copyfile_change hk)).1).1
          revert h key
          rcases copyfile c env.copy fs f (join (snapDir c) id) with ⟨fs1, _ | _⟩
          · exact fun h key => key k h
          · intro h key
            apply key k
            simp only at h ⊢
            split at h
            · split at h <;> exact h
            · exact h
  · simp only [readUpload, getSnapshotPath_dir _ _ _ hd]
    split
    · exact ⟨rfl, fun r h => (nomatch h)⟩
    · cases hc : fs.content c.cwd (join (snapDir c) id) with
      | none => exact ⟨rfl, fun r h => (nomatch h)⟩
      | some d =>
        simp only
        cases hr : seekRead d o s with
        | none => exact ⟨rfl, fun r h => (nomatch h)⟩
        | some r =>
          refine ⟨rfl, fun r' h => ?_⟩
          injection h with h
          subst h
          obtain ⟨k, h1, h2⟩ := content_some hc
          rw [walk_in hh hid hS (.inr hl) (place_walk h1).1] at h2
          exact ⟨d, h2, hr⟩

/-- C126: closing an upload removes only the entry with its name, whether it is a file or a link, and never what a link leads to. -/
theorem c126_close (c : Cfg) (hs : c.Sane) (fs : LFS) (S : List Text) (hS : fs.place c.cwd (snapDir c) = some S)
    (hdir : fs S = some .dir) (id : Text) (hid : Plain id) (env : CloseEnv) (k : List Text) (h : closeUpload c env fs id k ≠ fs k) :
    k = S ++ [id] ∧ closeUpload c env fs id k = none := by
  have hd : fs.isDir c.cwd (snapDir c) = true := (isDir_iff _ _ _).2 ⟨S, hS, hdir⟩
  have hh : (snapDir c).head? = some '/' := join_head _ _ hs.temp
  simp only [closeUpload, getSnapshotPath_dir _ _ _ hd] at h ⊢
  split at h
  · rename_i hx
    rw [if_pos hx]
    obtain ⟨he, hn⟩ := remove_change h
    refine ⟨?_, hn⟩
    simp only [LFS.entry] at he
    split at he
    · exact (nomatch he)
    · exact walk_in hh hid hS (.inl rfl) he
  · exact absurd rfl h

/-- C126, the part that holds for scans: nobody has put a link with the fixed name of the scan file into the folder for temporary files.  Then
only this file in this folder is changed.  Missing for the full claim: the agent does not look whether there is a link, see
`c126_counterexample_scan`. -/
theorem c126_scan_partial (c : Cfg) (ht : c.sysTemp.head? = some '/') (fs : LFS) (T : List Text) (hT : fs.place c.cwd c.sysTemp = some T)
    (hl : NoLink fs (T ++ [scanName])) (io : Io) (json : Bytes) (k : List Text) (h : (writeScan c io fs json).1 k ≠ fs k) :
    k = T ++ [scanName] := by
  simp only [writeScan] at h
  split at h
  · rename_i k' hw
    have hk' : k' = T ++ [scanName] :=
      walk_in (name := scanName) ht (by decide +kernel) hT (.inr hl) (place_walk (writable_some hw).1).1
    by_cases e : k = k'
    · rw [e, hk']
    · split at h
      · exact absurd (set_other _ _ e) h
      · exact absurd rfl h
      · exact absurd (set_other _ _ e) h
  · exact absurd rfl h

/-- C126: if storing a scan succeeds, who reads the file gets the scan; if not, the file is what it was or holds the beginning of the scan. -/
theorem c126_scan_stored (c : Cfg) (fs : LFS) (ht : Tree fs) (io : Io) (json : Bytes) :
    let p := join c.sysTemp scanName
    let out := writeScan c io fs json
    (out.2 = true → out.1.content c.cwd p = some json) ∧
    (out.2 = false → out.1 = fs ∨ ∃ d, out.1.content c.cwd p = some d ∧ d <+: json) := by
  have key : ∀ k d, fs.writable c.cwd (join c.sysTemp scanName) = some k →
      (fs.set k (some (.file d))).content c.cwd (join c.sysTemp scanName) = some d := by
    intro k d hk
    obtain ⟨h1, h2⟩ := writable_some hk
    refine content_of (k := k) ?_ (set_self _ _ _)
    rw [place_set h2 (place_nolink ht h1)]
    exact h1
  show ((writeScan c io fs json).2 = true → (writeScan c io fs json).1.content c.cwd (join c.sysTemp scanName) = some json) ∧
    ((writeScan c io fs json).2 = false → (writeScan c io fs json).1 = fs ∨
      ∃ d, (writeScan c io fs json).1.content c.cwd (join c.sysTemp scanName) = some d ∧ d <+: json)
  simp only [writeScan]
  split
  · rename_i k hw
    split
    · exact ⟨fun _ => key k json hw, fun h => (nomatch h)⟩
    · exact ⟨fun h => (nomatch h), fun _ => .inl rfl⟩
    · rename_i n
      exact ⟨fun h => (nomatch h), fun _ => .inr ⟨_, key k _ hw, List.take_prefix n json⟩⟩
  · exact ⟨fun h => (nomatch h), fun _ => .inl rfl⟩

/-- C126, exact for uploads: an open request that succeeds writes exactly one file, at one place, and this is the entry of the snapshot folder with
the name of the upload precisely if there is no link with this name. -/
theorem c126_upload_iff (c : Cfg) (hs : c.Sane) (fs : LFS) (htree : Tree fs) (S : List Text) (hS : fs.place c.cwd (snapDir c) = some S)
    (hdir : fs S = some .dir) (id : Text) (hid : Plain id) (env : OpenEnv) (path : Text) (fs' : LFS) (n : Nat)
    (h : addUpload c env fs path id = (fs', .ok n)) :
    ∃ P d, (∀ k, k ≠ P → fs' k = fs k) ∧ fs' P = some (.file d) ∧ (P = S ++ [id] ↔ NoLink fs (S ++ [id])) := by
  have hd : fs.isDir c.cwd (snapDir c) = true := (isDir_iff _ _ _).2 ⟨S, hS, hdir⟩
  have hh : (snapDir c).head? = some '/' := join_head _ _ hs.temp
  obtain ⟨f, d, k, -, -, hw, -, rfl, -⟩ := addUpload_ok hd h
  have hp := (writable_some hw).1
  exact ⟨k, d, fun k' hk => set_other _ _ hk, set_self _ _ _, fun e => e ▸ place_nolink htree hp,
    fun hl => walk_in hh hid hS (.inr hl) (place_walk hp).1⟩

/-- C126, exact for uploads: a read request that succeeds gives bytes of one file, and this is the entry of the snapshot folder with the name of
the upload precisely if there is no link with this name. -/
theorem c126_read_iff (c : Cfg) (hs : c.Sane) (fs : LFS) (htree : Tree fs) (S : List Text) (hS : fs.place c.cwd (snapDir c) = some S)
    (hdir : fs S = some .dir) (id : Text) (hid : Plain id) (env : ReadEnv) (o s : Int) (r : Bytes)
    (h : (readUpload c env fs id o s).2 = .ok r) :
    ∃ P d, fs P = some (.file d) ∧ seekRead d o s = some r ∧ (P = S ++ [id] ↔ NoLink fs (S ++ [id])) := by
  have hd : fs.isDir c.cwd (snapDir c) = true := (isDir_iff _ _ _).2 ⟨S, hS, hdir⟩
  have hh : (snapDir c).head? = some '/' := join_head _ _ hs.temp
  simp only [readUpload, getSnapshotPath_dir _ _ _ hd] at h
  split at h
  · exact (nomatch h)
  · cases hc : fs.content c.cwd (join (snapDir c) id) with
    | none => simp only [hc] at h; exact (nomatch h)
    | some d =>
      simp only [hc] at h
      cases hr : seekRead d o s with
      | none => simp only [hr] at h; exact (nomatch h)
      | some r' =>
        simp only [hr] at h
        injection h with h
        subst h
        obtain ⟨k, h1, h2⟩ := content_some hc
        exact ⟨k, d, h2, hr, fun e => e ▸ place_nolink htree h1, fun hl => walk_in hh hid hS (.inr hl) (place_walk h1).1⟩

/-- C126, exact for scans: storing a scan, if it succeeds, writes exactly one file, at one place, and this is the entry of the folder for temporary
files with the fixed name precisely if there is no link with this name. -/
theorem c126_scan_iff (c : Cfg) (ht : c.sysTemp.head? = some '/') (fs : LFS) (htree : Tree fs) (T : List Text)
    (hT : fs.place c.cwd c.sysTemp = some T) (io : Io) (json : Bytes) (h : (writeScan c io fs json).2 = true) :
    ∃ P, (∀ k, k ≠ P → (writeScan c io fs json).1 k = fs k) ∧ (writeScan c io fs json).1 P = some (.file json) ∧
      (P = T ++ [scanName] ↔ NoLink fs (T ++ [scanName])) := by
  simp only [writeScan] at h ⊢
  split at h
  · rename_i k hw
    have hp := (writable_some hw).1
    cases io with
    | good =>
      exact ⟨k, fun k' hk => set_other _ _ hk, set_self _ _ _, fun e => e ▸ place_nolink htree hp,
        fun hl => walk_in (name := scanName) ht (by decide +kernel) hT (.inr hl) (place_walk hp).1⟩
    | fails n => cases n <;> exact (nomatch h)
  · exact (nomatch h)
/-- With a link of this name the file to which it leads is written, without one the entry. -/
example : (∀ t, linkFS (["var".toList, "tmp".toList, "dataplicity_remote".toList] ++ [idI]) ≠ some (.link t)) ∧
    linkFS (["var".toList, "tmp".toList, "dataplicity_remote".toList] ++ ["trap".toList]) = some (.link "/etc/passwd".toList) := by
  refine ⟨fun t => ?_, by decide +kernel⟩
  rw [show linkFS (["var".toList, "tmp".toList, "dataplicity_remote".toList] ++ [idI]) = none by decide +kernel]
  exact fun h => (nomatch h)

/-- C126 fails: the link `trap` in the snapshot folder leads the agent to overwrite a file outside, and to send its contents. -/
theorem c126_counterexample_upload :
    (addUpload exampleCfg ⟨none, false, false, .good, false, [], 4096⟩ linkFS "a".toList "trap".toList).1
      ["etc".toList, "passwd".toList] = some (.file [1, 2, 3, 4, 5]) ∧
    (readUpload exampleCfg {} linkFS "trap".toList 0 100).2 = .ok [114, 111, 111, 116] := by decide +kernel

/-- C126 fails: the link with the fixed name of the scan file leads the agent to overwrite a file outside. -/
theorem c126_counterexample_scan :
    (writeScan exampleCfg .good linkFS [123, 125]).1 ["etc".toList, "passwd".toList] = some (.file [123, 125]) := by decide +kernel

/-- Where there is no link the snapshot is in the folder. -/
example : (addUpload exampleCfg noTrouble linkFS "a".toList idI).1
      ["var".toList, "tmp".toList, "dataplicity_remote".toList, "i".toList] = some (.file [1, 2, 3, 4, 5]) ∧
    linkFS.place exampleCfg.cwd (snapDir exampleCfg) = some ["var".toList, "tmp".toList, "dataplicity_remote".toList] := by decide +kernel

/-- Closing removes the link only. -/
example : closeUpload exampleCfg {} linkFS "trap".toList ["var".toList, "tmp".toList, "dataplicity_remote".toList, "trap".toList] = none ∧
    closeUpload exampleCfg {} linkFS "trap".toList ["etc".toList, "passwd".toList] = some (.file [114, 111, 111, 116]) := by decide +kernel

/-! ### C127 -/

/-- C127, the part that holds: the links inside the remote directory lead to places inside it, or nowhere, and the requested path does not
go up.  Then the end of a download changes only the temporary file and places inside the place of the remote directory.  Missing for the full
claim: links that lead out, see `c127_counterexample`, and paths that go up, see C60. -/
theorem c127_inside_partial (c : Cfg) (hs : c.Sane) (fs : LFS) (R : List Text) (hroot : fs.place c.cwd c.root = some R)
    (hcont : Contained fs R) (path : Text) (hp : ¬ GoesUp path) (renameOk unlinkOk : Bool) (io : Io) (dev : Text) (k : List Text)
    (h : (copyDownload c renameOk io unlinkOk fs dev (utf8Encode path)).1 k ≠ fs k) :
    fs.entry c.cwd dev = some k ∨ R <+: k := by
  have hr := (place_walk hroot).1
  rw [join_abs _ _ hs.root] at hr
  simp only [copyDownload] at h
  split at h
  · exact absurd rfl h
  · rename_i dest hdest
    obtain ⟨⟨A, B, h1, h2, h3, h4⟩, habs, -⟩ := destination_below hs hp hdest
    split at h
    · exact absurd rfl h
    · rename_i k1 hk1
      by_cases e1 : k = k1
      · left; rw [e1]; exact hk1
      · right
        have hine : ∀ e, fs.entry c.cwd dest = some e → R <+: e := by
          intro e he
          simp only [LFS.entry] at he
          split at he
          · exact (nomatch he)
          · rw [join_abs _ _ habs, h1] at he
            exact walk_below hs.rootUp h2 h3 (.inl h4) hr hcont he
        split at h
        · split at h
          · rename_i w e he
            have hin := hine e he
            split at h
            · by_cases e2 : k = e
              · rw [e2]; exact hin
              · exact absurd ((set_other _ _ e2).trans (set_other _ _ e1)) h
            · split at h
              · exact absurd rfl h
              · rename_i k2 hk2
                have hin2 : R <+: k2 := by
                  have := (place_walk (writable_some hk2).1).1
                  rw [join_abs _ _ habs, h1] at this
                  exact walk_below hs.rootUp h2 h3 (.inl h4) hr hcont this
                by_cases e2 : k = k2
                · rw [e2]; exact hin2
                · split at h
                  · split at h
                    · exact absurd ((set_other _ _ e2).trans (set_other _ _ e1)) h
                    · exact absurd (set_other _ _ e2) h
                  · exact absurd rfl h
                  · exact absurd (set_other _ _ e2) h
          · exact absurd rfl h
        · split at h
          · rename_i e he
            have hin := hine e he
            by_cases e2 : k = e
            · rw [e2]; exact hin
            · split at h
              · exact absurd ((set_other _ _ e2).trans (set_other _ _ e1)) h
              · split at h
                · split at h
                  · exact absurd ((set_other _ _ e2).trans (set_other _ _ e1)) h
                  · exact absurd (set_other _ _ e2) h
                · exact absurd rfl h
          · exact absurd rfl h
        · exact absurd rfl h

/-- Without links, and for a temporary file that is a file, this is the model of C58-C60. -/
theorem c127_same (c : Cfg) (fs : FS) (env : RemoteDirectory.WriteEnv) (dev : Text) (path : Bytes) :
    destination c (plain fs) path = RemoteDirectory.destination c fs path ∧
    (∀ d, fs.content c.cwd dev = some d → copyDownload c env.renameOk env.copy env.unlinkOk (plain fs) dev path =
      (plain (RemoteDirectory.copyDownload c env fs dev path).1, (RemoteDirectory.copyDownload c env fs dev path).2)) := by
  refine ⟨plain_destination c fs path, fun d hd => ?_⟩
  obtain ⟨h1, h2⟩ := FS.content_some hd
  have hp : plain fs (lexKey (join c.cwd dev)) = some (.file d) := by simp only [plain, h2]
  have hst : fs.stat c.cwd dev = some (.file d) := by simp only [FS.stat, h1, Option.bind_some, h2]
  simp only [copyDownload, RemoteDirectory.copyDownload, plain_destination]
  cases RemoteDirectory.destination c fs path with
  | none => rfl
  | some dest =>
    simp only [plain_entry, h1, hp, RemoteDirectory.moveFile, hst, plain_writable, FS.writable]
    cases fs.place c.cwd dest with
    | none => rfl
    | some e =>
      simp only
      by_cases hdir : fs e = some .dir
      · rw [if_pos hdir, if_neg (fun h => h.2 ((plain_dir fs e).2 hdir))]
      · rw [if_neg hdir]
        have hnd : plain fs e ≠ some .dir := fun h => hdir ((plain_dir fs e).1 h)
        simp only
        by_cases hr : env.renameOk = true
        · rw [if_pos ⟨hr, hnd⟩, if_pos hr, plain_set, plain_set]
          rfl
        · rw [if_neg (fun h => hr h.1), if_neg hr]
          cases env.copy with
          | good =>
            simp only
            split
            · rw [plain_set, plain_set]; rfl
            · rw [plain_set]; rfl
          | fails w => cases w with
            | none => rfl
            | some n => simp only [plain_set]; rfl

/-- If it is reported that the download is stored, it is: what was at the device path, a file or a link, is now at another place, or at the same one. -/
theorem c127_stored (c : Cfg) (fs : LFS) (renameOk unlinkOk : Bool) (io : Io) (dev : Text) (path : Bytes)
    (h : (copyDownload c renameOk io unlinkOk fs dev path).2 = true) :
    ∃ k e n, fs.entry c.cwd dev = some k ∧ fs k = some n ∧ n ≠ .dir ∧ (copyDownload c renameOk io unlinkOk fs dev path).1 e = some n ∧
      ∀ x, x ≠ e → (copyDownload c renameOk io unlinkOk fs dev path).1 x = if x = k then none else fs x := by
  have key : ∀ k e n, ((fs.set k none).set e (some n)) e = some n ∧ ∀ x, x ≠ e → ((fs.set k none).set e (some n)) x = if x = k then none else fs x := by
    intro k e n
    refine ⟨set_self _ _ _, fun x hx => ?_⟩
    rw [set_other _ _ hx]
    by_cases hk : x = k
    · rw [if_pos hk, hk, set_self]
    · rw [if_neg hk, set_other _ _ hk]
  simp only [copyDownload] at h ⊢
  cases hdst : destination c fs path with
  | none => rw [hdst] at h; exact (nomatch h)
  | some dest =>
    simp only [hdst] at h ⊢
    cases hent : fs.entry c.cwd dev with
    | none => rw [hent] at h; exact (nomatch h)
    | some k =>
      simp only [hent] at h ⊢
      cases hk : fs k with
      | none => rw [hk] at h; exact (nomatch h)
      | some n =>
        simp only [hk] at h ⊢
        cases n with
        | dir => exact (nomatch h)
        | file d =>
          simp only at h ⊢
          cases he : fs.entry c.cwd dest with
          | none => rw [he] at h; exact (nomatch h)
          | some e =>
            simp only [he] at h ⊢
            split at h
            · rename_i hc
              rw [if_pos hc]
              exact ⟨k, e, _, rfl, hk, fun h => (nomatch h), key k e _⟩
            · rename_i hc
              rw [if_neg hc]
              split at h
              · exact (nomatch h)
              · rename_i k' _
                split at h
                · split at h
                  · rename_i hu
                    simp only [hu, if_true]
                    exact ⟨k, k', _, rfl, hk, fun h => (nomatch h), key k k' _⟩
                  · exact (nomatch h)
                · exact (nomatch h)
                · exact (nomatch h)
        | link t =>
          simp only at h ⊢
          split at h
          · rename_i e _
            split at h
            · rename_i hc
              rw [if_pos hc]
              exact ⟨k, e, _, rfl, hk, fun h => (nomatch h), key k e _⟩
            · rename_i hc
              rw [if_neg hc]
              split at h
              · rename_i hg
                rw [if_pos hg]
                split at h
                · rename_i hu
                  simp only [hu, if_true]
                  exact ⟨k, e, _, rfl, hk, fun h => (nomatch h), key k e _⟩
                · exact (nomatch h)
              · exact (nomatch h)
          · exact (nomatch h)

/-- If it is reported that the download is not stored, and the system could copy the file and remove it, then nothing was changed: a download that is
stored is not reported as failed. -/
theorem c127_failed (c : Cfg) (fs : LFS) (renameOk : Bool) (dev : Text) (path : Bytes)
    (h : (copyDownload c renameOk .good true fs dev path).2 = false) : (copyDownload c renameOk .good true fs dev path).1 = fs := by
  simp only [copyDownload] at h ⊢
  cases hdst : destination c fs path with
  | none => rfl
  | some dest =>
    simp only [hdst] at h ⊢
    cases hent : fs.entry c.cwd dev with
    | none => rfl
    | some k =>
      simp only [hent] at h ⊢
      cases hk : fs k with
      | none => rfl
      | some n =>
        simp only [hk] at h ⊢
        cases n with
        | dir => rfl
        | file d =>
          simp only at h ⊢
          cases he : fs.entry c.cwd dest with
          | none => rfl
          | some e =>
            simp only [he] at h ⊢
            split at h
            · exact (nomatch h)
            · rename_i hc
              rw [if_neg hc]
              cases hw : fs.writable c.cwd dest with
              | none => rfl
              | some k' => rw [hw] at h; exact (nomatch h)
        | link t =>
          simp only at h ⊢
          cases he : fs.entry c.cwd dest with
          | none => rfl
          | some e =>
            simp only [he] at h ⊢
            split at h
            · exact (nomatch h)
            · rename_i hc
              rw [if_neg hc]
              split at h
              · exact (nomatch h)
              · rename_i hg
                rw [if_neg hg]

/-- A file and a link that can not be renamed are copied, and this is reported; where the folder of the destination does not exist, nothing is. -/
example :
    let fs := linkFS.set ["tmp".toList, "d".toList] (some (.file [6, 6, 6]))
    let gs := linkFS.set ["tmp".toList, "d".toList] (some (.link "x".toList))
    (copyDownload exampleCfg false .good true fs "/tmp/d".toList (asc "n")).2 = true ∧
    (copyDownload exampleCfg false .good true gs "/tmp/d".toList (asc "n")).2 = true ∧
    (copyDownload exampleCfg false .good true gs "/tmp/d".toList (asc "none/n")).2 = false := by decide +kernel

/-- C127 fails: through a link to a directory outside a download is stored there, though the path does not go up. -/
theorem c127_counterexample :
    (copyDownload exampleCfg true .good true (linkFS.set ["tmp".toList, "d".toList] (some (.file [6, 6, 6]))) "/tmp/d".toList
      (asc "etc/evil")).1 ["etc".toList, "evil".toList] = some (.file [6, 6, 6]) := by decide +kernel

/-- A link that leads nowhere counts as a free name, and is replaced. -/
example :
    let fs := (linkFS.set ["tmp".toList, "d".toList] (some (.file [6, 6, 6]))).set
      ["home".toList, "dataplicity".toList, "remote".toList, "l".toList] (some (.link "gone".toList))
    (copyDownload exampleCfg true .good true fs "/tmp/d".toList (asc "l")).1
      ["home".toList, "dataplicity".toList, "remote".toList, "l".toList] = some (.file [6, 6, 6]) ∧
    (copyDownload exampleCfg false .good true fs "/tmp/d".toList (asc "l")).1
      ["home".toList, "dataplicity".toList, "remote".toList, "gone".toList] = some (.file [6, 6, 6]) := by decide +kernel

/-! ### C166 -/

/-- C166: a link that the end of a download makes has the text of the temporary file, which is a link itself, and is at the destination. -/
theorem c166_only (c : Cfg) (fs : LFS) (renameOk unlinkOk : Bool) (io : Io) (dev : Text) (path : Bytes) (k : List Text) (t : Text)
    (h : (copyDownload c renameOk io unlinkOk fs dev path).1 k = some (.link t)) (hn : fs k ≠ some (.link t)) :
    ∃ j dest, fs.entry c.cwd dev = some j ∧ fs j = some (.link t) ∧ destination c fs path = some dest ∧ fs.entry c.cwd dest = some k := by
  simp only [copyDownload] at h
  split at h
  · exact absurd h hn
  · rename_i dest hdest
    split at h
    · exact absurd h hn
    · rename_i j hj
      split at h
      · exfalso
        have key : ∀ (e : List Text) (d : Bytes) (f : LFS), (f k = some (.link t) → fs k = some (.link t)) →
            (f.set e (some (.file d))) k = some (.link t) → False := by
          intro e d f hf hk
          by_cases e1 : k = e
          · subst e1; rw [set_self] at hk; exact (nomatch hk)
          · rw [set_other _ _ e1] at hk; exact hn (hf hk)
        have hgone : (fs.set j none) k = some (.link t) → fs k = some (.link t) := by
          intro hk
          by_cases e1 : k = j
          · subst e1; rw [set_self] at hk; exact (nomatch hk)
          · rwa [set_other _ _ e1] at hk
        split at h
        · split at h
          · exact key _ _ _ hgone h
          · split at h
            · exact hn h
            · split at h
              · split at h
                · exact key _ _ _ hgone h
                · exact key _ _ _ id h
              · exact hn h
              · exact key _ _ _ id h
        · exact hn h
      · rename_i u hu
        have key : ∀ (e : List Text) (f : LFS), (f k = some (.link t) → fs k = some (.link t)) →
            (f.set e (some (.link u))) k = some (.link t) → k = e ∧ u = t := by
          intro e f hf hk
          by_cases e1 : k = e
          · subst e1; rw [set_self] at hk
            injection hk with hk; injection hk with hk
            exact ⟨rfl, hk⟩
          · rw [set_other _ _ e1] at hk; exact absurd (hf hk) hn
        have hgone : (fs.set j none) k = some (.link t) → fs k = some (.link t) := by
          intro hk
          by_cases e1 : k = j
          · subst e1; rw [set_self] at hk; exact (nomatch hk)
          · rwa [set_other _ _ e1] at hk
        split at h
        · rename_i e he
          have fin : k = e ∧ u = t → ∃ j dest, fs.entry c.cwd dev = some j ∧ fs j = some (.link t) ∧ destination c fs path = some dest ∧
              fs.entry c.cwd dest = some k := by
            rintro ⟨rfl, rfl⟩
            exact ⟨j, dest, hj, hu, hdest, he⟩
          split at h
          · exact fin (key _ _ hgone h)
          · split at h
            · split at h
              · exact fin (key _ _ hgone h)
              · exact fin (key _ _ id h)
            · exact absurd h hn
        · exact absurd h hn
      · exact absurd h hn

/-- C166, the part that holds: if the temporary file is no link, every link that is there afterwards was there before.  Missing for the full
property: temporary files that are links, see `c166_counterexample`. -/
theorem c166_partial (c : Cfg) (fs : LFS) (renameOk unlinkOk : Bool) (io : Io) (dev : Text) (path : Bytes)
    (hd : ∀ j, fs.entry c.cwd dev = some j → NoLink fs j) (k : List Text) (t : Text)
    (h : (copyDownload c renameOk io unlinkOk fs dev path).1 k = some (.link t)) : fs k = some (.link t) := by
  refine Classical.byContradiction fun hn => ?_
  obtain ⟨j, _, h1, h2, _⟩ := c166_only c fs renameOk unlinkOk io dev path k t h hn
  exact hd j h1 t h2

/-- C166, exactly: if the destination is free, there is a new link at it afterwards precisely if the temporary file is a link and can be moved, or at
least copied. -/
theorem c166_iff (c : Cfg) (fs : LFS) (renameOk unlinkOk : Bool) (io : Io) (dev dest : Text) (path : Bytes) (k : List Text) (t : Text)
    (hdest : destination c fs path = some dest) (he : fs.entry c.cwd dest = some k) (hk : fs k = none) :
    (copyDownload c renameOk io unlinkOk fs dev path).1 k = some (.link t) ↔
      (∃ j, fs.entry c.cwd dev = some j ∧ fs j = some (.link t)) ∧ (renameOk = true ∨ io = .good) := by
  constructor
  · intro h
    obtain ⟨j, _, h1, h2, _⟩ := c166_only c fs renameOk unlinkOk io dev path k t h (by rw [hk]; exact fun h => (nomatch h))
    refine ⟨⟨j, h1, h2⟩, ?_⟩
    cases hr : renameOk with
    | true => exact .inl rfl
    | false =>
      right
      refine Classical.byContradiction fun hio => ?_
      have hn : ¬ (fs k = none ∧ io = .good) := fun h => hio h.2
      simp only [copyDownload, hdest, h1, h2, he, hr, if_neg hn, Bool.false_eq_true, false_and, if_false] at h
      rw [hk] at h
      exact (nomatch h)
  · rintro ⟨⟨j, h1, h2⟩, hio⟩
    have hnd : fs k ≠ some .dir := by rw [hk]; exact fun h => (nomatch h)
    simp only [copyDownload, hdest, h1, h2, he]
    by_cases hr : renameOk = true
    · rw [if_pos ⟨hr, hnd⟩]; exact set_self _ _ _
    · rw [if_neg (fun h => hr h.1), if_pos ⟨hk, hio.resolve_left hr⟩]
      cases unlinkOk <;> exact set_self _ _ _

/-- A file system with a link that the kernel provides and nobody can move or remove. -/
def procFS : LFS := fun k =>
  if k = ["proc".toList] ∨ k = ["proc".toList, "self".toList] then some .dir
  else if k = ["proc".toList, "self".toList, "root".toList] then some (.link "/".toList)
  else linkFS k

/-- C166 fails: the server names `/proc/self/root` as the temporary file.  The request fails, since this link can be neither moved nor removed, but there
is a link to the root of the file system in the remote directory then, through which the server can read files outside. -/
theorem c166_counterexample :
    let r := copyDownload exampleCfg false .good false procFS "/proc/self/root".toList (asc "r")
    r.2 = false ∧ r.1 ["home".toList, "dataplicity".toList, "remote".toList, "r".toList] = some (.link "/".toList) ∧
    (readUpload exampleCfg {} (addUpload exampleCfg noTrouble r.1 "r/etc/passwd".toList idI).1 idI 0 100).2 = .ok [114, 111, 111, 116] ∧
    (∃ e, (addUpload exampleCfg noTrouble procFS "r/etc/passwd".toList idI).2 = .error e) := by
  refine ⟨by decide +kernel, by decide +kernel, by decide +kernel, ?_⟩
  exact ⟨.add [], by decide +kernel⟩

end Verif.Links
