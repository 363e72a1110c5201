import Verif.Spec.RemoteHealthy
import Verif.Props.RemoteFiles
/-!
Lemmas for C128 and C129.
-/
namespace Verif.RemoteFiles
open Verif WSClient RemoteDirectory Instructions Path

/-! ### Paths in a file system -/

theorem walk_append (fs : FS) (a b : List Text) (k : List Text) : fs.walk k (a ++ b) = (fs.walk k a).bind (fun k' => fs.walk k' b) := by
  induction a generalizing k with
  | nil => rfl
  | cons x a ih =>
    simp only [List.cons_append, FS.walk]
    split
    · exact ih _
    · rfl

theorem walk_dirs (fs : FS) (cs k : List Text) (hu : ['.', '.'] ∉ cs) (hd : ∀ k', k' <+: cs.foldl lexStep k → fs k' = some .dir) :
    fs.walk k cs = some (cs.foldl lexStep k) := by
  induction cs generalizing k with
  | nil => rfl
  | cons x cs ih =>
    have hk : fs k = some .dir := by
      apply hd
      rw [foldl_lexStep _ _ hu]
      exact List.prefix_append _ _
    simp only [FS.walk, hk, if_true]
    exact ih _ (fun h => hu (by simp [h])) hd

theorem closed_dirs {fs : FS} (hc : Closed fs) (k : List Text) (r : List Text) (h : fs (k ++ r) = some .dir) : fs k = some .dir := by
  induction r generalizing k with
  | nil => simpa using h
  | cons x r ih =>
    have := ih (k ++ [x]) (by simpa using h)
    exact hc k x (by rw [this]; simp)

theorem closed_prefix {fs : FS} (hc : Closed fs) {K : List Text} (h : fs K = some .dir) : ∀ k, k <+: K → fs k = some .dir := by
  rintro k ⟨r, rfl⟩
  exact closed_dirs hc k r h

/-- A directory that exists is found under its path. -/
theorem isDir_of {fs : FS} (hc : Closed fs) {cwd p : Text} (ha : p.head? = some '/') (hu : ¬ GoesUp p) (hn : Char.ofNat 0 ∉ p)
    (hd : fs (lexKey p) = some .dir) : fs.isDir cwd p = true := by
  rw [isDir_iff, join_abs _ _ ha]
  refine ⟨?_, hd⟩
  have hn' : p.contains (Char.ofNat 0) = false := by simpa using hn
  simp only [FS.place, hn', Bool.false_eq_true, if_false, join_abs _ _ ha]
  exact walk_dirs fs _ _ hu (closed_prefix hc hd)

theorem isDir_walk {fs : FS} {cwd p : Text} (ha : p.head? = some '/') (h : fs.isDir cwd p = true) :
    Char.ofNat 0 ∉ p ∧ fs.walk [] (splitOn '/' p) = some (lexKey p) ∧ fs (lexKey p) = some .dir := by
  obtain ⟨h1, h2⟩ := (isDir_iff _ _ _).1 h
  rw [join_abs _ _ ha] at h2
  simp only [FS.place, join_abs _ _ ha] at h1
  split at h1
  · exact (nomatch h1)
  · rename_i hn
    exact ⟨by simpa using hn, h1, h2⟩

/-- The path of a directory joined with another path is walked on from the directory. -/
theorem walk_join {fs : FS} {cwd a b : Text} (ha : a.head? = some '/') (hb : b.head? ≠ some '/') (hd : fs.isDir cwd a = true) :
    fs.walk [] (splitOn '/' (join a b)) = fs.walk (lexKey a) (splitOn '/' b) := by
  obtain ⟨-, h2, -⟩ := isDir_walk ha hd
  simp only [join, hb, if_false, ne_nil_of_head ha, false_or]
  split
  · rename_i hl
    obtain ⟨a', rfl⟩ : ∃ a', a = a' ++ ['/'] := List.getLast?_eq_some_iff.1 hl
    have e1 : splitOn '/' (a' ++ ['/']) = splitOn '/' a' ++ [[]] := splitOn_append '/' a' []
    rw [List.append_assoc]
    show fs.walk [] (splitOn '/' (a' ++ '/' :: b)) = _
    rw [splitOn_append, walk_append]
    rw [e1, walk_append] at h2
    cases hw : fs.walk [] (splitOn '/' a') with
    | none => rw [hw] at h2; exact (nomatch h2)
    | some k =>
      rw [hw] at h2
      simp only [Option.bind_some, FS.walk] at h2 ⊢
      split at h2
      · injection h2 with h2
        rw [← h2]
        simp [lexStep]
      · exact (nomatch h2)
  · rw [splitOn_append, walk_append, h2]
    rfl

theorem nul_join {a b : Text} (ha : Char.ofNat 0 ∉ a) (hb : Char.ofNat 0 ∉ b) : Char.ofNat 0 ∉ join a b := by
  simp only [join]
  split
  · exact hb
  · split
    · simp only [List.mem_append, not_or]; exact ⟨ha, hb⟩
    · simp only [List.mem_append, List.mem_cons, not_or]; exact ⟨ha, by decide, hb⟩

theorem goodName_step {x : Text} (h : GoodName x) (k : List Text) : lexStep k x = k ++ [x] := by
  simp [lexStep, h.1.1, h.1.2.1, h.1.2.2.1]

theorem goodName_head {x : Text} (h : GoodName x) : x.head? ≠ some '/' := (plain_tame h.1).1.1

/-- The place of a name in a directory. -/
theorem place_name {fs : FS} {cwd a x : Text} (ha : a.head? = some '/') (hd : fs.isDir cwd a = true) (hx : GoodName x) :
    fs.place cwd (join a x) = some (lexKey a ++ [x]) := by
  obtain ⟨h1, h2, h3⟩ := isDir_walk ha hd
  have hn : (join a x).contains (Char.ofNat 0) = false := by simpa using nul_join h1 hx.2
  simp only [FS.place, hn, Bool.false_eq_true, if_false, join_abs _ _ (join_head a x ha)]
  rw [walk_join ha (goodName_head hx) hd, (plain_tame hx.1).2]
  simp only [FS.walk, h3, if_true, goodName_step hx]

/-- The same for a path made with a slash. -/
theorem place_slash {fs : FS} {cwd a x : Text} (ha : a.head? = some '/') (hd : fs.isDir cwd a = true) (hx : '/' ∉ x)
    (hn : Char.ofNat 0 ∉ x) : fs.place cwd (a ++ '/' :: x) = some (lexStep (lexKey a) x) := by
  obtain ⟨h1, h2, h3⟩ := isDir_walk ha hd
  have hn' : (a ++ '/' :: x).contains (Char.ofNat 0) = false := by
    simp only [List.contains_eq_mem, decide_eq_false_iff_not, List.mem_append, List.mem_cons, not_or]
    exact ⟨h1, by decide, hn⟩
  have habs : (a ++ '/' :: x).head? = some '/' := by
    cases a with
    | nil => rfl
    | cons y a => simpa using ha
  simp only [FS.place, hn', Bool.false_eq_true, if_false, join_abs _ _ habs]
  rw [splitOn_append, walk_append, h2, splitOn_plain _ _ hx]
  simp only [Option.bind_some, FS.walk, h3, if_true]

theorem joinWith_mem {sep y : Char} : ∀ {ns : List Text}, y ∈ joinWith sep ns → y = sep ∨ ∃ x ∈ ns, y ∈ x
  | [], h => by simp [joinWith] at h
  | [p], h => .inr ⟨p, by simp, h⟩
  | p :: q :: r, h => by
    simp only [joinWith, List.mem_append, List.mem_cons] at h
    rcases h with h | h | h
    · exact .inr ⟨p, by simp, h⟩
    · exact .inl h
    · rcases joinWith_mem h with h | ⟨x, h1, h2⟩
      · exact .inl h
      · exact .inr ⟨x, by simp [h1], h2⟩

theorem pathOf_nul {p : Text} {ns : List Text} (h : PathOf p ns) : Char.ofNat 0 ∉ lstripSlash p := by
  intro hm
  rw [h.2.2] at hm
  rcases joinWith_mem hm with e | ⟨x, h1, h2⟩
  · exact absurd e (by decide)
  · exact (h.2.1 x h1).2 h2

theorem pathOf_split {p : Text} {ns : List Text} (h : PathOf p ns) : splitOn '/' (lstripSlash p) = ns := by
  rw [h.2.2]
  exact splitOn_joinWith '/' ns h.1 (fun x hx => (h.2.1 x hx).1.2.2.2)

theorem pathOf_up {p : Text} {ns : List Text} (h : PathOf p ns) : ¬ GoesUp p := by
  intro hu
  have := (lstripSlash_split p).2.2 hu
  rw [pathOf_split h] at this
  exact (h.2.1 _ this).1.2.2.1 rfl

theorem names_walk {fs : FS} (ns k : List Text) (hn : ∀ x ∈ ns, GoodName x) (hne : ns ≠ []) (hd : ∀ r, r <+: ns.dropLast → fs (k ++ r) = some .dir) :
    fs.walk k ns = some (k ++ ns) := by
  induction ns generalizing k with
  | nil => exact absurd rfl hne
  | cons x ns ih =>
    have h0 : fs k = some .dir := by simpa using hd [] (List.nil_prefix)
    simp only [FS.walk, h0, if_true, goodName_step (hn x (by simp))]
    cases ns with
    | nil => rfl
    | cons y ns =>
      rw [ih (k ++ [x]) (fun z hz => hn z (by simp [hz])) (by simp)]
      · simp
      · intro r hr
        have := hd (x :: r) (by
          show x :: r <+: x :: (y :: ns).dropLast
          exact List.cons_prefix_cons.2 ⟨rfl, hr⟩)
        simpa using this

/-- The place of a path of names below a directory. -/
theorem place_names {fs : FS} {cwd a p : Text} {ns : List Text} (hc : Closed fs) (ha : a.head? = some '/') (hd : fs.isDir cwd a = true)
    (hp : PathOf p ns) (hdir : fs (lexKey a ++ ns.dropLast) = some .dir) :
    fs.place cwd (join a (lstripSlash p)) = some (lexKey a ++ ns) := by
  obtain ⟨h1, h2, h3⟩ := isDir_walk ha hd
  have hn : (join a (lstripSlash p)).contains (Char.ofNat 0) = false := by simpa using nul_join h1 (pathOf_nul hp)
  simp only [FS.place, hn, Bool.false_eq_true, if_false, join_abs _ _ (join_head a _ ha)]
  rw [walk_join ha (lstripSlash_head p) hd, pathOf_split hp]
  refine names_walk ns _ hp.2.1 hp.1 ?_
  rintro r ⟨t, ht⟩
  exact closed_dirs hc _ t (by rw [List.append_assoc, ht]; exact hdir)

theorem lexKey_names_join {c : Cfg} (hs : c.Sane) {p : Text} {ns : List Text} (hp : PathOf p ns) :
    lexKey (join c.root (lstripSlash p)) = lexKey c.root ++ ns := by
  rw [lexKey_join _ _ (ne_nil_of_head hs.root) (lstripSlash_head p), pathOf_split hp, foldl_lexStep, List.filter_eq_self.2]
  · intro x hx
    have := (hp.2.1 x hx).1
    simp [isName, this.1, this.2.1, this.2.2.1]
  · intro h
    exact (hp.2.1 _ h).1.2.2.1 rfl

/-- The folder around a path does not go up unless the path does. -/
theorem split_up {p : Text} (h : ¬ GoesUp p) : ¬ GoesUp (Path.split p).1 := by
  obtain ⟨h1, h2, h3⟩ := splitLast_spec p
  have key : ∀ q r : Text, q ++ '/' :: r = p → ¬ GoesUp q := by
    intro q r e hq
    apply h
    rw [GoesUp, ← e, splitOn_append]
    exact List.mem_append_left _ hq
  simp only [Path.split]
  split
  · rcases h3 with h3 | ⟨a, h3⟩
    · simp only [h3]; simp [GoesUp, splitOn]
    · simp only
      intro hq
      rw [GoesUp, h3, splitOn_append] at hq
      rcases List.mem_append.1 hq with hq | hq
      · exact key a _ (by rw [← h1, h3, List.append_assoc]; rfl) hq
      · simp [splitOn] at hq
  · rename_i hall
    simp only
    rcases h3 with h3 | ⟨a, h3⟩
    · rw [h3] at hall; simp at hall
    · have : ∃ r, ((splitLast p).1.reverse.dropWhile (· == '/')).reverse ++ '/' :: r = (splitLast p).1 := by
        rw [h3]
        simp only [List.reverse_append, List.reverse_cons, List.reverse_nil, List.nil_append, List.cons_append, List.dropWhile_cons, beq_self_eq_true,
          if_true]
        have hs := List.takeWhile_append_dropWhile (p := fun x : Char => x == '/') (l := a.reverse)
        refine ⟨(a.reverse.takeWhile (· == '/')).reverse, ?_⟩
        have hall' : ∀ x ∈ a.reverse.takeWhile (· == '/'), x = '/' := by
          intro x hx
          have := List.all_takeWhile (p := fun x : Char => x == '/') (l := a.reverse)
          rw [List.all_eq_true] at this
          simpa using this x hx
        have hrep : ∀ l : Text, (∀ x ∈ l, x = '/') → '/' :: l.reverse = l.reverse ++ ['/'] := by
          intro l hl
          have e := List.eq_replicate_of_mem hl
          rw [e, List.reverse_replicate, ← List.replicate_succ, List.replicate_succ']
        rw [hrep _ hall', ← List.append_assoc, ← List.reverse_append, hs, List.reverse_reverse]
      obtain ⟨r, hr⟩ := this
      exact key _ (r ++ (splitLast p).2) (by rw [← List.cons_append, ← List.append_assoc, hr]; exact h1)

theorem split_nul {p : Text} (h : Char.ofNat 0 ∉ p) : Char.ofNat 0 ∉ (Path.split p).1 ∧ Char.ofNat 0 ∉ (Path.split p).2 := by
  obtain ⟨h1, -, -⟩ := splitLast_spec p
  have ha : Char.ofNat 0 ∉ (splitLast p).1 := fun hm => h (by rw [← h1]; exact List.mem_append_left _ hm)
  have hb : Char.ofNat 0 ∉ (splitLast p).2 := fun hm => h (by rw [← h1]; exact List.mem_append_right _ hm)
  simp only [Path.split]
  split
  · exact ⟨ha, hb⟩
  · refine ⟨fun hm => ha ?_, hb⟩
    simp only [List.mem_reverse] at hm
    have := (List.dropWhile_sublist _).subset hm
    simpa using this

theorem splitext_nul {f : Text} (h : Char.ofNat 0 ∉ f) : Char.ofNat 0 ∉ (splitext f).1 ∧ Char.ofNat 0 ∉ (splitext f).2 := by
  simp only [splitext]
  split
  · exact ⟨h, by simp⟩
  · split
    · exact ⟨h, by simp⟩
    · refine ⟨fun hm => h (List.mem_of_mem_take hm), ?_⟩
      simp only [List.mem_cons, List.mem_reverse, not_or]
      refine ⟨by decide, fun hm => h ?_⟩
      have := (List.takeWhile_sublist _).subset hm
      simpa using this

/-! ### Uploads -/

theorem snapName : GoodName "dataplicity_remote".toList := by decide +kernel
theorem downName : GoodName "dataplicity_remote_downloads".toList := by decide +kernel

/-- A folder in the folder for temporary files, made if it is missing. -/
theorem folder_made {fs : FS} (hc : Closed fs) {c : Cfg} (hs : c.Sane) (hn : Char.ofNat 0 ∉ c.temp) (ht : fs (lexKey c.temp) = some .dir)
    {x : Text} (hx : GoodName x) (hf : Folder fs (join c.temp x)) :
    ∃ fs1, (if fs.isDir c.cwd (join c.temp x) then some fs else fs.mkdir c.cwd (join c.temp x)) = some fs1 ∧
      fs1.isDir c.cwd (join c.temp x) = true ∧ (∀ k, fs k = some .dir → fs1 k = some .dir) ∧
      (∀ k, k ≠ lexKey (join c.temp x) → fs1 k = fs k) ∧ lexKey (join c.temp x) = lexKey c.temp ++ [x] := by
  have hd : fs.isDir c.cwd c.temp = true := isDir_of hc hs.temp hs.tempUp hn ht
  have hp := place_name hs.temp hd hx
  have hj := join_head c.temp x hs.temp
  have hk : lexKey (join c.temp x) = lexKey c.temp ++ [x] := by
    have := FS.place_lex hp
    rw [join_abs _ _ hj] at this
    exact this.symm
  rcases hf with h | h
  · have hdir : fs.isDir c.cwd (join c.temp x) = true := by rw [isDir_iff, join_abs _ _ hj, hk]; exact ⟨hp, by rw [← hk]; exact h⟩
    exact ⟨fs, by rw [if_pos hdir], hdir, fun _ h => h, fun _ _ => rfl, hk⟩
  · have hnd : ¬ fs.isDir c.cwd (join c.temp x) = true := by
      rw [isDir_iff, join_abs _ _ hj, h]; simp
    have hdirs : ∀ k, fs k = some .dir → fs.set (lexKey (join c.temp x)) (some .dir) k = some .dir := by
      intro k hk
      by_cases e : k = lexKey (join c.temp x)
      · rw [e]; simp
      · rw [FS.set_other _ _ e]; exact hk
    refine ⟨fs.set (lexKey (join c.temp x)) (some .dir), ?_, ?_, hdirs, fun k hk => FS.set_other _ _ hk, hk⟩
    · rw [if_neg hnd]
      simp only [FS.mkdir, hp, ← hk, h, if_true]
    · rw [isDir_iff, join_abs _ _ hj]
      exact ⟨(FS.place_mono hdirs hp).trans (by rw [hk]), by simp⟩

/-- On a healthy device a file of the remote directory can be opened. -/
theorem addUpload_healthy (c : Cfg) (hs : c.Sane) (hn : Cfg.Clean c) (env : OpenEnv) (he : OpenEnv.Healthy env) (fs : FS) (hc : Closed fs)
    (p : Text) (ns : List Text) (hp : PathOf p ns) (d : Bytes) (hf : fs (lexKey c.root ++ ns) = some (.file d)) (hroom : OpenEnv.Room env d.length)
    (id : Text) (hid : GoodName id) (ht : fs (lexKey c.temp) = some .dir) (hfold : Folder fs (snapDir c)) (hsd : fs (snapKey c id) ≠ some .dir)
    (hne : snapKey c id ≠ lexKey c.root ++ ns) : ∃ fs', addUpload c env fs p id = (fs', .ok d.length) := by
  obtain ⟨e1, e2, e3⟩ := he
  obtain ⟨init, last, hns⟩ : ∃ init last, ns = init ++ [last] := by
    rcases List.eq_nil_or_concat ns with h | ⟨a, b, h⟩
    · exact absurd h hp.1
    · exact ⟨a, b, by rw [h, List.concat_eq_append]⟩
  have hparent : fs (lexKey c.root ++ ns.dropLast) = some .dir := by
    apply hc _ last
    rw [hns, List.dropLast_concat, List.append_assoc, ← hns, hf]
    simp
  have hroot : fs.isDir c.cwd c.root = true := isDir_of hc hs.root hs.rootUp hn.1 (closed_dirs hc _ _ hparent)
  have hplace := place_names (cwd := c.cwd) hc hs.root hroot hp hparent
  have hj := join_head c.root (lstripSlash p) hs.root
  have hkey : lexKey (join c.cwd (join c.root (lstripSlash p))) = lexKey c.root ++ ns := (FS.place_lex hplace).symm
  have hcont : fs.content c.cwd (join c.root (lstripSlash p)) = some d := FS.content_of (by rw [hkey]; exact hplace) (by rw [hkey]; exact hf)
  have hstat := FS.content_stat hcont
  have hup : uploadFile c p = .ok (join c.root (lstripSlash p)) := by
    rw [uploadFile_plain, (uploadFile_valid c hs.root hs.rootUp p).2 (pathOf_up hp)]
    · rfl
    · intro h0
      cases p with
      | nil => exact (nomatch h0)
      | cons y r =>
        simp only [List.head?_cons, Option.some.injEq] at h0
        subst h0
        apply pathOf_nul hp
        simp [lstripSlash]
  have hlow : lowSpace c env fs (join c.root (lstripSlash p)) = false := by
    simp only [lowSpace, hstat]
    cases hu : env.usage with
    | none => rfl
    | some ut =>
      obtain ⟨used, total⟩ := ut
      have := hroom used total hu
      have hm : margin = 50000000 := rfl
      simp only
      split
      · rfl
      · rw [decide_eq_false_iff_not, hm]; omega
  obtain ⟨fs1, g1, g2, g3, g4, g5⟩ := folder_made hc hs hn.2 ht snapName hfold
  have hsnap : getSnapshotPath c env.mkdirFails fs id = (fs1, .ok (join (snapDir c) id)) := by
    simp only [getSnapshotPath, e1, Bool.false_eq_true, if_false]
    rw [show join c.temp "dataplicity_remote".toList = snapDir c from rfl] at g1
    split at g1
    · rename_i hd
      injection g1 with g1
      rw [if_pos hd, g1]
    · rename_i hd
      rw [if_neg hd, g1]
  have hjs : (snapDir c).head? = some '/' := join_head _ _ hs.temp
  have hw := place_name hjs g2 hid
  have hk2 := plain_snapKey c hs hid.1
  have hfs1 : fs1 (snapKey c id) = fs (snapKey c id) := by
    apply g4
    rw [hk2]
    intro h
    have := congrArg List.length h
    rw [show join c.temp "dataplicity_remote".toList = snapDir c from rfl] at this
    simp at this
  have hwr : fs1.writable c.cwd (join (snapDir c) id) = some (snapKey c id) := by
    simp only [FS.writable, hw, ← hk2, hfs1, hsd, if_false]
  have hpl1 := FS.place_mono g3 hplace
  have hf1 : fs1 (lexKey c.root ++ ns) = some (.file d) := by
    rw [g4, hf]
    intro h
    rw [show join c.temp "dataplicity_remote".toList = snapDir c from rfl] at h
    rcases hfold with h' | h' <;> rw [← h, hf] at h' <;> exact (nomatch h')
  have hcont1 : fs1.content c.cwd (join c.root (lstripSlash p)) = some d := FS.content_of (by rw [hkey]; exact hpl1) (by rw [hkey]; exact hf1)
  have hst : startsWith c.temp (join (snapDir c) id) = true := by
    rw [startsWith_iff]
    exact List.IsPrefix.trans (join_prefix _ _ (goodName_head snapName)) (join_prefix _ _ (goodName_head hid))
  have hcopy : copyfile c env.copy fs1 (join c.root (lstripSlash p)) (join (snapDir c) id) = (fs1.set (snapKey c id) (some (.file d)), true) := by
    have hdiff : ¬ fs1.place c.cwd (join c.root (lstripSlash p)) = some (snapKey c id) := by
      rw [hpl1]
      intro h
      injection h with h
      exact hne h.symm
    simp only [copyfile, hcont1, hwr, e2, if_neg hdiff]
  have hdirs : ∀ k, fs1 k = some .dir → fs1.set (snapKey c id) (some (.file d)) k = some .dir := by
    intro k hk
    rw [FS.set_other]
    · exact hk
    · intro e
      rw [e, hfs1] at hk
      exact hsd hk
  have hsk : lexKey (join c.cwd (join (snapDir c) id)) = snapKey c id := rfl
  have hfin : (fs1.set (snapKey c id) (some (.file d))).content c.cwd (join (snapDir c) id) = some d := by
    apply FS.content_of
    · exact (FS.place_mono hdirs hw).trans (by rw [hsk, hk2])
    · rw [hsk]; simp
  refine ⟨fs1.set (snapKey c id) (some (.file d)), ?_⟩
  simp only [addUpload, hup, hlow, hsnap, hst, hcopy, hfin, e3, Bool.false_eq_true, if_false, Bool.not_true]

/-! ### Downloads -/

theorem downloadKey_name {c : Cfg} (hs : c.Sane) {id : Text} (hid : GoodName id) : downloadKey c id = lexKey (downloadDir c) ++ [id] := by
  have hj : (downloadDir c).head? = some '/' := join_head _ _ hs.temp
  rw [downloadKey, join_abs _ _ (join_head _ _ hj), lexKey_join _ _ (ne_nil_of_head hj) (goodName_head hid), (plain_tame hid.1).2]
  simp [goodName_step hid]

/-- On a healthy device a download can be begun. -/
theorem addDownload_healthy (c : Cfg) (hs : c.Sane) (hn : Cfg.Clean c) (id : Text) (hid : GoodName id) (fs : FS) (h : CanBegin c id fs) :
    ∃ fs1, addDownload c false false fs id = (fs1, some (downloadPath c id)) ∧
      ∀ k, k ≠ lexKey (downloadDir c) → k ≠ downloadKey c id → fs1 k = fs k := by
  obtain ⟨hc, ht, hf, hd⟩ := h
  obtain ⟨fs1, g1, g2, g3, g4, g5⟩ := folder_made hc hs hn.2 ht downName hf
  have hj : (downloadDir c).head? = some '/' := join_head _ _ hs.temp
  have hk := downloadKey_name hs hid
  have hw := place_name hj g2 hid
  have hne : downloadKey c id ≠ lexKey (downloadDir c) := by
    rw [hk]
    intro h
    have := congrArg List.length h
    simp at this
  have hwr : fs1.writable c.cwd (join (downloadDir c) id) = some (downloadKey c id) := by
    have : fs1 (downloadKey c id) = fs (downloadKey c id) := g4 _ hne
    simp only [FS.writable, hw, ← hk, this, hd, if_false]
  refine ⟨fs1.set (downloadKey c id) (some (.file [])), ?_, fun k h1 h2 => by rw [FS.set_other _ _ h2]; exact g4 k h1⟩
  rw [show join c.temp "dataplicity_remote_downloads".toList = downloadDir c from rfl] at g1
  simp only [addDownload, Bool.false_eq_true, if_false, g1, hwr]
  rfl

theorem numText_nul (n : Nat) : Char.ofNat 0 ∉ numText n := by
  simp only [numText, List.mem_map, not_exists, not_and]
  intro b hb e
  have hd := decNat_all_digits n b hb
  have hlt : b.toNat < 256 := b.toNat_lt
  have h2 : (Char.ofNat b.toNat).toNat = b.toNat := by
    rw [Char.ofNat, dif_pos (.inl (by omega))]
    rfl
  have hb0 : b = 0 := by
    apply UInt8.toNat_inj.1
    rw [← h2, e]; rfl
  subst hb0
  exact absurd hd (by decide)

theorem parent_key {c : Cfg} (hs : c.Sane) {p : Text} {ns : List Text} (hp : PathOf p ns) :
    lexKey (join c.cwd (Path.split (join c.root (lstripSlash p))).1) = lexKey c.root ++ ns.dropLast := by
  rw [join_abs _ _ (split_head _ (join_head c.root _ hs.root))]
  obtain ⟨pre, e1, e2⟩ := splitOn_join c.root (lstripSlash p) (ne_nil_of_head hs.root) (lstripSlash_head p)
  rw [lexKey_split, e1, List.dropLast_append_of_ne_nil (splitOn_ne_nil _ _), List.foldl_append, e2, pathOf_split hp, foldl_lexStep,
    List.filter_eq_self.2]
  · intro x hx
    have := (hp.2.1 x ((List.dropLast_sublist _).subset hx)).1
    simp [isName, this.1, this.2.1, this.2.2.1]
  · intro h
    exact (hp.2.1 _ ((List.dropLast_sublist _).subset h)).1.2.2.1 rfl

/-- The folder around the requested place. -/
theorem parent_dir {c : Cfg} (hs : c.Sane) (hn : Cfg.Clean c) {p : Text} {ns : List Text} (hp : PathOf p ns) {fs : FS} (hc : Closed fs)
    (hd : fs (lexKey c.root ++ ns.dropLast) = some .dir) : fs.isDir c.cwd (Path.split (join c.root (lstripSlash p))).1 = true := by
  have hj := join_head c.root (lstripSlash p) hs.root
  have hu : ¬ GoesUp (join c.root (lstripSlash p)) := by
    rw [GoesUp, split_join _ _ (ne_nil_of_head hs.root) (lstripSlash_head p)]
    rintro (h | h)
    · exact hs.rootUp h
    · exact pathOf_up hp ((lstripSlash_split p).2.1 h)
  apply isDir_of hc (split_head _ hj) (split_up hu) (split_nul (nul_join hn.1 (pathOf_nul hp))).1
  have := parent_key hs hp
  rw [join_abs _ _ (split_head _ hj)] at this
  rw [this]
  exact hd

/-- The names tried for a download can be reached. -/
theorem candidate_place {c : Cfg} (hs : c.Sane) (hn : Cfg.Clean c) {p : Text} {ns : List Text} (hp : PathOf p ns) {fs : FS} (hc : Closed fs)
    (hd : fs (lexKey c.root ++ ns.dropLast) = some .dir) (n : Nat) :
    ∃ k, fs.place c.cwd (candidate c fs p n) = some k := by
  cases n with
  | zero => exact ⟨_, place_names hc hs.root (isDir_of hc hs.root hs.rootUp hn.1 (closed_dirs hc _ _ hd)) hp hd⟩
  | succ n =>
    rw [candidate_succ]
    have hpar := parent_dir hs hn hp hc hd
    rw [if_pos hpar]
    have hsl := splitext_noslash _ (split_noslash (join c.root (lstripSlash p)))
    have hnl := splitext_nul (split_nul (nul_join hn.1 (pathOf_nul hp))).2
    have : ∀ dir : Text, copyName dir (splitext (Path.split (join c.root (lstripSlash p))).2).1 (n + 1)
        (splitext (Path.split (join c.root (lstripSlash p))).2).2 = dir ++ '/' ::
        ((splitext (Path.split (join c.root (lstripSlash p))).2).1 ++ '(' :: numText (n + 1) ++ ')' ::
          (splitext (Path.split (join c.root (lstripSlash p))).2).2) := by intro dir; simp [copyName]
    rw [this]
    refine ⟨_, place_slash (split_head _ (join_head c.root _ hs.root)) hpar ?_ ?_⟩
    · simp only [List.mem_append, List.mem_cons, not_or]
      exact ⟨⟨hsl.1, by decide, numText_noslash _⟩, by decide, hsl.2⟩
    · simp only [List.mem_append, List.mem_cons, not_or]
      exact ⟨⟨hnl.1, by decide, numText_nul _⟩, by decide, hnl.2⟩

/-- On a healthy device a download is copied. -/
theorem copyDownload_healthy {c : Cfg} {env : WriteEnv} (he : WriteEnv.Healthy env) {fs : FS} {dev path : Text} {cur : Bytes}
    (hc : fs.content c.cwd dev = some cur) {n : Nat} (hn : n ≤ 100) (hfree : fs.pathExists c.cwd (candidate c fs path n) = false)
    (hpl : ∀ m, ∃ k, fs.place c.cwd (candidate c fs path m) = some k) : ∃ fs', copyDownload c env fs dev (utf8Encode path) = (fs', true) := by
  have hd : ∃ dest, destination c fs (utf8Encode path) = some dest := by
    cases hx : destination c fs (utf8Encode path) with
    | some dest => exact ⟨dest, rfl⟩
    | none =>
      have key : ∀ m, m ≤ n → fs.pathExists c.cwd (candidate c fs path m) = true := by
        intro m
        induction m using Nat.strongRecOn with
        | ind m ih =>
          intro hm
          cases hq : fs.pathExists c.cwd (candidate c fs path m) with
          | true => rfl
          | false =>
            have := (c59_first_free c fs path _).2 ⟨m, by omega, rfl, hq, fun j hj => ih j hj (by omega)⟩
            rw [hx] at this
            exact (nomatch this)
      rw [key n (Nat.le_refl _)] at hfree
      exact Bool.noConfusion hfree
  obtain ⟨dest, hd⟩ := hd
  obtain ⟨m, -, e1, e2, -⟩ := (c59_first_free c fs path dest).1 hd
  obtain ⟨k, hk⟩ := hpl m
  have hnone : fs k = none := by
    simp only [FS.pathExists, FS.stat, hk, Option.bind_some, Option.isSome_eq_false_iff, Option.isNone_iff_eq_none] at e2
    exact e2
  rw [← e1] at hk
  have hwr : fs.writable c.cwd dest = some k := by simp [FS.writable, hk, hnone]
  obtain ⟨p1, p2⟩ := FS.content_some hc
  have hstat : fs.stat c.cwd dev = some (.file cur) := by simp [FS.stat, p1, p2]
  obtain ⟨-, -, -, h⟩ := he
  rcases h with h | ⟨h1, h2⟩
  · exact ⟨(fs.set (lexKey (join c.cwd dev)) none).set k (some (.file cur)),
      by simp only [copyDownload, hd, moveFile, p1, hstat, hwr, h, if_true]⟩
  · cases hr : env.renameOk with
    | true => exact ⟨(fs.set (lexKey (join c.cwd dev)) none).set k (some (.file cur)), by simp only [copyDownload, hd, moveFile, p1, hstat, hwr, hr, if_true]⟩
    | false =>
      exact ⟨(fs.set (lexKey (join c.cwd dev)) none).set k (some (.file cur)),
        by simp only [copyDownload, hd, moveFile, p1, hstat, hwr, hr, h1, h2, if_true, Bool.false_eq_true, if_false]⟩

/-- On a healthy device a chunk is accepted. -/
theorem onWrite_healthy (r : PyVal → String) (c : Cfg) (hs : c.Sane) (hn : Cfg.Clean c) (id : Text) (hid : GoodName id)
    (hout : ¬ lexKey c.root <+: downloadKey c id) (fs : FS) (env : WriteEnv) (he : WriteEnv.Healthy env) (path : Text) (ns : List Text)
    (hp : PathOf path ns) (device : Bytes) (offset : Nat) (ho : offset ≤ maxSize) (data : Bytes) (final : Int)
    (hdev : (device = [] ∧ CanBegin c id fs) ∨
      (device = utf8Encode (downloadPath c id) ∧ ∃ cur, fs.content c.cwd (downloadPath c id) = some cur))
    (hfin : final ≠ 0 → CanEnd c path ns fs) :
    ∃ fs', onWrite r c env fs (utf8Encode id) (utf8Encode path) device offset data final =
        (fs', some [.ok ⟨writeResult, [.bytes (utf8Encode id), .int (offset + data.length : Int), .int data.length,
          .bytes (utf8Encode (downloadPath c id)), .int 0, .bytes []]⟩]) ∧
      (final = 0 → ∃ cur, fs'.content c.cwd (downloadPath c id) = some cur) := by
  obtain ⟨-, hdn⟩ := download_ups c hs (plain_tame hid.1).1
  have hdir : lexKey (downloadDir c) <+: downloadKey c id := by rw [downloadKey_name hs hid]; exact List.prefix_append _ _
  -- the file begun
  have h1 : ∃ fs1 cur, (∀ k, k ≠ lexKey (downloadDir c) → k ≠ downloadKey c id → fs1 k = fs k) ∧ (∀ k, fs k = some .dir → fs1 k = some .dir) ∧
      fs1.content c.cwd (downloadPath c id) = some cur ∧
      onWrite r c env fs (utf8Encode id) (utf8Encode path) device offset data final =
        onWrite r c env fs1 (utf8Encode id) (utf8Encode path) (utf8Encode (downloadPath c id)) offset data final := by
    rcases hdev with ⟨rfl, hb⟩ | ⟨rfl, cur, hc⟩
    · obtain ⟨fs1, g1, g2⟩ := addDownload_healthy c hs hn id hid fs hb
      have hch := addDownload_Change c false false fs id
      rw [g1] at hch
      refine ⟨fs1, [], g2, hch.dirs, (addDownload_some g1).2, ?_⟩
      have : utf8Decode [] = some [] := rfl
      simp only [onWrite, utf8Decode_encode, this, hdn, if_true, if_false, he.1, he.2.1, g1]
    · exact ⟨fs, cur, fun _ _ _ => rfl, fun _ h => h, hc, rfl⟩
  obtain ⟨fs1, cur, a1, a2, a3, a4⟩ := h1
  -- the chunk written
  have h2 : ∃ fs2 cur2, (if data.isEmpty then (fs1, true) else writeChunk c.cwd env.write fs1 (downloadPath c id) offset data : FS × Bool) =
      (fs2, true) ∧ fs2.content c.cwd (downloadPath c id) = some cur2 ∧ (∀ k, k ≠ downloadKey c id → fs2 k = fs1 k) ∧
      (∀ k, fs1 k = some .dir → fs2 k = some .dir) := by
    split
    · exact ⟨fs1, cur, rfl, a3, fun _ _ => rfl, fun _ h => h⟩
    · rw [he.2.2.1, writeChunk_good a3 offset ho data]
      refine ⟨_, _, rfl, content_set a3 _, fun k hk => FS.set_other _ _ hk, ?_⟩
      intro k hk
      rw [FS.set_other _ _ (fun e => by rw [e, (FS.content_some a3).2] at hk; exact (nomatch hk))]
      exact hk
  obtain ⟨fs2, cur2, b1, b2, b3, b4⟩ := h2
  have key : ∀ fs' : FS, (if final ≠ 0 then copyDownload c env fs2 (downloadPath c id) (utf8Encode path) else (fs2, true) : FS × Bool) = (fs', true) →
      onWrite r c env fs (utf8Encode id) (utf8Encode path) device offset data final =
        (fs', some [.ok ⟨writeResult, [.bytes (utf8Encode id), .int (offset + data.length : Int), .int data.length,
          .bytes (utf8Encode (downloadPath c id)), .int 0, .bytes []]⟩]) := by
    intro fs' hq
    rw [a4]
    simp only [onWrite, utf8Decode_encode, hdn, if_false, b1, hq, create32]
  by_cases hf : final = 0
  · exact ⟨fs2, key fs2 (by rw [if_neg (by simpa using hf)]), fun _ => ⟨cur2, b2⟩⟩
  · obtain ⟨hcl, hpar, n, hn1, hn2⟩ := hfin hf
    have hmono : ∀ k, fs k = some .dir → fs2 k = some .dir := fun k hk => b4 k (a2 k hk)
    have hpd := parent_dir hs hn hp hcl hpar
    have hpd2 := isDir_mono hmono hpd
    have hcand : ∀ m, candidate c fs2 path m = candidate c fs path m := by
      intro m
      cases m with
      | zero => rfl
      | succ m => rw [candidate_succ, candidate_succ, if_pos hpd, if_pos hpd2]
    have hpl : ∀ m, ∃ k, fs2.place c.cwd (candidate c fs2 path m) = some k := by
      intro m
      obtain ⟨k, hk⟩ := candidate_place hs hn hp hcl hpar m
      exact ⟨k, by rw [hcand]; exact FS.place_mono hmono hk⟩
    have hfree : fs2.pathExists c.cwd (candidate c fs2 path n) = false := by
      obtain ⟨k, hk⟩ := hpl n
      obtain ⟨i1, i2⟩ := candidate_inside c hs fs path (pathOf_up hp) n
      have hkey := FS.place_lex hk
      rw [hcand, join_abs _ _ i2] at hkey
      have hroot : lexKey c.root <+: k := by rw [hkey]; exact i1
      have : fs2 k = none := by
        rw [b3, a1, hkey]
        · exact hn2
        · intro e; exact hout (List.IsPrefix.trans (e ▸ hroot) hdir)
        · intro e; exact hout (e ▸ hroot)
        · intro e; exact hout (e ▸ hroot)
      simp only [FS.pathExists, FS.stat, hk, Option.bind_some, this, Option.isSome_none]
    obtain ⟨fs', hcp⟩ := copyDownload_healthy he b2 hn1 hfree hpl
    exact ⟨fs', key fs' (by rw [if_pos hf]; exact hcp), fun h => absurd h hf⟩

theorem write_event {id : Bytes} {m : Move} {w : Bytes × Bytes × Int × Bytes × Int} (h : m.write id = some w) :
    ∃ env e, m = .event env e ∧ requestIn e = some (.writeFile id w.1 w.2.1 w.2.2.1 w.2.2.2.1 w.2.2.2.2) := by
  cases m with
  | change k n => exact (nomatch h)
  | event env e =>
    refine ⟨env, e, rfl, ?_⟩
    simp only [Move.write, Move.request] at h
    split at h
    · rename_i hq
      split at h
      · rename_i hi
        injection h with h
        subst hi
        rw [← h]
        exact hq
      · exact (nomatch h)
    · exact (nomatch h)

/-- On a healthy device a chunk request is answered with success. -/
theorem own_healthy (c : Cfg) (hs : c.Sane) (hn : Cfg.Clean c) (id : Text) (hid : GoodName id) (hl : (utf8Encode id).length ≤ maxSize)
    (hdl : (utf8Encode (downloadPath c id)).length ≤ maxSize) (hout : ¬ lexKey c.root <+: downloadKey c id) (path : Text) (ns : List Text)
    (hp : PathOf path ns) (s : Sys) (hh : s.client.hung = false) (m : Move) (hf : m.fair) (hz : Sized (step c s m).2)
    {device data : Bytes} {offset : Nat} {final : Int} (ho : offset ≤ maxSize)
    (hw : m.write (utf8Encode id) = some (utf8Encode path, device, (offset : Int), data, final))
    (hready : m.ready c id path ns s.fs)
    (hdev : device = [] ∨ (device = utf8Encode (downloadPath c id) ∧ ∃ cur, s.fs.content c.cwd (downloadPath c id) = some cur)) :
    (∃ a, writeAnswers (utf8Encode id) (step c s m).2 = [a] ∧ a.fail = 0) ∧
    (final = 0 → ∃ cur, (step c s m).1.fs.content c.cwd (downloadPath c id) = some cur) := by
  obtain ⟨r1, r2, r3⟩ := hready _ _ _ _ _ hw
  obtain ⟨env, e, rfl, hreq⟩ := write_event hw
  simp only at hreq
  obtain ⟨-, g2, g3, g4⟩ := event_spec (writeAnswer (utf8Encode id)) (write_deaf _) c s hh env e hf hz
  rw [hreq] at g2 g3 g4
  obtain ⟨fs', q1, q2⟩ := onWrite_healthy (fun _ => "") c hs hn id hid hout s.fs env.wr (r1 env e rfl) path ns hp device offset ho data final
    (hdev.imp_left (fun h => ⟨h, r2 h⟩)) r3
  simp only [reply, q1, Option.getD_some] at g2 g3 g4
  rw [writeAnswers, g3, g2]
  refine ⟨?_, q2⟩
  have hc : writeResult ∈ Packets.classes := ((Packets.lookupClass_iff 32 _).1 lookup32).1
  obtain ⟨msg, hm⟩ := message_some (cls := writeResult)
    (vals := [.bytes (utf8Encode id), .int (offset + data.length : Int), .int data.length, .bytes (utf8Encode (downloadPath c id)), .int 0, .bytes []])
    hc (by simp [Packets.Typed, writeResult, Packets.AType.has]) (by simp)
    (.cons (.bytes hl) (.cons (.int _) (.cons (.int _) (.cons (.bytes hdl) (.cons (.int _) (.cons (.bytes (by simp)) .nil))))))
  simp only [List.filterMap_cons, List.filterMap_nil, hm] at g4 ⊢
  have := write_answer_of (a := ⟨offset + data.length, data.length, utf8Encode (downloadPath c id), 0⟩) rfl hm (g4 msg (by simp))
  exact ⟨⟨offset + data.length, data.length, utf8Encode (downloadPath c id), 0⟩, by rw [this], rfl⟩

/-- On a healthy device all the chunk requests are answered with success. -/
theorem healthy_run (c : Cfg) (hs : c.Sane) (hn : Cfg.Clean c) (id : Text) (hid : GoodName id) (hl : (utf8Encode id).length ≤ maxSize)
    (hdl : (utf8Encode (downloadPath c id)).length ≤ maxSize) (hout : ¬ lexKey c.root <+: downloadKey c id) (path : Text) (ns : List Text)
    (hp : PathOf path ns) (ms : List Move) (s : Sys) (hh : s.client.hung = false) (hf : ∀ m ∈ ms, m.fair) (hz : Sized (run c s ms).2)
    (chunks : List Chunk) (ho : ∀ ch ∈ chunks, ch.offset ≤ maxSize) (device : Bytes)
    (hreq : writeRequests (utf8Encode id) ms = chunkRequests (utf8Encode path) (utf8Encode (downloadPath c id)) device chunks)
    (hun : Undisturbed c (downloadKey c id) (Move.writes (utf8Encode id)) s ms) (hready : Ready c id path ns s ms)
    (hdev : device = [] ∨ (device = utf8Encode (downloadPath c id) ∧ ∃ cur, s.fs.content c.cwd (downloadPath c id) = some cur)) :
    (writeAnswers (utf8Encode id) (run c s ms).2).length = chunks.length ∧ ∀ a ∈ writeAnswers (utf8Encode id) (run c s ms).2, a.fail = 0 := by
  obtain ⟨hu, -⟩ := download_ups c hs (plain_tame hid.1).1
  induction ms generalizing s chunks device with
  | nil =>
    cases chunks with
    | nil => exact ⟨rfl, by simp [run, writeAnswers, sentOf]⟩
    | cons ch rest => simp [writeRequests, chunkRequests] at hreq
  | cons m ms ih =>
    simp only [run] at hz ⊢
    rw [sized_append] at hz
    obtain ⟨hz1, hz2⟩ := hz
    obtain ⟨u1, u2⟩ := hun
    obtain ⟨y1, y2⟩ := hready
    have hf1 := hf m (by simp)
    have hf2 : ∀ x ∈ ms, x.fair := fun x hx => hf x (by simp [hx])
    obtain ⟨-, hh'⟩ := answers_le c s hh (utf8Encode id) m hf1 hz1
    rw [writeAnswers_append]
    cases hw : m.write (utf8Encode id) with
    | none =>
      have hreq' : writeRequests (utf8Encode id) ms = chunkRequests (utf8Encode path) (utf8Encode (downloadPath c id)) device chunks := by
        rw [← hreq]; simp [writeRequests, hw]
      obtain ⟨f1, f2, -⟩ := foreign_move c s hh (utf8Encode id) (downloadPath c id) hu m hf1 hz1 hw (u1 (by simp [Move.writes, hw]))
      rw [f1, List.nil_append]
      exact ih _ hh' hf2 hz2 chunks ho device hreq' u2 y2 (hdev.imp_right (fun ⟨h1, cur, h2⟩ => ⟨h1, cur, f2 cur h2⟩))
    | some w =>
      cases chunks with
      | nil => simp [writeRequests, hw, chunkRequests] at hreq
      | cons ch rest =>
        simp only [writeRequests, List.filterMap_cons, hw, chunkRequests, List.cons.injEq] at hreq
        obtain ⟨hreq1, hreq2⟩ := hreq
        subst hreq1
        obtain ⟨⟨a, a1, a2⟩, a3⟩ := own_healthy c hs hn id hid hl hdl hout path ns hp s hh m hf1 hz1 (ho ch (by simp)) hw y1 hdev
        rw [a1]
        by_cases hr : rest = []
        · subst hr
          have h0 := (answers_run c (utf8Encode id) ms _ hh' hf2 hz2).1
          rw [show writeRequests (utf8Encode id) ms = [] from hreq2] at h0
          have : writeAnswers (utf8Encode id) (run c (step c s m).1 ms).2 = [] := List.eq_nil_of_length_eq_zero (by simpa using h0)
          rw [this]
          exact ⟨rfl, by simpa using a2⟩
        · obtain ⟨b1, b2⟩ := ih _ hh' hf2 hz2 rest (fun x hx => ho x (by simp [hx])) _ hreq2 u2 y2 (.inr ⟨rfl, a3 (by simp [hr])⟩)
          refine ⟨by simp [b1], ?_⟩
          intro x hx
          simp only [List.cons_append, List.nil_append, List.mem_cons] at hx
          rcases hx with rfl | hx
          · exact a2
          · exact b2 x hx

theorem ready_append {c : Cfg} {id path : Text} {ns : List Text} {s : Sys} {a b : List Move} :
    Ready c id path ns s (a ++ b) ↔ Ready c id path ns s a ∧ Ready c id path ns (run c s a).1 b := by
  induction a generalizing s with
  | nil => simp [Ready, run]
  | cons m a ih => simp [Ready, run, ih, and_assoc]

theorem chunkRequests_final (path device dv : Bytes) (chunks : List Chunk) (h : chunks ≠ []) :
    ∃ init v, chunkRequests path device dv chunks = init ++ [v] ∧ v.2.2.2.2 = 1 := by
  induction chunks generalizing dv with
  | nil => exact absurd rfl h
  | cons ch rest ih =>
    by_cases hr : rest = []
    · subst hr
      exact ⟨[], _, rfl, rfl⟩
    · obtain ⟨init, v, h1, h2⟩ := ih device hr
      exact ⟨_ :: init, v, by rw [chunkRequests, h1]; rfl, h2⟩

end Verif.RemoteFiles
