import Verif.Spec.Interference
import Verif.Props.RemoteDirectory
/-!
Helper lemmas for C176-C178.
-/
namespace Verif.Interference
open Path
open Verif.RemoteDirectory (Closed GoesUp Cfg WriteEnv)

/-! ### Names and places -/

theorem splitOn_last (p : Text) : ∃ pre, splitOn '/' p = pre ++ [(Path.split p).2] := by
  obtain ⟨h1, h2, h3⟩ := splitLast_spec p
  have e : (Path.split p).2 = (splitLast p).2 := by
    simp only [Path.split]; split <;> rfl
  rw [e]
  rcases h3 with h3 | ⟨h, h3⟩
  · rw [h3] at h1
    have hp : p = (splitLast p).2 := by simpa using h1.symm
    refine ⟨[], ?_⟩
    conv => lhs; rw [hp]
    rw [splitOn_plain _ _ h2]; rfl
  · have hp : p = h ++ '/' :: (splitLast p).2 := by rw [h3] at h1; simpa using h1.symm
    refine ⟨splitOn '/' h, ?_⟩
    conv => lhs; rw [hp]
    rw [splitOn_append, splitOn_plain _ _ h2]

theorem rstrip_id (p : Text) (h : (Path.split p).2 ≠ []) : RemoteDirectory.rstripSlash p = p := by
  obtain ⟨h1, h2, -⟩ := splitLast_spec p
  have e : (Path.split p).2 = (splitLast p).2 := by
    simp only [Path.split]; split <;> rfl
  rw [e] at h
  obtain ⟨t, x, ht⟩ : ∃ t x, (splitLast p).2 = t ++ [x] := by
    rcases List.eq_nil_or_concat (splitLast p).2 with h0 | ⟨t, x, hx⟩
    · exact absurd h0 h
    · exact ⟨t, x, by rw [hx, List.concat_eq_append]⟩
  have hx : x ≠ '/' := by intro e; apply h2; rw [ht, e]; simp
  have hp : p = ((splitLast p).1 ++ t) ++ [x] := by rw [List.append_assoc, ← ht, h1]
  rw [hp, RemoteDirectory.rstripSlash, List.reverse_append]
  simp [hx]

theorem walk_last {fs : FS} (hc : Closed fs) (cs : List Text) (x : Text) (k k' : List Text) (h : fs.walk k (cs ++ [x]) = some k') (hd : fs k' ≠ some .dir) :
    isName x = true := by
  induction cs generalizing k with
  | nil =>
    simp only [List.nil_append, FS.walk] at h
    split at h
    · rename_i hk
      injection h with h
      simp only [lexStep] at h
      split at h
      · rw [← h] at hd; exact absurd hk hd
      · rename_i h0
        split at h
        · exfalso
          rcases List.eq_nil_or_concat k with h1 | ⟨t, y, h1⟩
          · rw [h1] at h hk; rw [← h] at hd; exact hd hk
          · rw [h1, List.concat_eq_append] at h hk
            rw [List.dropLast_concat] at h
            rw [← h] at hd
            exact hd (hc t y (by rw [hk]; simp))
        · rename_i h2
          simp only [not_or] at h0
          simp [isName, h0.1, h0.2, h2]
    · exact (nomatch h)
  | cons c cs ih =>
    simp only [List.cons_append, FS.walk] at h
    split at h
    · exact ih _ h
    · exact (nomatch h)

theorem file_name {fs : FS} (hc : Closed fs) {cwd p : Text} {d : Bytes} (hcwd : cwd ≠ []) (h : fs.content cwd p = some d) :
    isName (Path.split p).2 = true := by
  obtain ⟨h1, h2⟩ := FS.content_some h
  simp only [FS.place] at h1
  split at h1
  · exact (nomatch h1)
  · obtain ⟨pre, hp⟩ := splitOn_last p
    have hl : ∃ pre, splitOn '/' (join cwd p) = pre ++ [(Path.split p).2] := by
      by_cases hh : p.head? = some '/'
      · rw [join_abs _ _ hh]; exact ⟨pre, hp⟩
      · obtain ⟨pre', e, -⟩ := splitOn_join cwd p hcwd hh
        exact ⟨pre' ++ pre, by rw [e, hp, List.append_assoc]⟩
    obtain ⟨pre', e⟩ := hl
    rw [e] at h1
    exact walk_last hc pre' _ _ _ h1 (by rw [h2]; simp)

theorem closed_prefix {fs : FS} (hc : Closed fs) (k r : List Text) (hr : r ≠ []) (h : fs (k ++ r) ≠ none) : fs k = some .dir := by
  induction r generalizing k with
  | nil => exact absurd rfl hr
  | cons a r ih =>
    by_cases h0 : r = []
    · subst h0; exact hc k a h
    · have := ih (k ++ [a]) h0 (by simpa using h)
      exact hc k a (by rw [this]; simp)

/-- A path without `..` that can be followed in one file system to a place that is no directory can be followed in any other one in which something is
at that place. -/
theorem walk_other {b fs : FS} (hc : Closed fs) (cs : List Text) (hu : ['.', '.'] ∉ cs) (k k' : List Text) (h : b.walk k cs = some k')
    (hb : b k' ≠ some .dir ∨ fs k' = some .dir) (hf : fs k' ≠ none) : fs.walk k cs = some k' := by
  induction cs generalizing k with
  | nil => simpa [FS.walk] using h
  | cons c cs ih =>
    have hu' : ['.', '.'] ∉ cs := fun hm => hu (by simp [hm])
    have hl := FS.walk_lex b _ _ _ h
    rw [foldl_lexStep _ _ hu] at hl
    simp only [FS.walk] at h ⊢
    split at h
    · rename_i hk
      have : fs k = some .dir := by
        by_cases e : (c :: cs).filter isName = []
        · rw [e, List.append_nil] at hl
          subst hl
          rcases hb with hb | hb
          · exact absurd hk hb
          · exact hb
        · exact closed_prefix hc k _ e (by rw [← hl]; exact hf)
      rw [if_pos this]
      exact ih hu' _ h
    · exact (nomatch h)

theorem free_target {b fs : FS} (hc : Closed fs) {cwd dst : Text} {k : List Text} (hu : ¬ GoesUp dst) (ha : dst.head? = some '/')
    (hfree : fs.pathExists cwd dst = false) (hw : b.writable cwd dst = some k) : fs k = none := by
  obtain ⟨w1, w2, w3⟩ := FS.writable_some hw
  apply Classical.byContradiction
  intro hf
  simp only [FS.place, join_abs _ _ ha] at w1
  split at w1
  · exact (nomatch w1)
  · rename_i hn
    have := walk_other hc _ hu _ _ w1 (.inl w3) hf
    have hp : fs.place cwd dst = some k := by simp only [FS.place, join_abs _ _ ha]; rw [if_neg hn]; exact this
    simp only [FS.pathExists, FS.stat, hp, Option.bind_some] at hfree
    rw [Option.isSome_eq_false_iff, Option.isNone_iff_eq_none] at hfree
    exact hf hfree

theorem free_below {b fs : FS} (hc : Closed fs) {cwd dst name : Text} {k : List Text} (hu : ¬ GoesUp dst) (ha : dst.head? = some '/')
    (hname : isName name = true) (hslash : '/' ∉ name) (hfree : fs.pathExists cwd dst = false) (hw : b.writable cwd (join dst name) = some k) : fs k = none := by
  obtain ⟨w1, w2, w3⟩ := FS.writable_some hw
  have hne : dst ≠ [] := RemoteDirectory.ne_nil_of_head ha
  have hh : name.head? ≠ some '/' := by
    intro e; apply hslash; exact List.mem_of_mem_head? (by rw [e]; simp)
  have hja : (join dst name).head? = some '/' := join_head _ _ ha
  have hnp : isName name = true := hname
  simp only [isName, Bool.and_eq_true, decide_eq_true_eq] at hname
  obtain ⟨pre, e1, e2⟩ := splitOn_join dst name hne hh
  rw [splitOn_plain _ _ hslash] at e1
  have hk : k = lexKey dst ++ [name] := by
    rw [w2, join_abs _ _ hja, lexKey, e1, List.foldl_append, e2]
    simp [lexStep, hname.1.1, hname.1.2, hname.2]
  apply Classical.byContradiction
  intro hf
  have hd : fs (lexKey dst) = some .dir := hc _ name (by rw [← hk]; exact hf)
  have hkey : lexKey dst = (splitOn '/' dst).filter isName := by
    rw [lexKey, foldl_lexStep _ _ hu, List.nil_append]
  -- all directories on the way are there
  have hall : ∀ (cs : List Text) (q : List Text), ['.', '.'] ∉ cs → q ++ cs.filter isName = lexKey dst → fs.walk q cs = some (lexKey dst) := by
    intro cs
    induction cs with
    | nil => intro q _ h; simpa [FS.walk] using h
    | cons c cs ih =>
      intro q hq h
      have hq' : ['.', '.'] ∉ cs := fun hm => hq (by simp [hm])
      have hdir : fs q = some .dir := by
        by_cases e : (c :: cs).filter isName = []
        · rw [e, List.append_nil] at h; rw [h]; exact hd
        · exact closed_prefix hc q _ e (by rw [h, hd]; simp)
      simp only [FS.walk]
      rw [if_pos hdir]
      refine ih _ hq' ?_
      have := foldl_lexStep (c :: cs) q hq
      rw [List.foldl_cons, foldl_lexStep _ _ hq'] at this
      rw [this, h]
  have hwalk := hall (splitOn '/' dst) [] hu (by rw [List.nil_append]; exact hkey.symm)
  have hnul : dst.contains (Char.ofNat 0) = false := by
    simp only [FS.place] at w1
    split at w1
    · exact (nomatch w1)
    · rename_i hn
      apply Bool.eq_false_iff.2
      intro hcon
      apply hn
      rw [List.contains_iff_mem] at hcon ⊢
      exact (join_prefix dst name hh).subset hcon
  have hp : fs.place cwd dst = some (lexKey dst) := by
    simp only [FS.place, join_abs _ _ ha, hnul, Bool.false_eq_true, if_false]; exact hwalk
  simp [FS.pathExists, FS.stat, hp, hd] at hfree

/-! ### The run -/

/-- `b` comes out of `a` by what other programs do. -/
inductive Later (o : Others) : FS → FS → Prop where
  | refl (a : FS) : Later o a a
  | step {a b : FS} (i : Nat) : Later o a b → Later o a (o i b)

theorem Later.trans {o : Others} {a b c : FS} (h1 : Later o a b) (h2 : Later o b c) : Later o a c := by
  induction h2 with
  | refl => exact h1
  | step i _ ih => exact .step i ih

theorem Later.closed {o : Others} (ho : Fair o) {a b : FS} (h : Later o a b) (ha : Closed a) : Closed b := by
  induction h with
  | refl => exact ha
  | step i _ ih => exact ho i _ ih

theorem Later.none {o : Others} (ho : MakesNothing o) {a b : FS} (h : Later o a b) {k : List Text} (ha : a k = none) : b k = none := by
  induction h with
  | refl => exact ha
  | step i _ ih => exact ho i _ _ ih

theorem findFree_eq (o : Others) (cwd dirname basename ext : Text) (left i : Nat) (fs : FS) (dest : Text) :
    findFree o cwd dirname basename ext left i fs dest =
      if (o i fs).pathExists cwd dest then
        match left with
        | 0 => (o i fs, i + 1, none)
        | left + 1 => findFree o cwd dirname basename ext left (i + 1) (o i fs) (RemoteDirectory.copyName dirname basename (100 - left) ext)
      else (o i fs, i + 1, some dest) := by
  cases left <;> rw [findFree]

theorem findFree_later {o : Others} {cwd dirname basename ext : Text} {left i : Nat} {fs : FS} {dest : Text} :
    Later o fs (findFree o cwd dirname basename ext left i fs dest).1 := by
  induction left generalizing i fs dest with
  | zero => rw [findFree_eq]; split <;> exact .step i (.refl fs)
  | succ n ih =>
    rw [findFree_eq]
    split
    · have h := ih (i := i + 1) (fs := o i fs) (dest := RemoteDirectory.copyName dirname basename (100 - n) ext)
      exact Later.trans (.step i (.refl fs)) h
    · exact .step i (.refl fs)

theorem findFree_free {o : Others} {cwd dirname basename ext : Text} {left i : Nat} {fs : FS} {dest : Text} {fs' : FS} {j : Nat} {d : Text}
    (hd : dirname.head? = some '/') (ha : dest.head? = some '/')
    (h : findFree o cwd dirname basename ext left i fs dest = (fs', j, some d)) : fs'.pathExists cwd d = false ∧ d.head? = some '/' := by
  have habs : ∀ n, (RemoteDirectory.copyName dirname basename n ext).head? = some '/' := by
    intro n
    cases dirname with
    | nil => exact (nomatch hd)
    | cons x r => simpa [RemoteDirectory.copyName] using hd
  induction left generalizing i fs dest with
  | zero =>
    rw [findFree_eq] at h
    split at h
    · injection h with _ h; injection h with _ h; exact (nomatch h)
    · rename_i hn
      injection h with h1 h; injection h with _ h; injection h with h
      subst h1 h
      exact ⟨by simpa using hn, ha⟩
  | succ n ih =>
    rw [findFree_eq] at h
    split at h
    · exact ih (habs _) h
    · rename_i hn
      injection h with h1 h; injection h with _ h; injection h with h
      subst h1 h
      exact ⟨by simpa using hn, ha⟩

theorem destination_free {o : Others} {c : Cfg} (hr : c.root.head? = some '/') {fs fs' : FS} {path : Bytes} {i : Nat} {d : Text}
    (h : destination o c fs path = (fs', i, some d)) : fs'.pathExists c.cwd d = false ∧ d.head? = some '/' ∧ Later o (o 0 fs) fs' := by
  simp only [destination] at h
  split at h
  · injection h with _ h; injection h with _ h; exact (nomatch h)
  · rename_i p _
    have ha : (join c.root (lstripSlash p)).head? = some '/' := join_head _ _ hr
    have hd : (if (o 0 fs).isDir c.cwd (Path.split (join c.root (lstripSlash p))).1 = true then (Path.split (join c.root (lstripSlash p))).1 else c.root).head?
        = some '/' := by
      split
      · exact split_head _ ha
      · exact hr
    obtain ⟨h1, h2⟩ := findFree_free hd ha h
    have h3 := findFree_later (o := o) (cwd := c.cwd)
      (dirname := if (o 0 fs).isDir c.cwd (Path.split (join c.root (lstripSlash p))).1 = true then (Path.split (join c.root (lstripSlash p))).1 else c.root)
      (basename := (splitext (Path.split (join c.root (lstripSlash p))).2).1) (ext := (splitext (Path.split (join c.root (lstripSlash p))).2).2)
      (left := 100) (i := 1) (fs := o 0 fs) (dest := join c.root (lstripSlash p))
    rw [h] at h3
    exact ⟨h1, h2, h3⟩

theorem rename_some {cwd : Text} {b : Bool} {fs fs' : FS} {src dst : Text} (h : rename cwd b fs src dst = some fs') :
    ∃ d k', fs.content cwd src = some d ∧ fs.writable cwd dst = some k' ∧ b = true ∧
      fs' = (fs.set (lexKey (join cwd src)) none).set k' (some (.file d)) := by
  simp only [rename] at h
  split at h
  · rename_i k d k' h1 h2 h3
    split at h
    · rename_i hb
      injection h with h
      exact ⟨d, k', h2, h3, hb, by rw [← h, FS.place_lex h1]⟩
    · exact (nomatch h)
  · exact (nomatch h)

/-- Where the agent may put the file. -/
def Target (b : FS) (cwd src dst : Text) (k : List Text) : Prop :=
  (∃ d, b.content cwd src = some d) ∧
    (b.writable cwd dst = some k ∨ b.writable cwd (join dst (Path.split (RemoteDirectory.rstripSlash src)).2) = some k)

theorem rename_target {cwd : Text} {p : Bool} {fs fs' : FS} {src dst : Text} (h : rename cwd p fs src dst = some fs') {k : List Text}
    (hk : k ≠ lexKey (join cwd src)) (hne : fs' k ≠ fs k) : (∃ d, fs.content cwd src = some d) ∧ fs.writable cwd dst = some k := by
  obtain ⟨d, k', h1, h2, -, h4⟩ := rename_some h
  refine ⟨⟨d, h1⟩, ?_⟩
  by_cases e : k = k'
  · rw [e]; exact h2
  · exfalso; apply hne; rw [h4, FS.set_other _ _ e, FS.set_other _ _ hk]

theorem copyOver_own {o : Others} {cwd : Text} {env : WriteEnv} {i : Nat} {fs : FS} {src real : Text} {b a : FS}
    (h : (b, a) ∈ (copyOver o cwd env i fs src real).own) {k : List Text} (hk : k ≠ lexKey (join cwd src)) (hne : a k ≠ b k) :
    b = fs ∧ (∃ d, b.content cwd src = some d) ∧ b.writable cwd real = some k := by
  simp only [copyOver] at h
  split at h
  · rename_i d k' h1 h2
    have one : ∀ n, (b, a) = (fs, fs.set k' n) → b = fs ∧ (∃ d, b.content cwd src = some d) ∧ b.writable cwd real = some k := by
      intro n he
      injection he with e1 e2
      subst e1 e2
      refine ⟨rfl, ⟨d, h1⟩, ?_⟩
      by_cases e : k = k'
      · rw [e]; exact h2
      · exact absurd (FS.set_other _ _ e) hne
    split at h
    · exact (nomatch h)
    · split at h
      · exact (nomatch h)
      · rw [List.mem_singleton] at h
        exact one _ h
      · rw [List.mem_cons, List.mem_singleton] at h
        rcases h with h | h
        · exact one _ h
        · injection h with e1 e2
          subst e1 e2
          exact absurd (RemoteDirectory.remove_only _ _ _ _ _ hne) hk
  · exact (nomatch h)

theorem moveTo_own {o : Others} {cwd : Text} {env : WriteEnv} {i : Nat} {fs : FS} {src real : Text} {b a : FS}
    (h : (b, a) ∈ (moveTo o cwd env i fs src real).own) {k : List Text} (hk : k ≠ lexKey (join cwd src)) (hne : a k ≠ b k) :
    Later o fs b ∧ (∃ d, b.content cwd src = some d) ∧ b.writable cwd real = some k := by
  simp only [moveTo] at h
  split at h
  · rename_i fs4 hr
    rw [List.mem_singleton] at h
    injection h with e1 e2
    subst e1 e2
    exact ⟨.step _ (.refl _), rename_target hr hk hne⟩
  · obtain ⟨e, t⟩ := copyOver_own h hk hne
    subst e
    exact ⟨.step _ (.step _ (.refl _)), t⟩

theorem move_own {o : Others} {cwd : Text} {env : WriteEnv} {i : Nat} {fs : FS} {src dst : Text} {b a : FS}
    (h : (b, a) ∈ (move o cwd env i fs src dst).own) {k : List Text} (hk : k ≠ lexKey (join cwd src)) (hne : a k ≠ b k) :
    Later o fs b ∧ Target b cwd src dst k := by
  simp only [move] at h
  split at h
  · split at h
    · exact (nomatch h)
    · obtain ⟨h1, h2, h3⟩ := moveTo_own h hk hne
      exact ⟨Later.trans (.step _ (.step _ (.refl _))) h1, h2, .inr h3⟩
  · obtain ⟨h1, h2, h3⟩ := moveTo_own h hk hne
    exact ⟨Later.trans (.step _ (.refl _)) h1, h2, .inl h3⟩

theorem store_own {o : Others} {cwd : Text} {env : WriteEnv} {i : Nat} {fs : FS} {src dst : Text} {b a : FS}
    (h : (b, a) ∈ (store o cwd env i fs src dst).own) {k : List Text} (hk : k ≠ lexKey (join cwd src)) (hne : a k ≠ b k) :
    Later o fs b ∧ Target b cwd src dst k := by
  simp only [store] at h
  split at h
  · rename_i fs2 hr
    rw [List.mem_singleton] at h
    injection h with e1 e2
    subst e1 e2
    obtain ⟨t1, t2⟩ := rename_target hr hk hne
    exact ⟨.step _ (.refl _), t1, .inl t2⟩
  · obtain ⟨h1, h2⟩ := move_own h hk hne
    refine ⟨?_, h2⟩
    exact Later.trans (.step _ (.refl _)) h1

/-! ### Without other programs -/

/-- Nobody else does anything. -/
def nobody : Others := fun _ fs => fs

theorem findFree_nobody (cwd dirname basename ext : Text) (left i : Nat) (fs : FS) (dest : Text) :
    ∃ j, findFree nobody cwd dirname basename ext left i fs dest = (fs, j, RemoteDirectory.findFree fs cwd dirname basename ext left dest) := by
  induction left generalizing i dest with
  | zero =>
    rw [findFree_eq, RemoteDirectory.findFree_eq]
    by_cases h : fs.pathExists cwd dest = true
    · rw [if_pos (show (nobody i fs).pathExists cwd dest = true from h), if_pos h]; exact ⟨_, rfl⟩
    · rw [if_neg (show ¬ (nobody i fs).pathExists cwd dest = true from h), if_neg h]; exact ⟨_, rfl⟩
  | succ n ih =>
    rw [findFree_eq, RemoteDirectory.findFree_eq]
    by_cases h : fs.pathExists cwd dest = true
    · rw [if_pos (show (nobody i fs).pathExists cwd dest = true from h), if_pos h]; exact ih _ _
    · rw [if_neg (show ¬ (nobody i fs).pathExists cwd dest = true from h), if_neg h]; exact ⟨_, rfl⟩

theorem destination_nobody (c : Cfg) (fs : FS) (path : Bytes) : ∃ j, destination nobody c fs path = (fs, j, RemoteDirectory.destination c fs path) := by
  simp only [destination, RemoteDirectory.destination]
  cases utf8Decode path with
  | none => exact ⟨0, rfl⟩
  | some p => exact findFree_nobody _ _ _ _ _ _ _ _

theorem store_nobody (cwd : Text) (env : WriteEnv) (i : Nat) (fs : FS) (src dst : Text) (hfree : fs.pathExists cwd dst = false)
    (hsrc : fs.isDir cwd src = false) : ((store nobody cwd env i fs src dst).fs, (store nobody cwd env i fs src dst).ok) =
      RemoteDirectory.moveFile cwd env.renameOk env.copy env.unlinkOk env.tree fs src dst := by
  have hnd : fs.isDir cwd dst = false := by
    cases hs : fs.stat cwd dst with
    | none => simp [FS.isDir, hs]
    | some n => simp [FS.pathExists, hs] at hfree
  cases hc : fs.content cwd src with
  | none =>
    have hm : RemoteDirectory.moveFile cwd env.renameOk env.copy env.unlinkOk env.tree fs src dst = (fs, false) := by
      simp only [RemoteDirectory.moveFile]
      split
      · rename_i he; simp [FS.content, he] at hc
      · rename_i he; simp [FS.isDir, he] at hsrc
      · rfl
    rw [hm]
    have hr : rename cwd env.renameOk fs src dst = none := by
      cases h : rename cwd env.renameOk fs src dst with
      | none => rfl
      | some x => obtain ⟨d, k', h1, -⟩ := rename_some h; rw [hc] at h1; exact (nomatch h1)
    simp [store, move, moveTo, copyOver, nobody, hr, hnd, hc]
  | some d =>
    obtain ⟨p1, p2⟩ := FS.content_some hc
    have hst := FS.content_stat hc
    cases hw : fs.writable cwd dst with
    | none =>
      have hr : rename cwd env.renameOk fs src dst = none := by
        cases h : rename cwd env.renameOk fs src dst with
        | none => rfl
        | some x => obtain ⟨d, k', -, h1, -⟩ := rename_some h; rw [hw] at h1; exact (nomatch h1)
      simp [store, move, moveTo, copyOver, nobody, hr, hnd, hc, hw, RemoteDirectory.moveFile, p1, hst]
    | some k' =>
      obtain ⟨w1, w2, w3⟩ := FS.writable_some hw
      have hnone : fs k' = none := by
        simp only [FS.pathExists, FS.stat, w1, Option.bind_some] at hfree
        rw [Option.isSome_eq_false_iff, Option.isNone_iff_eq_none] at hfree
        exact hfree
      have hkk : lexKey (join cwd src) ≠ k' := by intro e; rw [← e, p2] at hnone; exact (nomatch hnone)
      cases hb : env.renameOk with
      | true => simp [store, nobody, rename, hb, p1, hc, hw, RemoteDirectory.moveFile, hst]
      | false =>
        have hr : rename cwd false fs src dst = none := by simp [rename, p1, hc, hw]
        have hsame : ¬ some (lexKey (join cwd src)) = some k' := fun e => hkk (by injection e)
        have hset : ∀ n : Node, (fs.set k' (some n)).content cwd src = some d := by
          intro n
          have hm : (fs.set k' (some n)).place cwd src = some (lexKey (join cwd src)) := by
            refine FS.place_mono ?_ p1
            intro x hx
            rw [FS.set_other _ _ (by intro e; rw [e, hnone] at hx; exact (nomatch hx))]
            exact hx
          exact FS.content_of hm (by rw [FS.set_other _ _ hkk]; exact p2)
        cases hio : env.copy with
        | fails n =>
          cases n <;> simp [store, move, moveTo, copyOver, nobody, hb, hr, hnd, hc, hw, p1, hsame, hio, RemoteDirectory.moveFile, hst]
        | good =>
          have q := hset (.file d)
          obtain ⟨q1, q2⟩ := FS.content_some q
          cases hu : env.unlinkOk with
          | false => simp [store, move, moveTo, copyOver, nobody, hb, hr, hnd, hc, hw, p1, hsame, hio, RemoteDirectory.moveFile, hst, hu, RemoteDirectory.remove]
          | true =>
            have hcomm : (fs.set k' (some (.file d))).set (lexKey (join cwd src)) none = (fs.set (lexKey (join cwd src)) none).set k' (some (.file d)) := by
              funext x
              simp only [FS.set]
              by_cases a : x = lexKey (join cwd src)
              · by_cases b : x = k'
                · exact absurd (a.symm.trans b) hkk
                · simp [a, hkk]
              · simp [a]
            simp [store, move, moveTo, copyOver, nobody, hb, hr, hnd, hc, hw, p1, hsame, hio, RemoteDirectory.moveFile, hst, hu, RemoteDirectory.remove, q, q1, q2, hcomm]

/-! ### Copies -/

theorem copyLoop_bytes (f : Nat → Bytes) (size : Nat → Nat) (fuel i : Nat) (got d : Bytes) (h : copyLoop f size fuel i got = some d) (j : Nat) (x : UInt8)
    (hx : d[j]? = some x) : got[j]? = some x ∨ ∃ t, i ≤ t ∧ (f t)[j]? = some x := by
  induction fuel generalizing i got with
  | zero => exact (nomatch h)
  | succ fuel ih =>
    simp only [copyLoop] at h
    split at h
    · injection h with h; subst h; exact .inl hx
    · rcases ih _ _ h with h1 | ⟨t, h1, h2⟩
      · by_cases hj : j < got.length
        · rw [List.getElem?_append_left hj] at h1; exact .inl h1
        · rw [List.getElem?_append_right (by omega)] at h1
          refine .inr ⟨i, Nat.le_refl _, ?_⟩
          rw [List.getElem?_take] at h1
          split at h1
          · rw [List.getElem?_drop] at h1
            rw [show j = got.length + (j - got.length) by omega]
            exact h1
          · exact (nomatch h1)
      · exact .inr ⟨t, by omega, h2⟩

theorem appended_le {f : Nat → Bytes} (h : Appended f) (i n : Nat) : f i <+: f (i + n) := by
  induction n with
  | zero => exact List.prefix_refl _
  | succ n ih => exact ih.trans (h _)

theorem take_drop_prefix {got l : Bytes} (n : Nat) (h : got <+: l) : got ++ (l.drop got.length).take n <+: l := by
  obtain ⟨r, rfl⟩ := h
  rw [List.drop_left, List.prefix_append_right_inj]
  exact List.take_prefix _ _

theorem copyLoop_appended {f : Nat → Bytes} (hf : Appended f) (size : Nat → Nat) (fuel i : Nat) (got d : Bytes) (hg : got <+: f i)
    (h : copyLoop f size fuel i got = some d) : ∃ t, i ≤ t ∧ d = f t := by
  induction fuel generalizing i got with
  | zero => exact (nomatch h)
  | succ fuel ih =>
    simp only [copyLoop] at h
    split at h
    · rename_i hp
      injection h with h
      subst h
      refine ⟨i, Nat.le_refl _, ?_⟩
      obtain ⟨r, hr⟩ := hg
      rw [← hr, List.drop_left] at hp
      cases r with
      | nil => simpa using hr
      | cons a r => simp at hp
    · obtain ⟨t, h1, h2⟩ := ih _ _ ((take_drop_prefix _ hg).trans (hf i)) h
      exact ⟨t, by omega, h2⟩

theorem copyLoop_same (d : Bytes) (f : Nat → Bytes) (size : Nat → Nat) (i : Nat) (hf : ∀ t, i ≤ t → f t = d) (got : Bytes) (hg : got <+: d)
    (n : Nat) (hn : d.length - got.length ≤ n) : copyLoop f size (n + 1) i got = some d := by
  induction n generalizing i got with
  | zero =>
    obtain ⟨r, rfl⟩ := hg
    have : r = [] := by
      rw [List.length_append] at hn
      exact List.eq_nil_of_length_eq_zero (by omega)
    subst this
    simp [copyLoop, hf i (Nat.le_refl _)]
  | succ n ih =>
    rw [copyLoop]
    simp only [hf i (Nat.le_refl _)]
    split
    · rename_i hp
      obtain ⟨r, rfl⟩ := hg
      rw [List.drop_left] at hp
      cases r with
      | nil => simp
      | cons a r => simp at hp
    · rename_i hp
      refine ih _ (fun t ht => hf t (by omega)) _ (take_drop_prefix _ hg) ?_
      have : 0 < (List.take (size i + 1) (List.drop got.length d)).length := List.length_pos_iff.2 hp
      rw [List.length_append]
      omega

theorem copyLoop_endless {f : Nat → Bytes} {size : Nat → Nat} (hf : ∀ i, (f i).length + size i + 1 ≤ (f (i + 1)).length) (fuel i : Nat) (got : Bytes)
    (hg : got.length < (f i).length) : copyLoop f size fuel i got = none := by
  induction fuel generalizing i got with
  | zero => rfl
  | succ fuel ih =>
    rw [copyLoop]
    have hp : ¬ (List.take (size i + 1) (List.drop got.length (f i))) = [] := by
      intro e
      have := congrArg List.length e
      rw [List.length_take, List.length_drop] at this
      simp at this
      omega
    simp only [if_neg hp]
    refine ih _ _ ?_
    rw [List.length_append, List.length_take, List.length_drop]
    have := hf i
    omega

end Verif.Interference
