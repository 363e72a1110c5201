import Verif.Py.FS
/-!
Lemmas about paths and file systems.
-/
namespace Verif
open Path

theorem splitOn_ne_nil (sep : Char) (s : Text) : splitOn sep s ≠ [] := by
  cases s with
  | nil => simp [splitOn]
  | cons x xs =>
    simp only [splitOn]
    split
    · simp
    · split <;> simp

theorem splitOn_append (sep : Char) (a b : Text) : splitOn sep (a ++ sep :: b) = splitOn sep a ++ splitOn sep b := by
  induction a with
  | nil => simp [splitOn]
  | cons x a ih =>
    simp only [List.cons_append, splitOn, ih]
    split
    · rfl
    · cases h : splitOn sep a with
      | nil => exact absurd h (splitOn_ne_nil sep a)
      | cons y ys => simp

theorem splitOn_plain (sep : Char) (s : Text) (h : sep ∉ s) : splitOn sep s = [s] := by
  induction s with
  | nil => rfl
  | cons x s ih =>
    have hx : ¬ x = sep := fun e => h (by simp [e])
    simp only [splitOn, hx, if_false, ih (fun hm => h (by simp [hm]))]

theorem splitOn_mem (sep : Char) (s p : Text) (h : p ∈ splitOn sep s) : sep ∉ p := by
  induction s generalizing p with
  | nil => simp [splitOn] at h; simp [h]
  | cons x s ih =>
    simp only [splitOn] at h
    split at h
    · rcases List.mem_cons.mp h with h | h
      · simp [h]
      · exact ih p h
    · rename_i hx
      split at h
      · simp at h; subst h; simp; exact fun e => hx e.symm
      · rename_i y ys he
        rcases List.mem_cons.mp h with h | h
        · subst h
          have := ih y (by rw [he]; simp)
          simp only [List.mem_cons, not_or]
          exact ⟨fun e => hx e.symm, this⟩
        · exact ih p (by rw [he]; simp [h])

theorem splitOn_joinWith (sep : Char) (ps : List Text) (hne : ps ≠ []) (h : ∀ p ∈ ps, sep ∉ p) : splitOn sep (joinWith sep ps) = ps := by
  induction ps with
  | nil => exact absurd rfl hne
  | cons p ps ih =>
    cases ps with
    | nil => simp only [joinWith]; exact splitOn_plain sep p (h p (by simp))
    | cons q r =>
      simp only [joinWith]
      rw [splitOn_append, splitOn_plain sep p (h p (by simp)), ih (by simp) (fun x hx => h x (by simp [hx]))]
      rfl

/-- Names that lead down. -/
def isName (c : Text) : Bool := c ≠ [] && c ≠ ['.'] && c ≠ ['.', '.']

theorem foldl_lexStep (cs : List Text) (acc : List Text) (h : ['.', '.'] ∉ cs) :
    cs.foldl lexStep acc = acc ++ cs.filter isName := by
  induction cs generalizing acc with
  | nil => simp
  | cons c cs ih =>
    have hc : c ≠ ['.', '.'] := fun e => h (by simp [e])
    rw [List.foldl_cons, ih _ (fun hm => h (by simp [hm]))]
    simp only [lexStep, hc, if_false, List.filter_cons, isName]
    by_cases h1 : c = []
    · simp [h1]
    · by_cases h2 : c = ['.']
      · simp [h2]
      · simp [h1, h2, hc]

theorem lexKey_join (a b : Text) (ha : a ≠ []) (hb : b.head? ≠ some '/') :
    lexKey (join a b) = (splitOn '/' b).foldl lexStep (lexKey a) := by
  simp only [join, hb, if_false, ha, false_or]
  split
  · rename_i hl
    obtain ⟨r, hr⟩ : ∃ r, a = r ++ ['/'] := by
      rw [List.getLast?_eq_some_iff] at hl
      exact hl
    subst hr
    have h1 : splitOn '/' (r ++ ['/'] ++ b) = splitOn '/' r ++ splitOn '/' b := by
      rw [List.append_assoc]; exact splitOn_append '/' r b
    have h2 : splitOn '/' (r ++ ['/']) = splitOn '/' r ++ [[]] := splitOn_append '/' r []
    simp only [lexKey, h1, h2, List.foldl_append, List.foldl_cons, List.foldl_nil]
    simp [lexStep]
  · simp only [lexKey, splitOn_append, List.foldl_append]

theorem split_join (a b : Text) (ha : a ≠ []) (hb : b.head? ≠ some '/') :
    ['.', '.'] ∈ splitOn '/' (join a b) ↔ ['.', '.'] ∈ splitOn '/' a ∨ ['.', '.'] ∈ splitOn '/' b := by
  simp only [join, hb, if_false, ha, false_or]
  split
  · rename_i hl
    obtain ⟨r, hr⟩ : ∃ r, a = r ++ ['/'] := by
      rw [List.getLast?_eq_some_iff] at hl
      exact hl
    subst hr
    have h1 : splitOn '/' (r ++ ['/'] ++ b) = splitOn '/' r ++ splitOn '/' b := by
      rw [List.append_assoc]; exact splitOn_append '/' r b
    have h2 : splitOn '/' (r ++ ['/']) = splitOn '/' r ++ [[]] := splitOn_append '/' r []
    rw [h1, h2]
    simp
  · rw [splitOn_append]; simp

theorem lstripSlash_head (s : Text) : (lstripSlash s).head? ≠ some '/' := by
  induction s with
  | nil => simp [lstripSlash]
  | cons x s ih =>
    simp only [lstripSlash, List.dropWhile_cons] at ih ⊢
    split
    · exact ih
    · rename_i h; simpa using h

/-- Stripping leading slashes does not change the named components. -/
theorem lstripSlash_split (s : Text) : (splitOn '/' (lstripSlash s)).filter isName = (splitOn '/' s).filter isName ∧
    (['.', '.'] ∈ splitOn '/' (lstripSlash s) ↔ ['.', '.'] ∈ splitOn '/' s) := by
  induction s with
  | nil => simp [lstripSlash]
  | cons x s ih =>
    simp only [lstripSlash, List.dropWhile_cons] at ih ⊢
    split
    · rename_i h
      simp at h
      subst h
      simp only [splitOn, if_true, List.filter_cons]
      simp only [show isName [] = false from rfl, Bool.false_eq_true, if_false, List.mem_cons]
      simpa using ih
    · exact ⟨rfl, Iff.rfl⟩

theorem startsWith_iff (p s : Text) : startsWith p s = true ↔ p <+: s := by
  simp [startsWith]

theorem join_prefix (a b : Text) (hb : b.head? ≠ some '/') : a <+: join a b := by
  simp only [join, hb, if_false]
  split <;> simp

/-! ### `normpath` of an absolute path -/

theorem normStep_abs (acc : List Text) (c : Text) (h : ['.', '.'] ∉ acc) :
    normStep true acc c = lexStep acc c ∧ ['.', '.'] ∉ lexStep acc c := by
  have hl : acc.getLast? ≠ some ['.', '.'] := fun e => h (List.mem_of_getLast? e)
  simp only [normStep, lexStep]
  by_cases h1 : c = [] ∨ c = ['.']
  · simp [h1, h]
  · by_cases h2 : c = ['.', '.']
    · subst h2
      simp only [h1, if_false, if_true, ne_eq, not_true_eq_false, hl, false_or]
      simp
      exact fun hm => h ((List.dropLast_sublist _).subset hm)
    · simp [h1, h2, h]
      exact fun e => h2 e.symm

theorem foldl_normStep (cs : List Text) (acc : List Text) (h : ['.', '.'] ∉ acc) :
    cs.foldl (normStep true) acc = cs.foldl lexStep acc ∧ ['.', '.'] ∉ cs.foldl lexStep acc := by
  induction cs generalizing acc with
  | nil => exact ⟨rfl, h⟩
  | cons c cs ih =>
    obtain ⟨h1, h2⟩ := normStep_abs acc c h
    simp only [List.foldl_cons, h1]
    exact ih _ h2

theorem foldl_lexStep_names (cs : List Text) (acc : List Text) (hs : ∀ c ∈ cs, '/' ∉ c)
    (h : ∀ c ∈ acc, '/' ∉ c ∧ isName c = true) : ∀ c ∈ cs.foldl lexStep acc, '/' ∉ c ∧ isName c = true := by
  induction cs generalizing acc with
  | nil => exact h
  | cons c cs ih =>
    rw [List.foldl_cons]
    apply ih
    · exact fun x hx => hs x (by simp [hx])
    · intro x hx
      simp only [lexStep] at hx
      split at hx
      · exact h x hx
      · rename_i h1
        split at hx
        · exact h x ((List.dropLast_sublist _).subset hx)
        · rename_i h2
          rcases List.mem_append.mp hx with hx | hx
          · exact h x hx
          · simp at hx
            subst hx
            refine ⟨hs x (by simp), ?_⟩
            simp only [isName, not_or] at h1 ⊢
            simp [h1, h2]

/-- The names on the way to a place are proper names. -/
theorem lexKey_names (p : Text) : ∀ c ∈ lexKey p, '/' ∉ c ∧ isName c = true :=
  foldl_lexStep_names _ _ (fun c hc => splitOn_mem '/' p c hc) (by simp)

theorem filter_names (ks : List Text) (h : ∀ c ∈ ks, '/' ∉ c ∧ isName c = true) : ks.filter isName = ks := by
  apply List.filter_eq_self.mpr
  exact fun c hc => (h c hc).2

theorem names_no_up (ks : List Text) (h : ∀ c ∈ ks, '/' ∉ c ∧ isName c = true) : ['.', '.'] ∉ ks := by
  intro hm
  exact absurd (h _ hm).2 (by decide)

/-- The components of slashes followed by joined names. -/
theorem slashes_split (n : Nat) (ks : List Text) (h : ∀ c ∈ ks, '/' ∉ c ∧ isName c = true) :
    ∃ es, splitOn '/' (List.replicate n '/' ++ joinWith '/' ks) = es ++ (if ks = [] then [[]] else ks) ∧ ∀ e ∈ es, e = [] := by
  induction n with
  | zero =>
    refine ⟨[], ?_, by simp⟩
    by_cases hk : ks = []
    · subst hk; simp [joinWith, splitOn]
    · simp only [hk, if_false, List.replicate_zero, List.nil_append]
      exact splitOn_joinWith '/' ks hk (fun p hp => (h p hp).1)
  | succ n ih =>
    obtain ⟨es, h1, h2⟩ := ih
    refine ⟨[] :: es, ?_, by simpa using h2⟩
    rw [List.replicate_succ, List.cons_append]
    simp only [splitOn, if_true, h1, List.cons_append]

theorem slashes_key (n : Nat) (ks : List Text) (h : ∀ c ∈ ks, '/' ∉ c ∧ isName c = true) :
    lexKey (List.replicate n '/' ++ joinWith '/' ks) = ks ∧ ['.', '.'] ∉ splitOn '/' (List.replicate n '/' ++ joinWith '/' ks) := by
  obtain ⟨es, h1, h2⟩ := slashes_split n ks h
  have hno : ['.', '.'] ∉ es ++ (if ks = [] then [[]] else ks) := by
    intro hm
    rcases List.mem_append.mp hm with hm | hm
    · exact absurd (h2 _ hm) (by decide)
    · split at hm
      · simp at hm
      · exact names_no_up ks h hm
  refine ⟨?_, by rw [h1]; exact hno⟩
  rw [lexKey, h1, foldl_lexStep _ _ hno, List.filter_append]
  have he : es.filter isName = [] := by
    rw [List.filter_eq_nil_iff]
    intro e he
    rw [h2 e he]; decide
  rw [he]
  by_cases hk : ks = []
  · subst hk; decide
  · simp only [hk, if_false, List.nil_append]
    exact filter_names ks h

/-- `normpath` keeps the place that an absolute path names, and removes all `..`. -/
theorem normpath_abs (p : Text) (h : p.head? = some '/') :
    lexKey (normpath p) = lexKey p ∧ ['.', '.'] ∉ splitOn '/' (normpath p) ∧ (normpath p).head? = some '/' := by
  have hne : p ≠ [] := by intro e; subst e; simp at h
  simp only [normpath, hne, if_false, h, if_true]
  have hs : ∃ n, (if (startsWith ['/', '/'] p && !startsWith ['/', '/', '/'] p) = true then 2 else 1) = n + 1 := by
    split
    · exact ⟨1, rfl⟩
    · exact ⟨0, rfl⟩
  obtain ⟨n, hn⟩ := hs
  rw [hn]
  have hb : (n + 1 != 0) = true := by simp
  rw [hb, (foldl_normStep (splitOn '/' p) [] (by simp)).1]
  have hnames : ∀ c ∈ (splitOn '/' p).foldl lexStep [], '/' ∉ c ∧ isName c = true := lexKey_names p
  have hcons : List.replicate (n + 1) '/' ++ joinWith '/' ((splitOn '/' p).foldl lexStep []) ≠ [] := by simp
  simp only [hcons, if_false]
  obtain ⟨k1, k2⟩ := slashes_key (n + 1) _ hnames
  exact ⟨k1, k2, by simp [List.replicate_succ]⟩

theorem join_head (a b : Text) (ha : a.head? = some '/') : (join a b).head? = some '/' := by
  simp only [join]
  split
  · assumption
  · cases a with
    | nil => simp at ha
    | cons x a => split <;> simpa using ha

theorem abspath_spec (cwd p : Text) (h : cwd.head? = some '/') :
    lexKey (abspath cwd p) = lexKey (join cwd p) ∧ ['.', '.'] ∉ splitOn '/' (abspath cwd p) ∧ (abspath cwd p).head? = some '/' :=
  normpath_abs _ (join_head cwd p h)

theorem join_abs (cwd p : Text) (h : p.head? = some '/') : join cwd p = p := by simp [join, h]

/-! ### `split` -/

theorem splitOn_join (a b : Text) (ha : a ≠ []) (hb : b.head? ≠ some '/') :
    ∃ pre, splitOn '/' (join a b) = pre ++ splitOn '/' b ∧ pre.foldl lexStep [] = lexKey a := by
  simp only [join, hb, if_false, ha, false_or]
  split
  · rename_i hl
    obtain ⟨a', rfl⟩ : ∃ a', a = a' ++ ['/'] := by
      exact List.getLast?_eq_some_iff.1 hl
    refine ⟨splitOn '/' a', by rw [List.append_assoc]; exact splitOn_append _ _ _, ?_⟩
    rw [lexKey, splitOn_append, List.foldl_append]
    simp [splitOn, lexStep]
  · exact ⟨splitOn '/' a, splitOn_append _ _ _, rfl⟩

theorem splitLast_spec (p : Text) : (splitLast p).1 ++ (splitLast p).2 = p ∧ '/' ∉ (splitLast p).2 ∧
    ((splitLast p).1 = [] ∨ ∃ h, (splitLast p).1 = h ++ ['/']) := by
  have hsplit := List.takeWhile_append_dropWhile (p := fun x : Char => x != '/') (l := p.reverse)
  have hp : (p.reverse.dropWhile (· != '/')).reverse ++ (p.reverse.takeWhile (· != '/')).reverse = p := by
    rw [← List.reverse_append, hsplit, List.reverse_reverse]
  have hhead : (splitLast p).1 = (p.reverse.dropWhile (· != '/')).reverse := by
    have hlen := congrArg List.length hp
    simp only [List.length_append] at hlen
    simp only [splitLast]
    have : p.length - (p.reverse.takeWhile (· != '/')).reverse.length = (p.reverse.dropWhile (· != '/')).reverse.length := by omega
    rw [this]
    conv => lhs; arg 2; rw [← hp]
    exact List.take_left' rfl
  refine ⟨by rw [hhead]; exact hp, ?_, ?_⟩
  · intro hm
    have hm' : '/' ∈ p.reverse.takeWhile (· != '/') := by simpa [splitLast] using hm
    have := List.all_eq_true.1 (List.all_takeWhile (p := fun x : Char => x != '/') (l := p.reverse)) _ hm'
    simp at this
  · rw [hhead]
    cases hd : p.reverse.dropWhile (· != '/') with
    | nil => exact .inl rfl
    | cons x r =>
      right
      have : (x != '/') = false := by
        have := List.head_dropWhile_not (fun x : Char => x != '/') (l := p.reverse) (by rw [hd]; simp)
        simpa [hd] using this
      have : x = '/' := by simpa using this
      subst this
      exact ⟨r.reverse, by simp⟩

theorem lexKey_rstrip (h : Text) : lexKey (h.reverse.dropWhile (· == '/')).reverse = lexKey h := by
  suffices ∀ r : Text, lexKey (r.dropWhile (· == '/')).reverse = lexKey r.reverse by simpa using this h.reverse
  intro r
  induction r with
  | nil => rfl
  | cons x r ih =>
    by_cases hx : x = '/'
    · subst hx
      rw [List.dropWhile_cons_of_pos (by simp), ih, List.reverse_cons, lexKey, lexKey, splitOn_append, List.foldl_append]
      simp [splitOn, lexStep]
    · rw [List.dropWhile_cons_of_neg (by simpa using hx)]

theorem lexKey_split (p : Text) : lexKey (Path.split p).1 = (splitOn '/' p).dropLast.foldl lexStep [] := by
  obtain ⟨h1, h2, h3⟩ := splitLast_spec p
  have e : lexKey (Path.split p).1 = lexKey (splitLast p).1 := by
    simp only [Path.split]
    split
    · rfl
    · exact lexKey_rstrip _
  rw [e]
  rcases h3 with h3 | ⟨h, h3⟩
  · rw [h3] at h1 ⊢
    have hp : p = (splitLast p).2 := by simpa using h1.symm
    rw [hp, splitOn_plain _ _ h2]
    rfl
  · have hp : p = h ++ '/' :: (splitLast p).2 := by rw [h3] at h1; simpa using h1.symm
    rw [h3, lexKey, splitOn_append, List.foldl_append]
    conv => rhs; rw [hp, splitOn_append, splitOn_plain _ _ h2]
    simp [splitOn, lexStep]

theorem split_noslash (p : Text) : '/' ∉ (Path.split p).2 := by
  simp only [Path.split]
  split <;> exact (splitLast_spec p).2.1

theorem split_head (p : Text) (h : p.head? = some '/') : (Path.split p).1.head? = some '/' := by
  obtain ⟨h1, h2, h3⟩ := splitLast_spec p
  have hne : (splitLast p).1.head? = some '/' := by
    cases hq : (splitLast p).1 with
    | nil =>
      rw [hq] at h1
      rw [← h1] at h
      exact absurd (List.mem_of_mem_head? (by simpa using h)) h2
    | cons x r => rw [hq] at h1; rw [← h1] at h; simpa using h
  simp only [Path.split]
  split
  · exact hne
  · rename_i hall
    generalize (splitLast p).1 = q at hne hall
    have hsplit := List.takeWhile_append_dropWhile (p := fun x : Char => x == '/') (l := q.reverse)
    have hq : (q.reverse.dropWhile (· == '/')).reverse ++ (q.reverse.takeWhile (· == '/')).reverse = q := by
      rw [← List.reverse_append, hsplit, List.reverse_reverse]
    cases hd : (q.reverse.dropWhile (· == '/')).reverse with
    | nil =>
      rw [hd, List.nil_append] at hq
      exfalso
      apply hall
      rw [← hq, List.all_reverse]
      exact List.all_takeWhile
    | cons x r => rw [hd] at hq; rw [← hq] at hne; simpa using hne

theorem splitext_noslash (f : Text) (h : '/' ∉ f) : '/' ∉ (splitext f).1 ∧ '/' ∉ (splitext f).2 := by
  simp only [splitext]
  split
  · exact ⟨h, by simp⟩
  · split
    · exact ⟨h, by simp⟩
    · refine ⟨fun hm => h (List.mem_of_mem_take hm), ?_⟩
      simp only [List.mem_cons, not_or]
      refine ⟨by decide, fun hm => h ?_⟩
      have := (List.takeWhile_prefix (fun x : Char => x != '.') (l := f.reverse)).subset (List.mem_reverse.1 hm)
      simpa using this

/-! ### File systems -/

namespace FS

theorem walk_lex (fs : FS) (k : List Text) (cs : List Text) (k' : List Text) (h : fs.walk k cs = some k') : k' = cs.foldl lexStep k := by
  induction cs generalizing k with
  | nil => simpa [walk] using h.symm
  | cons c cs ih =>
    simp only [walk] at h
    split at h
    · exact ih _ h
    · simp at h

theorem place_lex {fs : FS} {cwd p : Text} {k : List Text} (h : fs.place cwd p = some k) : k = lexKey (join cwd p) := by
  simp only [place] at h
  split at h
  · simp at h
  · exact walk_lex fs _ _ _ h

theorem walk_mono {fs fs' : FS} (hd : ∀ k, fs k = some .dir → fs' k = some .dir) (k : List Text) (cs : List Text) (k' : List Text)
    (h : fs.walk k cs = some k') : fs'.walk k cs = some k' := by
  induction cs generalizing k with
  | nil => simpa [walk] using h
  | cons c cs ih =>
    simp only [walk] at h ⊢
    split at h
    · rename_i hk
      simp only [hd _ hk, if_true]
      exact ih _ h
    · simp at h

theorem place_mono {fs fs' : FS} (hd : ∀ k, fs k = some .dir → fs' k = some .dir) {cwd p : Text} {k : List Text}
    (h : fs.place cwd p = some k) : fs'.place cwd p = some k := by
  simp only [place] at h ⊢
  split at h
  · simp at h
  · rename_i hn
    simp only [hn]
    exact walk_mono hd _ _ _ h

theorem content_some {fs : FS} {cwd p : Text} {d : Bytes} (h : fs.content cwd p = some d) :
    fs.place cwd p = some (lexKey (join cwd p)) ∧ fs (lexKey (join cwd p)) = some (.file d) := by
  simp only [content, stat] at h
  cases hp : fs.place cwd p with
  | none => rw [hp] at h; simp at h
  | some k =>
    have hk := place_lex hp
    subst hk
    rw [hp] at h
    simp only [Option.bind_some] at h
    split at h
    · rename_i he
      simp at h
      subst h
      exact ⟨rfl, he⟩
    · simp at h

theorem content_stat {fs : FS} {cwd p : Text} {d : Bytes} (h : fs.content cwd p = some d) : fs.stat cwd p = some (.file d) := by
  simp only [content] at h
  split at h
  · rename_i e; rw [e]; simpa using h
  · simp at h

theorem content_of {fs : FS} {cwd p : Text} {d : Bytes} (hp : fs.place cwd p = some (lexKey (join cwd p)))
    (h : fs (lexKey (join cwd p)) = some (.file d)) : fs.content cwd p = some d := by
  simp [content, stat, hp, h]

theorem writable_some {fs : FS} {cwd p : Text} {k : List Text} (h : fs.writable cwd p = some k) :
    fs.place cwd p = some k ∧ k = lexKey (join cwd p) ∧ fs k ≠ some .dir := by
  simp only [writable] at h
  split at h
  · rename_i k' hp
    split at h
    · simp at h
    · rename_i hd
      simp at h
      subst h
      exact ⟨hp, place_lex hp, hd⟩
  · simp at h

theorem mkdir_some {fs fs' : FS} {cwd p : Text} (h : fs.mkdir cwd p = some fs') :
    fs (lexKey (join cwd p)) = none ∧ fs' = fs.set (lexKey (join cwd p)) (some .dir) := by
  simp only [mkdir] at h
  split at h
  · rename_i k hp
    have hk := place_lex hp
    subst hk
    split at h
    · rename_i hn
      simp at h
      exact ⟨hn, h.symm⟩
    · simp at h
  · simp at h

@[simp] theorem set_same (fs : FS) (k : List Text) (n : Option Node) : fs.set k n k = n := by simp [set]

theorem set_other (fs : FS) {k k' : List Text} (n : Option Node) (h : k' ≠ k) : fs.set k n k' = fs k' := by simp [set, h]

end FS
end Verif
