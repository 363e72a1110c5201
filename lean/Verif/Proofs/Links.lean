import Verif.Spec.Links
import Verif.Props.RemoteDirectory
/-!
Helper lemmas for links.
-/
namespace Verif.Links
open Verif Path
open _root_.Verif.RemoteDirectory (Cfg GoesUp Tame snapDir uploadFile OpenEnv ReadEnv CloseEnv Io Err seekRead)

/-- What happens at a link. -/
def fol (fs : LFS) (last : Bool) : Nat → List Text → List Text → Option (List Text)
  | 0 => fun _ _ => none
  | n + 1 => fs.walk last n

theorem walk_eq (fs : LFS) (last : Bool) (n : Nat) : fs.walk last n = fs.go last (fol fs last n) := by
  cases n <;> rfl

theorem walk_nil (fs : LFS) (last : Bool) (n : Nat) (k : List Text) : fs.walk last n k [] = some k := by
  rw [walk_eq]; rfl

theorem walk_cons (fs : LFS) (last : Bool) (n : Nat) (k : List Text) (c : Text) (cs : List Text) :
    fs.walk last n k (c :: cs) = if fs k = some .dir then
      match fs (lexStep k c) with
      | some (.link t) =>
        if cs = [] ∧ last = false then some (lexStep k c) else fol fs last n (LFS.base k t) (splitOn '/' t ++ cs)
      | _ => fs.walk last n (lexStep k c) cs
    else none := by
  rw [walk_eq]; rfl

/-- Three ways for a component. -/
theorem walk_cases {fs : LFS} {last : Bool} {n : Nat} {k : List Text} {c : Text} {cs key : List Text}
    (h : fs.walk last n k (c :: cs) = some key) :
    fs k = some .dir ∧
    ((∃ t, fs (lexStep k c) = some (.link t) ∧ cs = [] ∧ last = false ∧ key = lexStep k c) ∨
     (∃ t m, fs (lexStep k c) = some (.link t) ∧ ¬ (cs = [] ∧ last = false) ∧ n = m + 1 ∧
        fs.walk last m (LFS.base k t) (splitOn '/' t ++ cs) = some key) ∨
     ((∀ t, fs (lexStep k c) ≠ some (.link t)) ∧ fs.walk last n (lexStep k c) cs = some key)) := by
  rw [walk_cons] at h
  by_cases hd : fs k = some .dir
  · rw [if_pos hd] at h
    refine ⟨hd, ?_⟩
    split at h
    · rename_i t ht
      split at h
      · rename_i hc
        injection h with h
        exact .inl ⟨t, ht, hc.1, hc.2, h.symm⟩
      · rename_i hc
        cases n with
        | zero => exact (nomatch h)
        | succ m => exact .inr (.inl ⟨t, m, ht, hc, rfl, h⟩)
    · rename_i hno
      exact .inr (.inr ⟨fun t e => hno t e, h⟩)
  · rw [if_neg hd] at h
    exact (nomatch h)

theorem walk_link {fs : LFS} {last : Bool} {n : Nat} {k : List Text} {c t : Text} {cs : List Text} (hd : fs k = some .dir)
    (ht : fs (lexStep k c) = some (.link t)) (hc : ¬ (cs = [] ∧ last = false)) :
    fs.walk last (n + 1) k (c :: cs) = fs.walk last n (LFS.base k t) (splitOn '/' t ++ cs) := by
  rw [walk_cons, if_pos hd, ht]
  simp only [hc, if_false]
  rfl

theorem walk_step {fs : LFS} {last : Bool} {n : Nat} {k : List Text} {c : Text} {cs : List Text} (hd : fs k = some .dir)
    (ht : ∀ t, fs (lexStep k c) ≠ some (.link t)) : fs.walk last n k (c :: cs) = fs.walk last n (lexStep k c) cs := by
  rw [walk_cons, if_pos hd]
  split
  · rename_i t e; exact absurd e (ht t)
  · rfl

/-- A path is looked up piece by piece. -/
theorem walk_append {fs : LFS} {last : Bool} (n : Nat) (a : List Text) {b : List Text} (hb : b ≠ [] ∨ last = true) {k key : List Text}
    (h : fs.walk last n k (a ++ b) = some key) :
    ∃ m k', m ≤ n ∧ fs.walk true n k a = some k' ∧ fs.walk last m k' b = some key := by
  induction n using Nat.strongRecOn generalizing a k with
  | ind n ihn =>
    induction a generalizing k with
    | nil => exact ⟨n, k, Nat.le_refl _, walk_nil _ _ _ _, h⟩
    | cons c cs iha =>
      obtain ⟨hd, h | h | h⟩ := walk_cases h
      · obtain ⟨_, _, e, el, _⟩ := h
        rcases hb with hb | hb
        · exact absurd (List.append_eq_nil_iff.1 e).2 hb
        · rw [hb] at el; exact (nomatch el)
      · obtain ⟨t, m, ht, -, rfl, hw⟩ := h
        replace hw : fs.walk last m (LFS.base k t) ((splitOn '/' t ++ cs) ++ b) = some key := by rw [List.append_assoc]; exact hw
        obtain ⟨m', k', h1, h2, h3⟩ := ihn m (by omega) _ hw
        exact ⟨m', k', by omega, by rw [walk_link hd ht (fun h => Bool.noConfusion h.2)]; exact h2, h3⟩
      · obtain ⟨hno, hw⟩ := h
        obtain ⟨m', k', h1, h2, h3⟩ := iha hw
        exact ⟨m', k', h1, by rw [walk_step hd hno]; exact h2, h3⟩

theorem lexStep_up {k : List Text} {c : Text} (hc : c ≠ ['.', '.']) : lexStep k c = k ∨ lexStep k c = k ++ [c] := by
  simp only [lexStep, hc, if_false]
  split
  · exact .inl rfl
  · exact .inr rfl

/-- Without `..`, and if all links stay inside, the way stays inside. -/
theorem walk_inside {fs : LFS} {R : List Text} (hc : Contained fs R) {last : Bool} (cs : List Text) (hup : ['.', '.'] ∉ cs) {n : Nat}
    (hn : n ≤ 40) {k key : List Text} (hk : R <+: k) (h : fs.walk last n k cs = some key) : R <+: key := by
  induction cs generalizing n k with
  | nil =>
    rw [walk_nil] at h
    injection h with h
    exact h ▸ hk
  | cons c cs ih =>
    have hc' : c ≠ ['.', '.'] := fun e => hup (by simp [e])
    have hcs : ['.', '.'] ∉ cs := fun e => hup (by simp [e])
    have hstep : R <+: lexStep k c := by
      rcases lexStep_up (k := k) hc' with e | e
      · rw [e]; exact hk
      · rw [e]; exact hk.trans (List.prefix_append _ _)
    obtain ⟨hd, h | h | h⟩ := walk_cases h
    · obtain ⟨_, _, _, _, e⟩ := h
      rw [e]; exact hstep
    · obtain ⟨t, m, ht, hnl, rfl, hw⟩ := h
      have ht' : fs (k ++ [c]) = some (.link t) := by
        rcases lexStep_up (k := k) hc' with e | e
        · rw [e, hd] at ht; exact (nomatch ht)
        · rw [← e]; exact ht
      by_cases hb : cs ≠ [] ∨ last = true
      · obtain ⟨m', k', h1, h2, h3⟩ := walk_append m _ hb hw
        exact ih hcs (by omega) (hc k c t hk ht' m k' (by omega) h2) h3
      · exfalso
        apply hnl
        simp only [not_or, ne_eq, Decidable.not_not, Bool.not_eq_true] at hb
        exact hb
    · exact ih hcs hn hstep h.2

/-- Some components that do nothing have been dropped. -/
inductive Thin : List Text → List Text → Prop
  | nil : Thin [] []
  | keep (c : Text) {a b : List Text} : Thin a b → Thin (c :: a) (c :: b)
  | drop (c : Text) {a b : List Text} : c = [] ∨ c = ['.'] → Thin a b → Thin a (c :: b)

theorem Thin.refl (a : List Text) : Thin a a := by
  induction a with
  | nil => exact .nil
  | cons c a ih => exact .keep c ih

theorem Thin.append (x : List Text) {a b : List Text} (h : Thin a b) : Thin (x ++ a) (x ++ b) := by
  induction x with
  | nil => exact h
  | cons c x ih => exact .keep c ih

theorem thin_filter (cs : List Text) (hup : ['.', '.'] ∉ cs) : Thin (cs.filter isName) cs := by
  induction cs with
  | nil => exact .nil
  | cons c cs ih =>
    have hcs : ['.', '.'] ∉ cs := fun e => hup (by simp [e])
    have hc' : c ≠ ['.', '.'] := fun e => hup (by simp [e])
    rw [List.filter_cons]
    split
    · exact .keep c (ih hcs)
    · rename_i h
      refine .drop c ?_ (ih hcs)
      simp only [isName, hc', Bool.and_eq_true, decide_eq_true_eq, ne_eq, not_and, not_false_eq_true, not_true,
        imp_false] at h
      by_cases e : c = []
      · exact .inl e
      · exact .inr (Decidable.not_not.1 (h e))

theorem walk_thin {fs : LFS} (n : Nat) {a b : List Text} (ht : Thin a b) {k key : List Text} (h : fs.walk true n k b = some key) :
    fs.walk true n k a = some key := by
  induction n using Nat.strongRecOn generalizing a b k with
  | ind n ihn =>
    induction ht generalizing k with
    | nil => exact h
    | keep c ht ih =>
      obtain ⟨hd, h | h | h⟩ := walk_cases h
      · obtain ⟨_, _, _, e, _⟩ := h; exact (nomatch e)
      · obtain ⟨t, m, hl, -, rfl, hw⟩ := h
        rw [walk_link hd hl (fun h => Bool.noConfusion h.2)]
        exact ihn m (by omega) (ht.append _) hw
      · rw [walk_step hd h.1]
        exact ih h.2
    | drop c hc _ ih =>
      have e : lexStep k c = k := by simp only [lexStep, hc, if_true]
      obtain ⟨hd, h | h | h⟩ := walk_cases h
      · obtain ⟨_, _, _, e, _⟩ := h; exact (nomatch e)
      · obtain ⟨t, m, hl, -⟩ := h
        rw [e, hd] at hl; exact (nomatch hl)
      · rw [e] at h; exact ih h.2

theorem lexKey_filter {p : Text} (h : ¬ GoesUp p) : lexKey p = (splitOn '/' p).filter isName := by
  rw [lexKey, foldl_lexStep _ _ h, List.nil_append]

/-- The first components of a path are those of `root`, the others do not go up; then it leads to a place inside the place of `root`. -/
theorem walk_below {fs : LFS} {root : Text} {A B R key : List Text} {last : Bool} (hr : ¬ GoesUp root) (hup : ['.', '.'] ∉ A ++ B)
    (hA : A.filter isName = lexKey root) (hb : B ≠ [] ∨ last = true)
    (hroot : fs.walk true LFS.maxLinks [] (splitOn '/' root) = some R) (hc : Contained fs R)
    (h : fs.walk last LFS.maxLinks [] (A ++ B) = some key) : R <+: key := by
  have hupA : ['.', '.'] ∉ A := fun e => hup (List.mem_append_left _ e)
  have hupB : ['.', '.'] ∉ B := fun e => hup (List.mem_append_right _ e)
  obtain ⟨m, k', h1, h2, h3⟩ := walk_append _ _ hb h
  have e1 := walk_thin _ (thin_filter A hupA) h2
  have e2 := walk_thin _ (thin_filter _ hr) hroot
  rw [hA] at e1
  rw [← lexKey_filter hr, e1] at e2
  injection e2 with e2
  subst e2
  exact walk_inside hc B hupB (Nat.le_trans h1 (Nat.le_refl 40)) (List.prefix_refl _) h3

/-- The components of a path made by `join`. -/
theorem join_parts {root rel : Text} (hne : root ≠ []) (hr : ¬ GoesUp root) (hh : rel.head? ≠ some '/') (hrel : ¬ GoesUp rel) :
    ∃ A, splitOn '/' (join root rel) = A ++ splitOn '/' rel ∧ ['.', '.'] ∉ A ++ splitOn '/' rel ∧ A.filter isName = lexKey root := by
  obtain ⟨A, h1, h2⟩ := splitOn_join root rel hne hh
  have hup : ['.', '.'] ∉ A ++ splitOn '/' rel := by
    rw [← h1, split_join _ _ hne hh]
    exact fun h => h.elim hr hrel
  refine ⟨A, h1, hup, ?_⟩
  rw [← h2, foldl_lexStep A [] (fun e => hup (List.mem_append_left _ e)), List.nil_append]

theorem splitOn_slashes (q : Text) (h : q.all (· == '/') = true) : ∀ c ∈ splitOn '/' q, c = [] := by
  induction q with
  | nil => intro c hc; simpa [splitOn] using hc
  | cons x q ih =>
    simp only [List.all_cons, Bool.and_eq_true, beq_iff_eq] at h
    obtain ⟨rfl, h⟩ := h
    intro c hc
    simp only [splitOn, if_true, List.mem_cons] at hc
    exact hc.elim id (ih h c)

/-- The directory part of a path goes up only if the path does. -/
theorem split_goesUp {p : Text} (h : ¬ GoesUp p) : ¬ GoesUp (Path.split p).1 := by
  obtain ⟨h1, h2, h3⟩ := splitLast_spec p
  intro hup
  simp only [Path.split] at hup
  split at hup
  · rename_i hall
    exact absurd (splitOn_slashes _ hall _ hup) (by decide)
  · rcases h3 with h3 | ⟨q, h3⟩
    · rw [h3] at hup
      have hup : GoesUp [] := hup
      exact absurd hup (by simp [GoesUp, splitOn])
    · have hq := List.takeWhile_append_dropWhile (p := fun x : Char => x == '/') (l := (splitLast p).1.reverse)
      obtain ⟨w, hw⟩ : ∃ w, (splitLast p).1.reverse.takeWhile (· == '/') = '/' :: w := by
        rw [h3, List.reverse_append]
        exact ⟨_, rfl⟩
      have hrev : (splitLast p).1 = ((splitLast p).1.reverse.dropWhile (· == '/')).reverse ++ ('/' :: w).reverse := by
        rw [← hw, ← List.reverse_append, hq, List.reverse_reverse]
      have hall : ('/' :: w).all (· == '/') = true := by rw [← hw]; exact List.all_takeWhile
      obtain ⟨v, hv⟩ : ∃ v, ('/' :: w).reverse = '/' :: v := by
        cases hx : ('/' :: w).reverse with
        | nil => simp at hx
        | cons x v =>
          have : x ∈ ('/' :: w) := by rw [← List.mem_reverse, hx]; simp
          have := List.all_eq_true.1 hall x this
          simp only [beq_iff_eq] at this
          exact ⟨v, by rw [this]⟩
      apply h
      rw [GoesUp, ← h1, hrev, hv, List.append_assoc, List.cons_append, splitOn_append]
      exact List.mem_append_left _ hup

theorem lexKey_parts {root dir : Text} (hd : ¬ GoesUp dir) (hpre : lexKey root <+: lexKey dir) :
    ∃ A B, splitOn '/' dir = A ++ B ∧ A.filter isName = lexKey root := by
  obtain ⟨Y, hY⟩ := hpre
  have hf := lexKey_filter hd
  rw [← hY] at hf
  obtain ⟨A, B, hAB, hA, hB⟩ := List.filter_eq_append_iff.1 hf.symm
  exact ⟨A, B, hAB, hA⟩

/-- A path whose text is below `root`. -/
def Below (root p : Text) : Prop :=
  ∃ A B, splitOn '/' p = A ++ B ∧ ['.', '.'] ∉ A ++ B ∧ A.filter isName = lexKey root ∧ B ≠ []

theorem join_below {c : Cfg} (hs : c.Sane) {path : Text} (hp : ¬ GoesUp path) : Below c.root (join c.root (lstripSlash path)) := by
  have hrel : ¬ GoesUp (lstripSlash path) := fun h => hp ((lstripSlash_split path).2.1 h)
  obtain ⟨A, h1, h2, h3⟩ := join_parts (RemoteDirectory.ne_nil_of_head hs.root) hs.rootUp (lstripSlash_head path) hrel
  exact ⟨A, _, h1, h2, h3, splitOn_ne_nil _ _⟩

theorem copyName_below {c : Cfg} {dir : Text} (hd : ¬ GoesUp dir) (hpre : lexKey c.root <+: lexKey dir) {base ext : Text}
    (hb : '/' ∉ base) (he : '/' ∉ ext) (n : Nat) : Below c.root (RemoteDirectory.copyName dir base n ext) := by
  obtain ⟨A, B, h1, h2⟩ := lexKey_parts hd hpre
  have hname : '/' ∉ base ++ '(' :: RemoteDirectory.numText n ++ ')' :: ext := by
    simp only [List.mem_append, List.mem_cons, not_or]
    exact ⟨⟨hb, by decide, RemoteDirectory.numText_noslash _⟩, by decide, he⟩
  have e : RemoteDirectory.copyName dir base n ext = dir ++ '/' :: (base ++ '(' :: RemoteDirectory.numText n ++ ')' :: ext) := by
    simp [RemoteDirectory.copyName]
  refine ⟨A, B ++ [base ++ '(' :: RemoteDirectory.numText n ++ ')' :: ext], ?_, ?_, h2, by simp⟩
  · rw [e, splitOn_append, splitOn_plain _ _ hname, h1, List.append_assoc]
  · rw [← List.append_assoc, ← h1]
    simp only [List.mem_append, List.mem_singleton, not_or]
    refine ⟨hd, ?_⟩
    intro e
    have : '(' ∈ ['.', '.'] := by rw [e]; simp
    revert this; decide

theorem findFree_some {fs : LFS} {cwd dirname basename ext : Text} {left : Nat} {dest r : Text}
    (h : findFree fs cwd dirname basename ext left dest = some r) :
    fs.pathExists cwd r = false ∧ (r = dest ∨ ∃ n, r = RemoteDirectory.copyName dirname basename n ext) := by
  induction left generalizing dest with
  | zero =>
    rw [findFree] at h
    split at h
    · exact (nomatch h)
    · rename_i hx
      injection h with h
      exact ⟨by rw [← h]; simpa using hx, .inl h.symm⟩
  | succ left ih =>
    rw [findFree] at h
    split at h
    · obtain ⟨h1, h2⟩ := ih h
      refine ⟨h1, .inr ?_⟩
      rcases h2 with h2 | h2
      · exact ⟨_, h2⟩
      · exact h2
    · rename_i hx
      injection h with h
      exact ⟨by rw [← h]; simpa using hx, .inl h.symm⟩

/-- The name chosen for a download is below the remote directory by its text. -/
theorem destination_below {c : Cfg} (hs : c.Sane) {fs : LFS} {path : Text} (hp : ¬ GoesUp path) {dest : Text}
    (h : destination c fs (utf8Encode path) = some dest) :
    Below c.root dest ∧ dest.head? = some '/' ∧ fs.pathExists c.cwd dest = false := by
  simp only [destination, utf8Decode_encode] at h
  obtain ⟨h1, h2⟩ := findFree_some h
  rw [← and_assoc]
  refine ⟨?_, h1⟩
  have hhead := join_head c.root (lstripSlash path) hs.root
  rcases h2 with rfl | ⟨n, rfl⟩
  · exact ⟨join_below hs hp, hhead⟩
  · have hsl := splitext_noslash _ (split_noslash (join c.root (lstripSlash path)))
    have hrel : ['.', '.'] ∉ splitOn '/' (lstripSlash path) := fun h => hp ((lstripSlash_split path).2.1 h)
    have hne := RemoteDirectory.ne_nil_of_head hs.root
    refine ⟨copyName_below ?_ ?_ hsl.1 hsl.2 n, ?_⟩
    rotate_left 2
    · have hg : ∀ dir : Text, dir.head? = some '/' → ∀ b e, (RemoteDirectory.copyName dir b n e).head? = some '/' := by
        intro dir h2 b e
        cases dir with
        | nil => simp at h2
        | cons x d => simpa [RemoteDirectory.copyName] using h2
      apply hg
      split
      · exact split_head _ hhead
      · exact hs.root
    · split
      · apply split_goesUp
        rw [GoesUp, split_join _ _ hne (lstripSlash_head path)]
        exact fun h => h.elim hs.rootUp hrel
      · exact hs.rootUp
    · split
      · rw [lexKey_split]
        obtain ⟨pre, e1, e2⟩ := splitOn_join c.root (lstripSlash path) hne (lstripSlash_head path)
        rw [e1, List.dropLast_append_of_ne_nil (splitOn_ne_nil _ _), List.foldl_append, e2, foldl_lexStep]
        · exact List.prefix_append _ _
        · exact fun hm => hrel ((List.dropLast_sublist _).subset hm)
      · exact List.prefix_refl _

theorem Tree.up {fs : LFS} (ht : Tree fs) {k : List Text} (h : fs k = some .dir) : fs k.dropLast = some .dir := by
  rcases List.eq_nil_or_concat k with e | ⟨a, x, e⟩
  · rw [e]; exact ht.root
  · rw [e] at h ⊢
    simp only [List.concat_eq_append] at h ⊢
    rw [List.dropLast_concat]
    exact ht.closed a x (by rw [h]; exact fun e => (nomatch e))

/-- With all links followed the end is no link. -/
theorem walk_nolink {fs : LFS} (ht : Tree fs) (n : Nat) (cs : List Text) {k key : List Text} (hk : NoLink fs k)
    (h : fs.walk true n k cs = some key) : NoLink fs key := by
  induction n using Nat.strongRecOn generalizing cs k with
  | ind n ihn =>
    induction cs generalizing k with
    | nil =>
      rw [walk_nil] at h
      injection h with h
      exact h ▸ hk
    | cons c cs ih =>
      obtain ⟨hd, h | h | h⟩ := walk_cases h
      · obtain ⟨_, _, _, e, _⟩ := h; exact (nomatch e)
      · obtain ⟨t, m, hl, -, rfl, hw⟩ := h
        refine ihn m (by omega) _ ?_ hw
        simp only [LFS.base]
        split
        · intro t e; rw [ht.root] at e; exact (nomatch e)
        · exact hk
      · exact ih h.1 h.2

theorem walk_congr {fs fs' : LFS} (hd : ∀ k, fs' k = some .dir ↔ fs k = some .dir)
    (hl : ∀ k t, fs' k = some (.link t) ↔ fs k = some (.link t)) (last : Bool) (n : Nat) (cs k : List Text) :
    fs'.walk last n k cs = fs.walk last n k cs := by
  induction n using Nat.strongRecOn generalizing cs k with
  | ind n ihn =>
    induction cs generalizing k with
    | nil => rw [walk_nil, walk_nil]
    | cons c cs ih =>
      rw [walk_cons, walk_cons]
      by_cases h : fs k = some .dir
      · rw [if_pos h, if_pos ((hd k).2 h)]
        by_cases hlk : ∃ t, fs (lexStep k c) = some (.link t)
        · obtain ⟨t, e⟩ := hlk
          rw [e, (hl _ t).2 e]
          simp only
          cases n with
          | zero => rfl
          | succ m => simp only [fol, ihn m (by omega)]
        · have a1 : ∀ t, fs (lexStep k c) ≠ some (.link t) := fun t e => hlk ⟨t, e⟩
          have a2 : ∀ t, fs' (lexStep k c) ≠ some (.link t) := fun t e => hlk ⟨t, (hl _ t).1 e⟩
          split
          · rename_i t e; exact absurd e (a2 t)
          · rw [ih]
      · rw [if_neg h, if_neg (fun e => h ((hd k).1 e))]

theorem set_self (fs : LFS) (k : List Text) (n : Option LNode) : fs.set k n k = n := by simp [LFS.set]
theorem set_other (fs : LFS) {k k' : List Text} (n : Option LNode) (h : k' ≠ k) : fs.set k n k' = fs k' := by simp [LFS.set, h]

/-- Writing a file where there was none or a file does not change where paths lead. -/
theorem place_set {fs : LFS} {k : List Text} (hd : fs k ≠ some .dir) (hl : NoLink fs k) (d : Bytes) (cwd p : Text) :
    (fs.set k (some (.file d))).place cwd p = fs.place cwd p := by
  have : ∀ last n cs k0, (fs.set k (some (.file d))).walk last n k0 cs = fs.walk last n k0 cs := by
    intro last n cs k0
    apply walk_congr
    · intro x
      by_cases e : x = k
      · rw [e, set_self]
        exact ⟨fun h => (nomatch h), fun h => absurd h hd⟩
      · rw [set_other _ _ e]
    · intro x t
      by_cases e : x = k
      · rw [e, set_self]
        exact ⟨fun h => (nomatch h), fun h => absurd h (hl t)⟩
      · rw [set_other _ _ e]
  simp only [LFS.place, this]

theorem place_walk {fs : LFS} {cwd p : Text} {k : List Text} (h : fs.place cwd p = some k) :
    fs.walk true LFS.maxLinks [] (splitOn '/' (join cwd p)) = some k ∧ p.contains (Char.ofNat 0) = false := by
  simp only [LFS.place] at h
  split at h
  · exact (nomatch h)
  · rename_i hn; exact ⟨h, by simpa using hn⟩

theorem place_nolink {fs : LFS} (ht : Tree fs) {cwd p : Text} {k : List Text} (h : fs.place cwd p = some k) : NoLink fs k :=
  walk_nolink ht _ _ (fun t e => by rw [ht.root] at e; exact (nomatch e)) (place_walk h).1

theorem writable_some {fs : LFS} {cwd p : Text} {k : List Text} (h : fs.writable cwd p = some k) :
    fs.place cwd p = some k ∧ fs k ≠ some .dir := by
  simp only [LFS.writable] at h
  split at h
  · rename_i k' hp
    split at h
    · exact (nomatch h)
    · rename_i hd
      injection h with h
      subst h
      exact ⟨hp, hd⟩
  · exact (nomatch h)

theorem content_some {fs : LFS} {cwd p : Text} {d : Bytes} (h : fs.content cwd p = some d) :
    ∃ k, fs.place cwd p = some k ∧ fs k = some (.file d) := by
  simp only [LFS.content, LFS.stat] at h
  cases hp : fs.place cwd p with
  | none => rw [hp] at h; exact (nomatch h)
  | some k =>
    rw [hp] at h
    simp only [Option.bind_some] at h
    refine ⟨k, rfl, ?_⟩
    split at h
    · rename_i d' e
      injection h with h
      rw [e, h]
    · exact (nomatch h)

theorem content_of {fs : LFS} {cwd p : Text} {d : Bytes} {k : List Text} (hp : fs.place cwd p = some k) (hk : fs k = some (.file d)) :
    fs.content cwd p = some d := by
  simp only [LFS.content, LFS.stat, hp, Option.bind_some, hk]

theorem copyfile_ok {c : Cfg} {io : Io} {fs fs' : LFS} {src dst : Text} (h : copyfile c io fs src dst = (fs', true)) :
    ∃ d k, fs.content c.cwd src = some d ∧ fs.writable c.cwd dst = some k ∧ fs.place c.cwd src ≠ some k ∧
      fs' = fs.set k (some (.file d)) := by
  simp only [copyfile] at h
  split at h
  · rename_i d k h1 h2
    split at h
    · exact (nomatch (Prod.ext_iff.1 h).2)
    · rename_i hne
      split at h
      · exact ⟨d, k, h1, h2, hne, (Prod.ext_iff.1 h).1.symm⟩
      · exact (nomatch (Prod.ext_iff.1 h).2)
      · exact (nomatch (Prod.ext_iff.1 h).2)
  · exact (nomatch (Prod.ext_iff.1 h).2)

/-- Every change of the copy is at the place to which the destination leads. -/
theorem copyfile_change {c : Cfg} {io : Io} {fs : LFS} {src dst : Text} {k : List Text} (h : (copyfile c io fs src dst).1 k ≠ fs k) :
    fs.writable c.cwd dst = some k := by
  simp only [copyfile] at h
  split at h
  · rename_i d k' h1 h2
    split at h
    · exact absurd rfl h
    · by_cases e : k = k'
      · rw [e]; exact h2
      · split at h
        · exact absurd (set_other _ _ e) h
        · exact absurd rfl h
        · exact absurd (set_other _ _ e) h
  · exact absurd rfl h

theorem getSnapshotPath_dir (c : Cfg) (b : Bool) {fs : LFS} (id : Text) (h : fs.isDir c.cwd (snapDir c) = true) :
    getSnapshotPath c b fs id = (fs, .ok (join (snapDir c) id)) := by
  simp only [getSnapshotPath, h, if_true]

/-- What an accepted open request has done. -/
theorem addUpload_ok {c : Cfg} {env : OpenEnv} {fs fs' : LFS} {path id : Text} {n : Nat} (hd : fs.isDir c.cwd (snapDir c) = true)
    (h : addUpload c env fs path id = (fs', .ok n)) :
    ∃ f d k, uploadFile c path = .ok f ∧ fs.content c.cwd f = some d ∧ fs.writable c.cwd (join (snapDir c) id) = some k ∧
      fs.place c.cwd f ≠ some k ∧ fs' = fs.set k (some (.file d)) ∧
      ∃ d', fs'.content c.cwd (join (snapDir c) id) = some d' ∧ n = d'.length := by
  simp only [addUpload] at h
  split at h
  · exact (nomatch (Prod.ext_iff.1 h).2)
  · rename_i f hf
    split at h
    · exact (nomatch (Prod.ext_iff.1 h).2)
    · rw [getSnapshotPath_dir _ _ _ hd] at h
      simp only at h
      split at h
      · exact (nomatch (Prod.ext_iff.1 h).2)
      · split at h
        · exact (nomatch (Prod.ext_iff.1 h).2)
        · rename_i fs1 hcp
          obtain ⟨d, k, h1, h2, h3, h4⟩ := copyfile_ok hcp
          split at h
          · rename_i d' hd'
            split at h
            · exact (nomatch (Prod.ext_iff.1 h).2)
            · obtain ⟨e1, e2⟩ := Prod.ext_iff.1 h
              simp only at e1 e2
              injection e2 with e2
              subst e1
              exact ⟨f, d, k, hf, h1, h2, h3, h4, d', hd', e2.symm⟩
          · exact (nomatch (Prod.ext_iff.1 h).2)

theorem stored_content {fs : LFS} (ht : Tree fs) {cwd p : Text} {k : List Text} (hw : fs.writable cwd p = some k) (d : Bytes) :
    (fs.set k (some (.file d))).content cwd p = some d := by
  obtain ⟨hp, hd⟩ := writable_some hw
  exact content_of ((place_set hd (place_nolink ht hp) d cwd p).trans hp) (set_self _ _ _)

theorem isDir_iff (fs : LFS) (cwd p : Text) : fs.isDir cwd p = true ↔ ∃ k, fs.place cwd p = some k ∧ fs k = some .dir := by
  rw [LFS.isDir, decide_eq_true_iff, LFS.stat]
  cases fs.place cwd p with
  | none => exact ⟨fun h => (nomatch h), fun ⟨_, h, _⟩ => (nomatch h)⟩
  | some k =>
    exact ⟨fun h => ⟨k, rfl, h⟩, fun ⟨k', h1, h2⟩ => by injection h1 with h1; rw [h1]; exact h2⟩

theorem isDir_set {fs : LFS} (ht : Tree fs) {cwd p q : Text} {k : List Text} (hw : fs.writable cwd p = some k) (d : Bytes)
    (h : fs.isDir cwd q = true) : (fs.set k (some (.file d))).isDir cwd q = true := by
  obtain ⟨hp, hd⟩ := writable_some hw
  obtain ⟨k', h1, h2⟩ := (isDir_iff _ _ _).1 h
  refine (isDir_iff _ _ _).2 ⟨k', (place_set hd (place_nolink ht hp) d cwd q).trans h1, ?_⟩
  have hne : k' ≠ k := by intro e; rw [e] at h2; exact hd h2
  rw [set_other _ _ hne]
  exact h2

theorem remove_change {cwd : Text} {b : Bool} {fs : LFS} {p : Text} {k : List Text} (h : remove cwd b fs p k ≠ fs k) :
    fs.entry cwd p = some k ∧ remove cwd b fs p k = none := by
  simp only [remove] at h ⊢
  cases b with
  | true => exact absurd rfl h
  | false =>
    simp only [Bool.false_eq_true, if_false] at h ⊢
    cases he : fs.entry cwd p with
    | none => rw [he] at h; exact absurd rfl h
    | some k1 =>
      rw [he] at h
      simp only at h ⊢
      by_cases e : k = k1
      · subst e
        refine ⟨rfl, ?_⟩
        cases hk : fs k with
        | none => simp only [hk] at h; exact absurd rfl h
        | some n => cases n with
          | dir => simp only [hk] at h; exact absurd rfl h
          | file d => exact set_self _ _ _
          | link t => exact set_self _ _ _
      · exfalso
        apply h
        cases fs k1 with
        | none => rfl
        | some n => cases n with
          | dir => rfl
          | file d => exact set_other _ _ e
          | link t => exact set_other _ _ e

/-! ### Without links -/

theorem plain_dir (fs : FS) (k : List Text) : plain fs k = some .dir ↔ fs k = some .dir := by
  simp only [plain]
  split <;> rename_i h <;> simp [h]

theorem plain_nolink (fs : FS) (k : List Text) : NoLink (plain fs) k := by
  intro t e
  simp only [plain] at e
  split at e <;> exact (nomatch e)

theorem plain_walk (fs : FS) (last : Bool) (n : Nat) (cs k : List Text) : (plain fs).walk last n k cs = fs.walk k cs := by
  induction cs generalizing k with
  | nil => rw [walk_nil]; rfl
  | cons c cs ih =>
    rw [FS.walk]
    by_cases h : fs k = some .dir
    · rw [if_pos h, walk_step ((plain_dir fs k).2 h) (plain_nolink fs _), ih]
    · rw [if_neg h, walk_cons, if_neg (fun e => h ((plain_dir fs k).1 e))]

theorem plain_place (fs : FS) (cwd p : Text) : (plain fs).place cwd p = fs.place cwd p := by
  simp only [LFS.place, FS.place, plain_walk]

theorem plain_entry (fs : FS) (cwd p : Text) : (plain fs).entry cwd p = fs.place cwd p := by
  simp only [LFS.entry, FS.place, plain_walk]

theorem plain_set (fs : FS) (k : List Text) (n : Option Node) : plain (fs.set k n) = (plain fs).set k (plain (fun _ => n) k) := by
  funext x
  by_cases e : x = k
  · rw [e, set_self]; simp only [plain, FS.set, if_true]
  · rw [set_other _ _ e]; simp only [plain, FS.set, e, if_false]

theorem plain_isDir (fs : FS) (cwd p : Text) : (plain fs).isDir cwd p = fs.isDir cwd p := by
  rw [Bool.eq_iff_iff, isDir_iff, RemoteDirectory.isDir_iff, plain_place]
  simp only [plain_dir]
  constructor
  · rintro ⟨k, h1, h2⟩
    have e := FS.place_lex h1
    exact ⟨e ▸ h1, e ▸ h2⟩
  · exact fun ⟨h1, h2⟩ => ⟨_, h1, h2⟩

theorem plain_content (fs : FS) (cwd p : Text) : (plain fs).content cwd p = fs.content cwd p := by
  simp only [LFS.content, FS.content, LFS.stat, FS.stat, plain_place]
  cases fs.place cwd p with
  | none => rfl
  | some k =>
    simp only [Option.bind_some, plain]
    cases fs k with
    | none => rfl
    | some n => cases n <;> rfl

theorem plain_pathExists (fs : FS) (cwd p : Text) : (plain fs).pathExists cwd p = fs.pathExists cwd p := by
  simp only [LFS.pathExists, FS.pathExists, LFS.stat, FS.stat, plain_place]
  cases fs.place cwd p with
  | none => rfl
  | some k =>
    simp only [Option.bind_some, plain]
    cases fs k with
    | none => rfl
    | some n => cases n <;> rfl

theorem plain_writable (fs : FS) (cwd p : Text) : (plain fs).writable cwd p = fs.writable cwd p := by
  simp only [LFS.writable, FS.writable, plain_place]
  cases fs.place cwd p with
  | none => rfl
  | some k => simp only [plain_dir]

theorem plain_none (fs : FS) (k : List Text) : plain fs k = none ↔ fs k = none := by
  simp only [plain]
  split <;> rename_i h <;> simp [h]

theorem plain_mkdir (fs : FS) (cwd p : Text) : (plain fs).mkdir cwd p = (fs.mkdir cwd p).map plain := by
  simp only [LFS.mkdir, FS.mkdir, plain_entry]
  cases fs.place cwd p with
  | none => rfl
  | some k =>
    simp only
    by_cases h : fs k = none
    · rw [if_pos h, if_pos ((plain_none _ _).2 h), Option.map_some, plain_set]
      rfl
    · rw [if_neg h, if_neg (fun e => h ((plain_none _ _).1 e))]
      rfl

theorem plain_getSnapshotPath (c : Cfg) (b : Bool) (fs : FS) (id : Text) :
    getSnapshotPath c b (plain fs) id = ((RemoteDirectory.getSnapshotPath c b fs id).1 |> plain, (RemoteDirectory.getSnapshotPath c b fs id).2) := by
  simp only [getSnapshotPath, RemoteDirectory.getSnapshotPath, plain_isDir, plain_mkdir]
  split
  · rfl
  · split
    · rfl
    · cases fs.mkdir c.cwd (snapDir c) <;> rfl

theorem plain_copyfile (c : Cfg) (io : Io) (fs : FS) (src dst : Text) :
    copyfile c io (plain fs) src dst = (plain (RemoteDirectory.copyfile c io fs src dst).1, (RemoteDirectory.copyfile c io fs src dst).2) := by
  simp only [copyfile, RemoteDirectory.copyfile, plain_content, plain_writable, plain_place]
  cases fs.content c.cwd src with
  | none => rfl
  | some d =>
    cases fs.writable c.cwd dst with
    | none => rfl
    | some k =>
      simp only
      split
      · rfl
      · cases io with
        | good => simp only [plain_set]; rfl
        | fails w => cases w with
          | none => rfl
          | some n => simp only [plain_set]; rfl

theorem plain_lowSpace (c : Cfg) (env : OpenEnv) (fs : FS) (f : Text) :
    lowSpace c env (plain fs) f = RemoteDirectory.lowSpace c env fs f := by
  simp only [lowSpace, RemoteDirectory.lowSpace, LFS.stat, FS.stat, plain_place]
  cases env.usage with
  | none => rfl
  | some u =>
    simp only
    split
    · rfl
    · cases fs.place c.cwd f with
      | none => rfl
      | some k =>
        simp only [Option.bind_some, plain]
        cases fs k with
        | none => rfl
        | some n => cases n <;> rfl

theorem plain_remove (cwd : Text) (b : Bool) (fs : FS) (p : Text) : remove cwd b (plain fs) p = plain (RemoteDirectory.remove cwd b fs p) := by
  simp only [remove, RemoteDirectory.remove, plain_entry]
  split
  · rfl
  · cases fs.place cwd p with
    | none => rfl
    | some k =>
      simp only
      cases h : fs k with
      | none => rw [(plain_none fs k).2 h]
      | some n => cases n with
        | dir => rw [(plain_dir fs k).2 h]
        | file d =>
          rw [show plain fs k = some (.file d) by simp only [plain, h], plain_set]
          rfl

theorem plain_findFree (fs : FS) (cwd dirname basename ext : Text) (left : Nat) (dest : Text) :
    findFree (plain fs) cwd dirname basename ext left dest = RemoteDirectory.findFree fs cwd dirname basename ext left dest := by
  induction left generalizing dest with
  | zero => rw [findFree, RemoteDirectory.findFree, plain_pathExists]
  | succ left ih => rw [findFree, RemoteDirectory.findFree, plain_pathExists]; simp only [ih]

theorem plain_destination (c : Cfg) (fs : FS) (path : Bytes) : destination c (plain fs) path = RemoteDirectory.destination c fs path := by
  simp only [destination, RemoteDirectory.destination, plain_findFree, plain_isDir]
  cases utf8Decode path <;> rfl

end Verif.Links
