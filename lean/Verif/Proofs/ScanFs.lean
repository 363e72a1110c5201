import Verif.Spec.ScanFs
import Verif.Proofs.Scan
import Verif.Proofs.Links
/-!
Lemmas about scans of a file system.
-/
namespace Verif.ScanFs
open Verif Path
open _root_.Verif.RemoteDirectory (Cfg GoesUp)
open _root_.Verif.Links (LFS LNode NoLink)
open _root_.Verif.Scan (key Good Reach)

theorem radix_pos : 0 < radix := by decide

theorem char_lt (x : Char) : x.toNat + 1 < radix := by
  have h := x.valid
  have : x.toNat < 1114112 := by
    rcases h with h | ⟨_, h⟩
    · exact Nat.lt_trans h (by decide)
    · exact h
  simp only [radix]; omega

theorem textOf_num (p : Text) (fuel : Nat) (h : num p ≤ fuel) : textOf fuel (num p) = p := by
  induction p generalizing fuel with
  | nil => cases fuel <;> simp [textOf, num]
  | cons x xs ih =>
    have hx := char_lt x
    cases fuel with
    | zero => simp only [num] at h; omega
    | succ fuel =>
      have hne : num (x :: xs) ≠ 0 := by simp only [num]; omega
      simp only [textOf, hne, if_false]
      have h1 : num (x :: xs) % radix = x.toNat + 1 := by
        simp only [num]; rw [Nat.add_mul_mod_self_left, Nat.mod_eq_of_lt hx]
      have h2 : num (x :: xs) / radix = num xs := by
        simp only [num]; rw [Nat.add_mul_div_left _ _ radix_pos, Nat.div_eq_of_lt hx, Nat.zero_add]
      rw [h1, h2, ih]
      · simp
      · simp only [num] at h
        have : num xs ≤ radix * num xs := Nat.le_mul_of_pos_left _ radix_pos
        omega

theorem text_num (p : Text) : text (num p) = p := textOf_num p _ (Nat.le_refl _)

theorem num_inj {p q : Text} (h : num p = num q) : p = q := by rw [← text_num p, h, text_num]

/-! ### Paths -/

theorem join_join {a b n : Text} (hb : b.head? ≠ some '/') (hn : n.head? ≠ some '/') (ha : a ≠ []) : join (join a b) n = join a (join b n) := by
  cases b with
  | nil =>
    have e1 : join a [] = if a.getLast? = some '/' then a else a ++ ['/'] := by simp [join, ha]
    have e2 : join [] n = n := by simp [join, hn]
    rw [e2, e1]
    split
    · rfl
    · rename_i hl
      simp [join, hn, hl, ha]
  | cons x b =>
    have hx : x ≠ '/' := by simpa using hb
    have hj : (join (x :: b) n).head? ≠ some '/' := by
      simp only [join, hn, if_false]
      split <;> simpa using hx
    have hlast : (join a (x :: b)).getLast? = (x :: b).getLast? ∧ join a (x :: b) ≠ [] := by
      simp only [join, hb, if_false]
      split
      · refine ⟨?_, by simp⟩
        rw [List.getLast?_append]; simp [List.getLast?_cons]
      · refine ⟨?_, by simp⟩
        rw [List.getLast?_append]; simp [List.getLast?_cons]
    have e1 : join (join a (x :: b)) n = if (x :: b).getLast? = some '/' then join a (x :: b) ++ n else join a (x :: b) ++ '/' :: n := by
      rw [join, if_neg hn, hlast.1]
      simp only [hlast.2, false_or]
    have e2 : join (x :: b) n = if (x :: b).getLast? = some '/' then (x :: b) ++ n else (x :: b) ++ '/' :: n := by
      rw [join, if_neg hn]
      simp
    have e3 : ∀ q : Text, q.head? ≠ some '/' → join a q = if a.getLast? = some '/' then a ++ q else a ++ '/' :: q := by
      intro q hq; simp [join, hq, ha]
    rw [e1, e3 _ hj, e3 _ hb, e2]
    split <;> split <;> simp

theorem good_head {names : List Text} (h : Good names) : (key names).head? ≠ some '/' := by
  cases names with
  | nil => simp [key, joinWith]
  | cons n ns =>
    have hn := h n (by simp)
    cases n with
    | nil => exact absurd rfl hn.1
    | cons x xs =>
      have : x ≠ '/' := fun e => hn.2 (by simp [e])
      cases ns <;> simpa [key, joinWith] using this

theorem proper_good {names : List Text} (h : ∀ n ∈ names, Proper n) : Good names := fun n hn => ⟨(h n hn).1, (h n hn).2.2.2.1⟩

theorem proper_head {n : Text} (h : Proper n) : n.head? ≠ some '/' := by
  cases n with
  | nil => simp
  | cons x xs =>
    have : x ≠ '/' := fun e => h.2.2.2.1 (by simp [e])
    simpa using this

theorem key_up {names : List Text} (h : ∀ n ∈ names, Proper n) : ¬ GoesUp (key names) := by
  intro hu
  by_cases hne : names = []
  · subst hne; revert hu; simp [GoesUp, key, joinWith, splitOn]
  · rw [GoesUp, Scan.key_split (proper_good h) hne] at hu
    exact (h _ hu).2.2.1 rfl

theorem key_nul {names : List Text} (h : ∀ n ∈ names, Proper n) : Char.ofNat 0 ∉ key names := by
  have hj : ∀ ns : List Text, (∀ n ∈ ns, Char.ofNat 0 ∉ n) → Char.ofNat 0 ∉ joinWith '/' ns := by
    intro ns
    induction ns with
    | nil => intro _; simp [joinWith]
    | cons a ns ih =>
      intro hh
      cases ns with
      | nil => exact hh a (by simp)
      | cons b ns =>
        have h1 := hh a (by simp)
        have h2 := ih (fun n hn => hh n (by simp [List.mem_cons] at hn ⊢; exact .inr hn))
        simp only [joinWith, List.mem_append, List.mem_cons, not_or]
        exact ⟨h1, by decide, h2⟩
  exact hj names (fun n hn => (h n hn).2.2.2.2)

theorem lstrip_key {names : List Text} (h : Good names) : lstripSlash (key names) = key names := by
  have := good_head h
  cases hk : key names with
  | nil => rfl
  | cons x xs =>
    rw [hk] at this
    have hx : x ≠ '/' := by simpa using this
    simp [lstripSlash, List.dropWhile_cons, hx]

/-! ### The graph of directories -/

theorem mem_cut {es : List (Option Scan.Entry)} {b : Option Nat} {e : Scan.Entry} (h : some e ∈ cut es b) : some e ∈ es := by
  cases b with
  | none => exact h
  | some i =>
    simp only [cut, List.mem_append, List.mem_singleton] at h
    rcases h with h | h
    · exact List.mem_of_mem_take h
    · exact nomatch h

theorem list_some {c : Cfg} {env : Env} {fs : LFS} {path : Text} {es : List (Option Scan.Entry)} (h : list c env fs path = some es) :
    ∃ k, fs.place c.cwd (join c.root path) = some k ∧ fs k = some .dir ∧
      es = cut ((env.names k).map fun n => some (entryOf c env fs path k n)) (env.breaks path) := by
  simp only [list] at h
  split at h
  · exact nomatch h
  · split at h
    · rename_i k hk
      split at h
      · rename_i hd
        injection h with h
        exact ⟨k, hk, hd, h.symm⟩
      · exact nomatch h
    · exact nomatch h

theorem list_entry {c : Cfg} {env : Env} {fs : LFS} {path : Text} {es : List (Option Scan.Entry)} (h : list c env fs path = some es)
    {e : Scan.Entry} (he : some e ∈ es) :
    ∃ k n, fs.place c.cwd (join c.root path) = some k ∧ fs k = some .dir ∧ n ∈ env.names k ∧ e = entryOf c env fs path k n := by
  obtain ⟨k, h1, h2, rfl⟩ := list_some h
  have := mem_cut he
  simp only [List.mem_map, Option.some.injEq] at this
  obtain ⟨n, hn, rfl⟩ := this
  exact ⟨k, n, h1, h2, hn, rfl⟩

theorem world_named {c : Cfg} {env : Env} {fs : LFS} (hn : Lists fs env.names) : (world c env fs).Named := by
  intro d es e h he
  obtain ⟨k, n, _, _, hm, rfl⟩ := list_entry h he
  have := ((hn k).2 n).1 hm
  exact ⟨this.1.1, this.1.2.2.2.1⟩

/-- The directories that are reached are known by their keys. -/
theorem reach_num {c : Cfg} {env : Env} {fs : LFS} (hn : Lists fs env.names) {md : Option Int} {names : List Text} {d : Nat}
    (h : Reach (world c env fs) md names d) : d = num (key names) ∧ ∀ n ∈ names, Proper n := by
  induction h with
  | root _ => exact ⟨rfl, by simp⟩
  | sub _ hls hmem _ _ _ _ ih =>
    obtain ⟨rfl, hp⟩ := ih
    have hls' : list c env fs (text (num _)) = some _ := hls
    rw [text_num] at hls'
    obtain ⟨k, n, _, _, hm, rfl⟩ := list_entry hls' hmem
    have hpn := ((hn k).2 n).1 hm
    refine ⟨?_, ?_⟩
    · show num (join _ n) = num (key (_ ++ [n]))
      rw [Scan.join_key (proper_good hp) ⟨hpn.1.1, hpn.1.2.2.2.1⟩]
    · intro x hx
      simp only [List.mem_append, List.mem_singleton] at hx
      rcases hx with hx | rfl
      · exact hp x hx
      · exact hpn.1

/-- The entries that are met, with their paths. -/
theorem reach_entry {c : Cfg} (hr : c.root ≠ []) {env : Env} {fs : LFS} (hn : Lists fs env.names) {md : Option Int} {names : List Text} {d : Nat}
    (h : Reach (world c env fs) md names d) {es : List (Option Scan.Entry)} (hls : (world c env fs).ls d = some es) {e : Scan.Entry}
    (he : some e ∈ es) :
    ∃ k, fs.place c.cwd (join c.root (key names)) = some k ∧ fs k = some .dir ∧ e.name ∈ env.names k ∧
      e = entryOf c env fs (key names) k e.name ∧ (∀ n ∈ names ++ [e.name], Proper n) ∧
      join (key names) e.name = key (names ++ [e.name]) ∧
      join (join c.root (key names)) e.name = join c.root (key (names ++ [e.name])) := by
  obtain ⟨rfl, hp⟩ := reach_num hn h
  have hls' : list c env fs (text (num (key names))) = some es := hls
  rw [text_num] at hls'
  obtain ⟨k, n, h1, h2, hm, rfl⟩ := list_entry hls' he
  have hpn := (((hn k).2 n).1 hm).1
  have hj := Scan.join_key (proper_good hp) ⟨hpn.1, hpn.2.2.2.1⟩
  refine ⟨k, h1, h2, hm, rfl, ?_, hj, ?_⟩
  · intro x hx
    simp only [List.mem_append, List.mem_singleton] at hx
    rcases hx with hx | rfl
    · exact hp x hx
    · exact hpn
  · show join (join c.root (key names)) n = _
    rw [join_join (good_head (proper_good hp)) (proper_head hpn) hr, hj]
    rfl

theorem content_place {fs : LFS} {cwd p : Text} (h : (fs.content cwd p).isSome = true) :
    ∃ k d, fs.place cwd p = some k ∧ fs k = some (.file d) := by
  obtain ⟨d, hd⟩ := Option.isSome_iff_exists.1 h
  obtain ⟨k, h1, h2⟩ := Links.content_some hd
  exact ⟨k, d, h1, h2⟩

/-! ### Without links -/

open _root_.Verif.Links (Tree walk_nil walk_cases walk_step walk_link walk_append)

/-- Looking up the rest of a path goes on at the place to which its beginning leads. -/
theorem walk_forward {fs : LFS} (n : Nat) (a : List Text) {k k' : List Text} (h : fs.walk true n k a = some k') :
    ∃ m, m ≤ n ∧ ∀ b, fs.walk true n k (a ++ b) = fs.walk true m k' b := by
  induction n using Nat.strongRecOn generalizing a k with
  | ind n ihn =>
    induction a generalizing k with
    | nil =>
      rw [walk_nil] at h
      injection h with h
      subst h
      exact ⟨n, Nat.le_refl _, fun b => rfl⟩
    | cons c cs iha =>
      obtain ⟨hd, h | h | h⟩ := walk_cases h
      · obtain ⟨_, _, _, e, _⟩ := h; exact (nomatch e)
      · obtain ⟨t, m, ht, -, rfl, hw⟩ := h
        obtain ⟨m', h1, h2⟩ := ihn m (by omega) _ hw
        refine ⟨m', by omega, fun b => ?_⟩
        rw [List.cons_append, walk_link hd ht (fun h => Bool.noConfusion h.2), ← h2, List.append_assoc]
      · obtain ⟨m', h1, h2⟩ := iha h.2
        exact ⟨m', h1, fun b => by rw [List.cons_append, walk_step hd h.1, h2]⟩

theorem lexStep_proper {k : List Text} {c : Text} (h : Proper c) : lexStep k c = k ++ [c] := by
  simp [lexStep, h.1, h.2.1, h.2.2.1]

theorem tree_dir {fs : LFS} (ht : Tree fs) (a b : List Text) (hb : b ≠ []) (h : fs (a ++ b) ≠ none) : fs a = some .dir := by
  have key : ∀ (n : Nat) (b : List Text), b.length = n → b ≠ [] → fs (a ++ b) ≠ none → fs a = some .dir := by
    intro n
    induction n with
    | zero => intro b hl hb _; exact absurd (List.length_eq_zero_iff.1 hl) hb
    | succ n ih =>
      intro b hl hb h
      obtain ⟨b', x, rfl⟩ : ∃ b' x, b = b' ++ [x] := ⟨b.dropLast, b.getLast hb, (List.dropLast_concat_getLast hb).symm⟩
      rw [← List.append_assoc] at h
      have hd := ht.closed _ _ h
      by_cases hb' : b' = []
      · subst hb'; simpa using hd
      · exact ih b' (by simpa using hl) hb' (by rw [hd]; exact fun e => nomatch e)
  exact key _ b rfl hb h

/-- Down from a place below which there are no links. -/
theorem walk_down {fs : LFS} {R : List Text} (hl : NoLinks fs R) {n : Nat} {k key : List Text} (hk : R <+: k) (cs : List Text)
    (hp : ∀ c ∈ cs, Proper c) (h : fs.walk true n k cs = some key) : key = k ++ cs := by
  induction cs generalizing k with
  | nil => rw [walk_nil] at h; injection h with h; simp [h]
  | cons c cs ih =>
    have hs := lexStep_proper (k := k) (hp c (by simp))
    have hk' : R <+: k ++ [c] := hk.trans (List.prefix_append _ _)
    obtain ⟨hd, h | h | h⟩ := walk_cases h
    · obtain ⟨_, _, _, e, _⟩ := h; exact (nomatch e)
    · obtain ⟨t, m, ht, -⟩ := h
      rw [hs] at ht
      exact absurd ht (hl _ hk' t)
    · rw [hs] at h
      rw [ih hk' (fun x hx => hp x (by simp [hx])) h.2]
      simp

theorem walk_there {fs : LFS} (ht : Tree fs) {R : List Text} (hl : NoLinks fs R) {n : Nat} {k : List Text} (hk : R <+: k) (cs : List Text)
    (hp : ∀ c ∈ cs, Proper c) (h : fs (k ++ cs) ≠ none) : fs.walk true n k cs = some (k ++ cs) := by
  induction cs generalizing k with
  | nil => rw [walk_nil]; simp
  | cons c cs ih =>
    have hs := lexStep_proper (k := k) (hp c (by simp))
    have hk' : R <+: k ++ [c] := hk.trans (List.prefix_append _ _)
    rw [walk_step (tree_dir ht k _ (by simp) h) (by rw [hs]; exact hl _ hk'), hs, ih hk' (fun x hx => hp x (by simp [hx])) (by simpa using h)]
    simp

/-- The root and what follows it. -/
theorem root_parts {fs : LFS} {root : Text} {R : List Text} (hne : root ≠ [])
    (h : fs.walk true LFS.maxLinks [] (splitOn '/' root) = some R) :
    ∃ A, (∀ rel : Text, rel.head? ≠ some '/' → splitOn '/' (join root rel) = A ++ splitOn '/' rel) ∧
      fs.walk true LFS.maxLinks [] A = some R := by
  by_cases hl : root.getLast? = some '/'
  · obtain ⟨a, rfl⟩ : ∃ a, root = a ++ ['/'] := List.getLast?_eq_some_iff.1 hl
    refine ⟨splitOn '/' a, fun rel hr => ?_, ?_⟩
    · simp only [join, hr, if_false, hl, or_true, if_true, List.append_assoc]
      exact splitOn_append _ _ _
    · have e : splitOn '/' (a ++ ['/']) = splitOn '/' a ++ [[]] := splitOn_append _ _ _
      rw [e] at h
      obtain ⟨m, k', _, h2, h3⟩ := walk_append _ _ (.inr rfl) h
      obtain ⟨hd, h3 | h3 | h3⟩ := walk_cases h3
      · obtain ⟨_, _, _, e, _⟩ := h3; exact (nomatch e)
      · obtain ⟨t, m, ht, -⟩ := h3
        rw [show lexStep k' [] = k' from by simp [lexStep], hd] at ht
        exact nomatch ht
      · obtain ⟨_, h3⟩ := h3
        rw [walk_nil, show lexStep k' [] = k' from by simp [lexStep]] at h3
        injection h3 with h3
        rw [h2, h3]
  · refine ⟨splitOn '/' root, fun rel hr => ?_, h⟩
    simp only [join, hr, if_false, hl, hne, or_self]
    exact splitOn_append _ _ _

theorem join_nul {a b : Text} (hb : b.head? ≠ some '/') (h1 : Char.ofNat 0 ∉ a) (h2 : Char.ofNat 0 ∉ b) : Char.ofNat 0 ∉ join a b := by
  simp only [join, hb, if_false]
  split
  · simp only [List.mem_append, not_or]; exact ⟨h1, h2⟩
  · simp only [List.mem_append, List.mem_cons, not_or]; exact ⟨h1, by decide, h2⟩

/-- What lies under the paths that the scan uses. -/
theorem stat_key {c : Cfg} (hs : c.Sane) {fs : LFS} (ht : Tree fs) {R : List Text} (hR : fs.place c.cwd c.root = some R)
    (hd : fs R = some .dir) (hl : NoLinks fs R) {names : List Text} (hp : ∀ n ∈ names, Proper n) :
    (fs.place c.cwd (join c.root (key names)) = some (R ++ names) ∨
      fs.place c.cwd (join c.root (key names)) = none ∧ fs (R ++ names) = none) := by
  have hne : c.root ≠ [] := RemoteDirectory.ne_nil_of_head hs.root
  obtain ⟨hw, hnul⟩ := Links.place_walk hR
  rw [join_abs _ _ hs.root] at hw
  obtain ⟨A, hA, hAw⟩ := root_parts hne hw
  obtain ⟨m, _, hm⟩ := walk_forward _ _ hAw
  have hh := good_head (proper_good hp)
  have hnul' : (join c.root (key names)).contains (Char.ofNat 0) = false := by
    have h1 : Char.ofNat 0 ∉ c.root := by simpa using hnul
    simpa using join_nul hh h1 (key_nul hp)
  have hpl : fs.place c.cwd (join c.root (key names)) = fs.walk true m R (splitOn '/' (key names)) := by
    simp only [LFS.place, hnul', Bool.false_eq_true, if_false]
    rw [join_abs _ _ (join_head _ _ hs.root), hA _ hh, hm]
  by_cases he : names = []
  · subst he
    left
    rw [hpl]
    have e : splitOn '/' (key []) = [[]] := rfl
    rw [e, walk_step hd (by rw [show lexStep R [] = R from by simp [lexStep]]; exact hl R (List.prefix_refl _)), walk_nil]
    simp [lexStep]
  · rw [hpl, Scan.key_split (proper_good hp) he]
    cases hwk : fs.walk true m R names with
    | none =>
      right
      refine ⟨rfl, ?_⟩
      apply Classical.byContradiction
      intro hx
      rw [walk_there ht hl (List.prefix_refl _) names hp hx] at hwk
      exact nomatch hwk
    | some key =>
      left
      rw [walk_down hl (List.prefix_refl _) names hp hwk]

theorem stat_eq {c : Cfg} (hs : c.Sane) {fs : LFS} (ht : Tree fs) {R : List Text} (hR : fs.place c.cwd c.root = some R)
    (hd : fs R = some .dir) (hl : NoLinks fs R) {names : List Text} (hp : ∀ n ∈ names, Proper n) :
    fs.stat c.cwd (join c.root (key names)) = fs (R ++ names) := by
  rcases stat_key hs ht hR hd hl hp with h | ⟨h1, h2⟩
  · simp [LFS.stat, h]
  · simp [LFS.stat, h1, h2]

theorem list_key {c : Cfg} (hs : c.Sane) {fs : LFS} (ht : Tree fs) {R : List Text} (hR : fs.place c.cwd c.root = some R)
    (hd : fs R = some .dir) (hl : NoLinks fs R) {env : Env} (hc : env.Calm fs) {names : List Text} (hp : ∀ n ∈ names, Proper n) :
    list c env fs (key names) = if fs (R ++ names) = some .dir then
      some ((env.names (R ++ names)).map fun n => some (entryOf c env fs (key names) (R ++ names) n)) else none := by
  simp only [list, hc.scandir, Bool.false_eq_true, if_false, hc.breaks, cut]
  rcases stat_key hs ht hR hd hl hp with h | ⟨h1, h2⟩
  · rw [h]
  · rw [h1, h2]; rfl

/-- An entry of a directory without links. -/
theorem entry_eq {c : Cfg} (hs : c.Sane) {fs : LFS} (ht : Tree fs) {R : List Text} (hR : fs.place c.cwd c.root = some R)
    (hd : fs R = some .dir) (hl : NoLinks fs R) {env : Env} (hc : env.Calm fs) {names : List Text} {n : Text}
    (hp : ∀ x ∈ names ++ [n], Proper x) :
    entryOf c env fs (key names) (R ++ names) n =
      { name := n
        isDir := decide (fs (R ++ names ++ [n]) = some .dir)
        isFile := match fs (R ++ names ++ [n]) with | some (.file _) => true | _ => false
        inode := some (env.inode (R ++ names ++ [n]))
        target := num (key (names ++ [n]))
        size := match fs (R ++ names ++ [n]) with | some (.file d) => some d.length | some .dir => some env.dirSize | _ => none } := by
  have hpn := hp n (by simp)
  have hps : ∀ x ∈ names, Proper x := fun x hx => hp x (by simp [hx])
  have hne : c.root ≠ [] := RemoteDirectory.ne_nil_of_head hs.root
  have hj := Scan.join_key (proper_good hps) ⟨hpn.1, hpn.2.2.2.1⟩
  have hjj : join (join c.root (key names)) n = join c.root (key (names ++ [n])) := by
    rw [join_join (good_head (proper_good hps)) (proper_head hpn) hne, hj]
  have hst := stat_eq hs ht hR hd hl hp
  rw [← List.append_assoc] at hst
  simp only [entryOf, hc.isDir, hc.isFile, hc.inode, hc.size, hjj, hj, LFS.isDir, LFS.content, hst, Bool.not_false, Bool.true_and,
    Bool.false_eq_true, if_false]
  cases hf : fs (R ++ names ++ [n]) with
  | none => rfl
  | some x => cases x <;> rfl

/-- The directories that are reached. -/
theorem reach_iff {c : Cfg} (hs : c.Sane) {fs : LFS} (ht : Tree fs) {R : List Text} (hR : fs.place c.cwd c.root = some R)
    (hd : fs R = some .dir) (hl : NoLinks fs R) {env : Env} (hc : env.Calm fs) (hn : Lists fs env.names) (names : List Text) (d : Nat) :
    Reach (world c env fs) (some 10) names d ↔
      d = num (key names) ∧ (∀ n ∈ names, Proper n ∧ Visible n) ∧ fs (R ++ names) = some .dir ∧ names.length < 10 := by
  have hls : ∀ names, (∀ n ∈ names, Proper n) → (world c env fs).ls (num (key names)) = list c env fs (key names) := by
    intro names _
    show list c env fs (text (num (key names))) = _
    rw [text_num]
  constructor
  · intro h
    induction h with
    | root _ => exact ⟨rfl, by simp, by simpa using hd, by simp⟩
    | @sub names d es e hr hle hmem hvis hdir hdeep hne ih =>
      obtain ⟨rfl, h1, h2, h3⟩ := ih
      have hp : ∀ n ∈ names, Proper n := fun n hn => (h1 n hn).1
      rw [hls names hp, list_key hs ht hR hd hl hc hp, if_pos h2] at hle
      injection hle with hle
      subst hle
      simp only [List.mem_map, Option.some.injEq] at hmem
      obtain ⟨n, hm, rfl⟩ := hmem
      have hpn := (((hn _).2 n).1 hm).1
      have hpp : ∀ x ∈ names ++ [n], Proper x := by
        intro x hx
        simp only [List.mem_append, List.mem_singleton] at hx
        rcases hx with hx | rfl
        · exact hp x hx
        · exact hpn
      rw [entry_eq hs ht hR hd hl hc hpp] at hdir hvis ⊢
      refine ⟨rfl, ?_, ?_, ?_⟩
      · intro x hx
        simp only [List.mem_append, List.mem_singleton] at hx
        rcases hx with hx | rfl
        · exact h1 x hx
        · exact ⟨hpn, hvis⟩
      · rw [← List.append_assoc]; simpa using hdir
      · have : (names.length : Int) + 1 < 10 := hdeep
        simp only [List.length_append, List.length_singleton]; omega
  · rintro ⟨rfl, h1, h2, h3⟩
    have key' : ∀ (k : Nat) (names : List Text), names.length = k → (∀ n ∈ names, Proper n ∧ Visible n) → fs (R ++ names) = some .dir →
        names.length < 10 → Reach (world c env fs) (some 10) names (num (key names)) := by
      intro k
      induction k with
      | zero =>
        intro names hk h1 h2 h3
        rw [List.length_eq_zero_iff.1 hk]
        refine .root (w := world c env fs) ?_
        show (world c env fs).ls (num (key [])) ≠ none
        rw [hls [] (by simp), list_key hs ht hR hd hl hc (by simp), if_pos (by simpa using hd)]
        exact fun e => nomatch e
      | succ k ih =>
        intro names hk h1 h2 h3
        have hb : names ≠ [] := by intro e; simp [e] at hk
        obtain ⟨ns, n, rfl⟩ : ∃ ns n, names = ns ++ [n] := ⟨names.dropLast, names.getLast hb, (List.dropLast_concat_getLast hb).symm⟩
        simp only [List.length_append, List.length_singleton] at hk h3
        have h1' : ∀ x ∈ ns, Proper x ∧ Visible x := fun x hx => h1 x (by simp [hx])
        have hp : ∀ x ∈ ns, Proper x := fun x hx => (h1' x hx).1
        have hpp : ∀ x ∈ ns ++ [n], Proper x := fun x hx => (h1 x hx).1
        have h2' : fs (R ++ ns) = some .dir := by
          refine tree_dir ht (R ++ ns) [n] (by simp) ?_
          rw [List.append_assoc, h2]; exact fun e => nomatch e
        have hr := ih ns (by omega) h1' h2' (by omega)
        have hm : n ∈ env.names (R ++ ns) := ((hn _).2 n).2 ⟨hpp n (by simp), by rw [List.append_assoc, h2]; exact fun e => nomatch e⟩
        have hle : (world c env fs).ls (num (key ns)) = some ((env.names (R ++ ns)).map fun n => some (entryOf c env fs (key ns) (R ++ ns) n)) := by
          rw [hls ns hp, list_key hs ht hR hd hl hc hp, if_pos h2']
        have := Reach.sub (e := entryOf c env fs (key ns) (R ++ ns) n) hr hle (List.mem_map.2 ⟨n, hm, rfl⟩) ?_ ?_ ?_ ?_
        · rw [entry_eq hs ht hR hd hl hc hpp] at this
          exact this
        · rw [entry_eq hs ht hR hd hl hc hpp]; exact (h1 n (by simp)).2
        · rw [entry_eq hs ht hR hd hl hc hpp]
          simpa [List.append_assoc] using h2
        · show (ns.length : Int) + 1 < 10
          omega
        · rw [entry_eq hs ht hR hd hl hc hpp]
          show (world c env fs).ls (num (key (ns ++ [n]))) ≠ none
          rw [hls _ hpp, list_key hs ht hR hd hl hc hpp, if_pos h2]
          exact fun e => nomatch e
    exact key' _ names rfl h1 h2 h3

theorem world_distinct {c : Cfg} {env : Env} {fs : LFS} (hn : Lists fs env.names) : (world c env fs).Distinct := by
  intro d es h
  obtain ⟨k, _, _, rfl⟩ := list_some h
  have hmap : ((env.names k).map fun n => some (entryOf c env fs (text d) k n)).Pairwise
      (fun a b => ∀ x y, a = some x → b = some y → x.name ≠ y.name) := by
    rw [List.pairwise_map]
    refine (hn k).1.imp ?_
    intro a b hab x y hx hy
    injection hx with hx
    injection hy with hy
    subst hx; subst hy
    exact hab
  cases hb : env.breaks (text d) with
  | none => simpa only [cut] using hmap
  | some i =>
    simp only [cut]
    rw [List.pairwise_append]
    refine ⟨hmap.sublist (List.take_sublist ..), by simp, ?_⟩
    intro a _ b hb x y _ hy
    simp only [List.mem_singleton] at hb
    subst hb
    exact nomatch hy

theorem world_whole {c : Cfg} {env : Env} {fs : LFS} (hc : env.Calm fs) : (world c env fs).Whole := by
  intro d es h
  obtain ⟨k, _, _, rfl⟩ := list_some h
  simp [hc.breaks, cut]

theorem world_inodes {c : Cfg} {env : Env} {fs : LFS} (hc : env.Calm fs) : (world c env fs).Inodes := by
  intro d es e h he _
  obtain ⟨k, n, _, _, _, rfl⟩ := list_entry h he
  simp [entryOf, hc.inode]

theorem world_tree {c : Cfg} (hs : c.Sane) {fs : LFS} (ht : Tree fs) {R : List Text} (hR : fs.place c.cwd c.root = some R)
    (hd : fs R = some .dir) (hl : NoLinks fs R) {env : Env} (hc : env.Calm fs) (hn : Lists fs env.names) :
    (world c env fs).Tree (some 10) := by
  have hone : ∀ names d es e, Reach (world c env fs) (some 10) names d → (world c env fs).ls d = some es → some e ∈ es →
      e.inode = some (env.inode (R ++ (names ++ [e.name]))) ∧ fs (R ++ (names ++ [e.name])) ≠ none := by
    intro names d es e hr hls he
    obtain ⟨rfl, h1, h2, _⟩ := (reach_iff hs ht hR hd hl hc hn names d).1 hr
    have hls' : list c env fs (text (num (key names))) = some es := hls
    have hp : ∀ n ∈ names, Proper n := fun n hn => (h1 n hn).1
    rw [text_num, list_key hs ht hR hd hl hc hp, if_pos h2] at hls'
    injection hls' with hls'
    subst hls'
    simp only [List.mem_map, Option.some.injEq] at he
    obtain ⟨n, hm, rfl⟩ := he
    exact ⟨by simp [entryOf, hc.inode], by rw [← List.append_assoc]; exact (((hn _).2 n).1 hm).2⟩
  intro names d es e names' d' es' e' h1 h2 h3 _ h4 h5 h6 _ hi
  obtain ⟨i1, x1⟩ := hone _ _ _ _ h1 h2 h3
  obtain ⟨i2, x2⟩ := hone _ _ _ _ h4 h5 h6
  rw [i1, i2] at hi
  injection hi with hi
  have := List.append_cancel_left (hc.distinct _ _ x1 x2 hi)
  have := List.append_inj' this rfl
  exact ⟨this.1, by simpa using this.2⟩

end Verif.ScanFs
