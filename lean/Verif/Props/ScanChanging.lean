import Verif.Proofs.ScanChanging
import Verif.Props.Scan
/-!
C179, C180: scans of directories that change while the scan runs.
-/
namespace Verif.Scan
open Verif

/-! ### C179 -/

/-- C179: whatever other programs do, everything that is listed was given by the system during the scan, under the path at which it is
listed; each directory of this path was listed in the one above, which had been opened before; nothing hidden is listed, and nothing below
the limit. -/
theorem c179_given {c : Changing} (hw : c.Named) {fs : Bool} {md : Option Int} {fuel : Nat} {dirs : Text → Option Info}
    (h : scanChanging c fs md fuel = .done dirs) {p : Text} {info : Info} (hp : dirs p = some info) :
    ∃ names d t, p = key names ∧ ReachAt c md names d t ∧ t ≤ fuel ∧
      (∀ n ∈ info.dirs, ∃ d t es e, ReachAt c md names d t ∧ t ≤ fuel ∧ (c t).ls d = some es ∧ some e ∈ es ∧ e.isDir = true ∧ e.name = n ∧
        n.head? ≠ some '.') ∧
      (∀ f ∈ info.files, ∃ d t es e, ReachAt c md names d t ∧ t ≤ fuel ∧ (c t).ls d = some es ∧ some e ∈ es ∧ e.isDir = false ∧
        e.isFile = true ∧ e.name = f.1 ∧ f.1.head? ≠ some '.' ∧
        f.2 = (if fs then (match e.size with | some k => (k : Int) | none => -1) else -1)) ∧
      (∀ n ∈ names, n.head? ≠ some '.') ∧
      ∀ m, md = some m → (names ≠ [] → (names.length : Int) < m) ∧ (info.dirs ≠ [] → (names.length : Int) + 1 < m) := by
  obtain ⟨t', s', ht', _, hd, hs⟩ := loopC_inv (sound_roundC hw) (soundAt_start c fs md) h
  subst hd
  obtain ⟨names, d, t, rfl, hr, ht, h1, h2⟩ := hs.listed p info hp
  obtain ⟨h3, h4⟩ := reachAt_visible hr
  refine ⟨names, d, t, rfl, hr, by omega, ?_, ?_, h3, ?_⟩
  · intro n hn
    obtain ⟨d, t, es, e, g1, g2, g3, g4, g5, g6, g7, _⟩ := h1 n hn
    exact ⟨d, t, es, e, g1, by omega, g3, g4, g6, g7, g7 ▸ g5⟩
  · intro f hf
    obtain ⟨d, t, es, e, g1, g2, g3, g4, g5, g6, g7, rfl⟩ := h2 f hf
    refine ⟨d, t, es, e, g1, by omega, g3, g4, g6, g7, (fileInfo_fst fs e).symm, by rw [fileInfo_fst]; exact g5, ?_⟩
    simp only [fileInfo]
    split <;> rfl
  · intro m hm
    subst hm
    refine ⟨h4 m rfl, ?_⟩
    intro hne
    cases hi : info.dirs with
    | nil => exact absurd hi hne
    | cons n _ =>
      obtain ⟨_, _, _, _, _, _, _, _, _, _, _, hdeep⟩ := h1 n (by simp [hi])
      exact hdeep

/-- C179: with a depth limit the scan ends, however the directories change, if each directory that is opened gives finitely many entries. -/
theorem c179_ends (c : Changing) (fs : Bool) (m : Int) :
    ∃ fuel, scanChanging c fs (some m) fuel = .raised ∨ ∃ dirs, scanChanging c fs (some m) fuel = .done dirs := by
  refine comes_ends ?_
  rcases start_stack (c 0) with h | ⟨es, h⟩
  · exact .here h
  · exact comes_below c fs m (m - 1).toNat es [] [] 1 _ (by simp only [List.length_nil]; omega) h

/-- C179: where nothing changes, this is the scan of C62-C64. -/
theorem c179_agrees (w : World) (fs : Bool) (md : Option Int) (fuel : Nat) :
    scanChanging (fun _ => w) fs md fuel = scanDirectory w fs md fuel := loopC_same w fs md fuel 1 (start w)

/-- A program that makes a directory in every directory that is being opened: the listing is one new directory, with a new inode. -/
def deepening : Changing := fun t => ⟨0, fun _ => some [dirE "d" (some t) 0]⟩

theorem round_enter {w : World} {fs : Bool} {s : State} {path : Text} {e : Entry} {rest : List (Option Entry)}
    {below : List (Text × List (Option Entry))} {i : Nat} (hv : ¬ e.name.head? = some '.') (hd : e.isDir = true) (hi : e.inode = some i)
    (hn : s.visited.contains i = false) : round w fs none s path (some e :: rest) below =
      .go (push w { addDir { s with stack := (path, rest) :: below } path e.name with visited := i :: s.visited }
        (Path.join path e.name) e.target) := by
  simp only [round]
  rw [if_neg hv, if_pos hd, if_neg (by simp [tooDeep]), hi]
  simp only
  rw [if_neg (by rw [hn]; simp)]
  rfl

theorem deepening_round (fs : Bool) (t : Nat) (s : State) (path : Text) (below : List (Text × List (Option Entry)))
    (hv : ∀ i ∈ s.visited, i < t) : ∃ s', round (deepening (t + 1)) fs none s path [dirE "d" (some t) 0] below = .go s' ∧
      (∃ p b, s'.stack = (p, [dirE "d" (some (t + 1)) 0]) :: b) ∧ ∀ i ∈ s'.visited, i < t + 1 := by
  have hn : s.visited.contains t = false := by
    rw [List.contains_eq_mem, decide_eq_false_iff_not]
    intro h
    have := hv t h
    omega
  refine ⟨push (deepening (t + 1)) { addDir { s with stack := (path, []) :: below } path "d".toList with visited := t :: s.visited }
    (Path.join path "d".toList) 0, ?_, ⟨_, _, rfl⟩, ?_⟩
  · exact round_enter (e := ⟨"d".toList, true, false, some t, 0, none⟩) (show ¬ "d".toList.head? = some '.' by decide) rfl rfl hn
  · intro i hi
    have hi : i ∈ t :: s.visited := hi
    simp only [List.mem_cons] at hi
    rcases hi with rfl | hi
    · omega
    · have := hv i hi; omega

/-- The full C179 does not hold: without a limit the scan never ends where another program goes on making directories below the one that is
scanned, though each directory has one entry. -/
theorem c179_endless_false (fs : Bool) (fuel : Nat) : scanChanging deepening fs none fuel = .running := by
  have key : ∀ fuel t (s : State), (∃ p b, s.stack = (p, [dirE "d" (some t) 0]) :: b) → (∀ i ∈ s.visited, i < t) →
      loopC deepening fs none fuel (t + 1) s = .running := by
    intro fuel
    induction fuel with
    | zero => intros; rfl
    | succ fuel ih =>
      rintro t s ⟨p, b, hst⟩ hv
      obtain ⟨s', h1, h2, h3⟩ := deepening_round fs t s p b hv
      simp only [loopC, hst, h1]
      exact ih (t + 1) s' h2 h3
  exact key fuel 0 _ ⟨[], [], rfl⟩ (by simp [start, push, deepening])

/-! ### C180 -/

/-- C180: a directory that stays where it is as long as the scan runs is listed, whatever else changes; the files listed for it are
exactly those that it had at one moment of the scan, in the order of the listing, with their sizes; and its subdirectories that stay are
listed. -/
theorem c180_partial {c : Changing} (hw : c.Named) {fs : Bool} {md : Option Int} {fuel : Nat} {dirs : Text → Option Info}
    (h : scanChanging c fs md fuel = .done dirs) {names : List Text} {d : Nat} (hs : Stays c md names d) :
    ∃ info t es, dirs (key names) = some info ∧ t ≤ fuel ∧ (c t).ls d = some es ∧
      info.files = (infoOf fs md names.length es).files ∧ ∀ n target, Stays c md (names ++ [n]) target → n ∈ info.dirs := by
  obtain ⟨t', s', ht', hst, hd, _, hk⟩ := loopC_inv (Inv := fun t s => SoundAt c fs md t s ∧ Kept c fs md t s) (kept_roundC hw)
    ⟨soundAt_start c fs md, kept_start c fs md hw⟩ h
  subst hd
  obtain ⟨info, t, es, h1, h2, h3, h4, h5⟩ := kept_done hst hk hs
  exact ⟨info, t, es, h1, by omega, h3, h4, h5⟩

/-- C180: a file that is always there, in a directory that stays, is listed, even while other files come and go and its size changes. -/
theorem c180_file {c : Changing} (hw : c.Named) {fs : Bool} {md : Option Int} {fuel : Nat} {dirs : Text → Option Info}
    (h : scanChanging c fs md fuel = .done dirs) {names : List Text} {d : Nat} (hs : Stays c md names d) {n : Text}
    (hn : n.head? ≠ some '.')
    (hf : ∀ es, c.Gives d es → ∃ e, some e ∈ es ∧ e.name = n ∧ e.isDir = false ∧ e.isFile = true) :
    ∃ info size, dirs (key names) = some info ∧ (n, size) ∈ info.files := by
  obtain ⟨info, t, es, h1, _, h3, h4, _⟩ := c180_partial hw h hs
  obtain ⟨e, g1, g2, g3, g4⟩ := hf es ⟨t, h3⟩
  refine ⟨info, (if fs then (match e.size with | some k => (k : Int) | none => -1) else -1), h1, ?_⟩
  rw [h4]
  simp only [infoOf, List.mem_map, List.mem_filter, List.mem_filterMap]
  refine ⟨e, ⟨⟨some e, g1, ?_⟩, by simp [g3, g4]⟩, by subst g2; cases fs <;> cases e.size <;> rfl⟩
  have hv : e.visible := by
    show e.name.head? ≠ some '.'
    rw [g2]; exact hn
  simp [hv]

/-- C180: a file that is never there, in a directory that stays, is not listed. -/
theorem c180_no_file {c : Changing} (hw : c.Named) {fs : Bool} {md : Option Int} {fuel : Nat} {dirs : Text → Option Info}
    (h : scanChanging c fs md fuel = .done dirs) {names : List Text} {d : Nat} (hs : Stays c md names d) {n : Text}
    (hf : ∀ es e, c.Gives d es → some e ∈ es → e.name ≠ n) {info : Info} (hi : dirs (key names) = some info) {size : Int} :
    (n, size) ∉ info.files := by
  obtain ⟨info', t, es, h1, _, h3, h4, _⟩ := c180_partial hw h hs
  rw [hi] at h1
  injection h1 with h1
  subst h1
  rw [h4]
  intro hm
  simp only [infoOf, List.mem_map, List.mem_filter, List.mem_filterMap] at hm
  obtain ⟨e, ⟨⟨o, g1, g2⟩, _⟩, g3⟩ := hm
  injection g3 with g3 _
  cases o with
  | none => simp at g2
  | some e' =>
    simp only [Option.bind_some] at g2
    split at g2
    · injection g2 with g2
      subst g2
      exact hf es e' ⟨t, h3⟩ g1 g3
    · simp at g2

/-- A file moved from `b` to `a` when the scan has done `a`: `moved k` moves it in round `k`. -/
def moved (k : Nat) : Changing := fun t => device [(0, [dirE "a" (some 11) 1, dirE "b" (some 12) 2]),
  (1, if t < k then [] else [fileE "f" none]), (2, if t < k then [fileE "f" none] else [])]

/-- The full C180 does not hold: a file that is moved is missed, though at every moment it is in one of the two directories. -/
theorem c180_missed_false : (∀ t, ((moved 2 t).ls 1 = some [fileE "f" none] ∧ (moved 2 t).ls 2 = some []) ∨
      ((moved 2 t).ls 1 = some [] ∧ (moved 2 t).ls 2 = some [fileE "f" none])) ∧
    (scanChanging (moved 2) false (some 10) 20).says ["a".toList, "b".toList] = some [some ⟨[], []⟩, some ⟨[], []⟩] := by
  refine ⟨?_, by decide +kernel⟩
  intro t
  by_cases h : t < 2
  · right; simp [moved, device, h]
  · left; simp [moved, device, h]

/-- The full C180 does not hold: a file that is moved the other way is listed twice, though at no moment there are two. -/
theorem c180_twice_false : (scanChanging (fun t => device [(0, [dirE "b" (some 12) 2, dirE "a" (some 11) 1]),
      (1, if t < 2 then [] else [fileE "f" none]), (2, if t < 2 then [fileE "f" none] else [])]) false (some 10) 20).says
    ["a".toList, "b".toList] = some [some ⟨[], [("f".toList, -1)]⟩, some ⟨[], [("f".toList, -1)]⟩] := by decide +kernel

/-- The full C180 does not hold: a directory that is there all the time is missed if it is renamed behind the place where the listing of
the directory above stands, and the result says it is where it is no more. -/
theorem c180_renamed_false : (scanChanging (fun t => if t = 0 then device [(0, [dirE "a" (some 11) 1]), (1, [fileE "f" none])]
      else ⟨0, fun d => if d = 0 then some [dirE "z" (some 11) 1] else none⟩) false (some 10) 20).says
    ["".toList, "a".toList, "z".toList] = some [some ⟨["a".toList], []⟩, none, none] := by decide +kernel

/-- In `moved`, the root and both directories stay. -/
theorem moved_stays (k : Nat) : Stays (moved k) (some 10) [] 0 ∧ Stays (moved k) (some 10) ["a".toList] 1 := by
  have hl : ∀ d es, (moved k).Gives d es → ∀ e, some e ∈ es → e.isDir = true →
      d = 0 ∧ (some e = dirE "a" (some 11) 1 ∨ some e = dirE "b" (some 12) 2) := by
    rintro d es ⟨t, ht⟩ e he hd
    by_cases h0 : d = 0
    · subst h0
      have : es = [dirE "a" (some 11) 1, dirE "b" (some 12) 2] := by
        simp [moved, device] at ht
        exact ht.symm
      subst this
      simpa using he
    · exfalso
      have hes : es = [] ∨ es = [fileE "f" none] := by
        simp only [moved, device, Option.map_eq_some_iff] at ht
        obtain ⟨x, hx, rfl⟩ := ht
        have h1 := List.mem_of_find?_eq_some hx
        have h2 := List.find?_some hx
        simp only [List.mem_cons, List.not_mem_nil, or_false] at h1
        have h2 : x.1 = d := of_decide_eq_true h2
        rcases h1 with rfl | rfl | rfl
        · exact absurd h2.symm h0
        · simp only; split <;> simp
        · simp only; split <;> simp
      rcases hes with rfl | rfl
      · simp at he
      · simp only [List.mem_singleton, fileE, Option.some.injEq] at he
        subst he
        simp at hd
  have hroot : Stays (moved k) (some 10) [] 0 := by
    refine .root (c := moved k) ?_ ?_
    · intro t; simp [moved, device]
    · intro d es e hg he hd
      rcases (hl d es hg e he hd).2 with h | h <;> (injection h with h; subst h; simp [moved, device])
  refine ⟨hroot, ?_⟩
  refine .sub (names := []) (n := "a".toList) (target := 1) (i := 11) hroot (by decide) (by decide) ?_ ?_ ?_ ?_ (by simp [moved, device])
  · intro t; simp [moved, device]
  · rintro es ⟨t, ht⟩
    have : es = [dirE "a" (some 11) 1, dirE "b" (some 12) 2] := by
      simp [moved, device] at ht
      exact ht.symm
    subst this
    exact ⟨_, List.mem_cons_self, rfl⟩
  · rintro es e ⟨t, ht⟩ he hn
    have : es = [dirE "a" (some 11) 1, dirE "b" (some 12) 2] := by
      simp [moved, device] at ht
      exact ht.symm
    subst this
    simp only [List.mem_cons, List.not_mem_nil, or_false] at he
    rcases he with h | h
    · injection h with h; subst h; exact ⟨rfl, rfl, rfl⟩
    · injection h with h; subst h; exact absurd hn (by decide)
  · intro d es e hg he hd hor
    obtain ⟨h0, h | h⟩ := hl d es hg e he hd
    · injection h with h; subst h; exact ⟨h0, rfl⟩
    · injection h with h; subst h; exact absurd hor (by decide)

theorem moved_named (k : Nat) : (moved k).Named := by
  intro t d es e hls he
  simp only [moved, device, Option.map_eq_some_iff] at hls
  obtain ⟨x, hx, rfl⟩ := hls
  have h1 := List.mem_of_find?_eq_some hx
  have hall : ∀ e, some e = dirE "a" (some 11) 1 ∨ some e = dirE "b" (some 12) 2 ∨ some e = fileE "f" none → e.name ≠ [] ∧ '/' ∉ e.name := by
    rintro e (h | h | h) <;> (injection h with h; subst h; decide)
  apply hall
  simp only [List.mem_cons, List.not_mem_nil, or_false] at h1
  rcases h1 with rfl | rfl | rfl
  · simp only [List.mem_cons, List.not_mem_nil, or_false] at he
    exact he.imp id .inl
  · simp only at he
    split at he
    · simp at he
    · exact .inr (.inr (by simpa using he))
  · simp only at he
    split at he
    · exact .inr (.inr (by simpa using he))
    · simp at he

/-- C180 applied to `moved`: the directory `a` is listed, with the files of one moment. -/
example (k fuel : Nat) (dirs : Text → Option Info) (h : scanChanging (moved k) false (some 10) fuel = .done dirs) :
    ∃ info t es, dirs (key ["a".toList]) = some info ∧ t ≤ fuel ∧ (moved k t).ls 1 = some es ∧
      info.files = (infoOf false (some 10) 1 es).files ∧ ∀ n target, Stays (moved k) (some 10) (["a".toList] ++ [n]) target → n ∈ info.dirs :=
  c180_partial (moved_named k) h (moved_stays k).2

end Verif.Scan
