import Verif.Proofs.ScanFull
/-!
C62-C64: scans of the remote directory.
-/
namespace Verif.Scan
open Verif

/-- A device for the examples: directories by number. -/
def device (l : List (Nat × List (Option Entry))) : World := ⟨0, fun d => (l.find? (fun x => x.1 = d)).map (·.2)⟩

def dirE (name : String) (inode : Option Nat) (target : Nat) : Option Entry := some ⟨name.toList, true, false, inode, target, none⟩
def fileE (name : String) (size : Option Nat) : Option Entry := some ⟨name.toList, false, true, some 0, 0, size⟩

/-- What a scan said about some paths. -/
def Result.says (r : Result) (paths : List Text) : Option (List (Option Info)) := match r with
  | .done dirs => some (paths.map dirs)
  | _ => none

def treeList : List (Nat × List (Option Entry)) :=
  [(0, [dirE "a" (some 11) 1, dirE ".git" (some 12) 2, fileE "f" (some 3), dirE "locked" (some 13) 9]),
   (1, [fileE ".h" (some 4), dirE "b" (some 14) 3, fileE "g" none]), (2, [fileE "x" (some 1)]), (3, [fileE "h" (some 7)])]

def tree : World := device treeList

/-! ### C62 -/

/-- C62: nothing hidden is listed, and nothing below the depth limit. -/
theorem c62_visible {w : World} (hw : w.Named) {fs : Bool} {md : Option Int} {fuel : Nat} {dirs : Text → Option Info}
    (h : scanDirectory w fs md fuel = .done dirs) {p : Text} {info : Info} (hp : dirs p = some info) :
    ∃ names, p = key names ∧ (∀ n ∈ names, n.head? ≠ some '.') ∧ (∀ n ∈ info.dirs, n.head? ≠ some '.') ∧
      (∀ f ∈ info.files, f.1.head? ≠ some '.') ∧
      ∀ m, md = some m → (names ≠ [] → (names.length : Int) < m) ∧ (info.dirs ≠ [] → (names.length : Int) + 1 < m) := by
  obtain ⟨names, d, rfl, hr, h1, h2⟩ := sound_loop hw (sound_start w fs md) h p info hp
  obtain ⟨h3, h4⟩ := reach_visible hr
  refine ⟨names, rfl, h3, ?_, ?_, ?_⟩
  · intro n hn
    obtain ⟨_, _, e, _, _, _, hv, _, rfl, _⟩ := h1 n hn
    exact hv
  · intro f hf
    obtain ⟨_, _, e, _, _, _, hv, _, _, he⟩ := h2 f hf
    rw [he, fileInfo_fst]; exact hv
  · intro m hm
    refine ⟨h4 m hm, ?_⟩
    intro hne
    cases hd : info.dirs with
    | nil => exact absurd hd hne
    | cons n _ =>
      obtain ⟨_, _, _, _, _, _, _, _, _, hdeep⟩ := h1 n (by rw [hd]; simp)
      subst hm
      exact hdeep

/-- C62: everything that is listed is there: the path leads along visible directories, and the names are names of entries. -/
theorem c62_there {w : World} (hw : w.Named) {fs : Bool} {md : Option Int} {fuel : Nat} {dirs : Text → Option Info}
    (h : scanDirectory w fs md fuel = .done dirs) {p : Text} {info : Info} (hp : dirs p = some info) :
    ∃ names d, p = key names ∧ Reach w md names d ∧
      (∀ n ∈ info.dirs, ∃ d es e, Reach w md names d ∧ w.ls d = some es ∧ some e ∈ es ∧ e.isDir = true ∧ e.name = n) ∧
      ∀ f ∈ info.files, ∃ d es e, Reach w md names d ∧ w.ls d = some es ∧ some e ∈ es ∧ e.isDir = false ∧ e.isFile = true ∧
        e.name = f.1 ∧ f.2 = (if fs then (match e.size with | some k => (k : Int) | none => -1) else -1) := by
  obtain ⟨names, d, rfl, hr, h1, h2⟩ := sound_loop hw (sound_start w fs md) h p info hp
  refine ⟨names, d, rfl, hr, ?_, ?_⟩
  · intro n hn
    obtain ⟨d, es, e, g1, g2, g3, _, g4, g5, _⟩ := h1 n hn
    exact ⟨d, es, e, g1, g2, g3, g4, g5⟩
  · intro f hf
    obtain ⟨d, es, e, g1, g2, g3, _, g4, g5, g6⟩ := h2 f hf
    exact ⟨d, es, e, g1, g2, g3, g4, g5, by rw [g6, fileInfo_fst], by rw [g6]; simp only [fileInfo]; split <;> rfl⟩

/-- The hidden entries are left out; an unreadable directory is named but not listed. -/
example : (scanDirectory tree true none 30).says ["".toList, "a".toList, "a/b".toList, ".git".toList, "locked".toList] =
    some [some ⟨["a".toList, "locked".toList], [("f".toList, 3)]⟩, some ⟨["b".toList], [("g".toList, -1)]⟩, some ⟨[], [("h".toList, 7)]⟩,
      none, none] := by decide +kernel

/-- With limit 2 the directory "a/b" is left out. -/
example : (scanDirectory tree false (some 2) 30).says ["".toList, "a".toList, "a/b".toList] =
    some [some ⟨["a".toList, "locked".toList], [("f".toList, -1)]⟩, some ⟨[], [("g".toList, -1)]⟩, none] := by decide +kernel

/-! ### C63 -/

/-- Whether the scan comes to an end. -/
def ends (w : World) (fs : Bool) (md : Option Int) : Prop :=
  ∃ fuel, scanDirectory w fs md fuel = .raised ∨ ∃ dirs, scanDirectory w fs md fuel = .done dirs

/-- C63, with a depth limit: the scan ends, whatever the directories are. -/
theorem c63_limit (w : World) (fs : Bool) (m : Int) : ends w fs (some m) :=
  ⟨stackWeight w m.toNat (start w).stack + 1, loop_limit w fs m _ (start w) (by omega)⟩

/-- C63, without a limit, recursive links or not: the scan ends if all directories give their inodes and these are finitely many. -/
theorem c63_ends_partial {w : World} (fs : Bool) (md : Option Int) {inodes : List Nat}
    (hw : ∀ d es e, w.ls d = some es → some e ∈ es → e.isDir = true → ∃ i ∈ inodes, e.inode = some i) : ends w fs md := by
  refine loop_inodes (inodes := inodes) hw _ _ (start w) ?_ (Nat.le_refl _) (Nat.le_refl _)
  intro f hf e he hd
  simp only [start] at hf
  rcases push_cases w ⟨[], fun _ => none, []⟩ [] w.root with ⟨_, e1⟩ | ⟨es, h1, e1⟩
  · rw [e1] at hf; simp at hf
  · rw [e1] at hf
    simp only [List.mem_singleton] at hf
    subst hf
    exact hw _ _ _ h1 he hd

/-- C63: below the root no directory is listed twice, if an entry has the inode of the directory to which it leads. -/
theorem c63_once_partial {w : World} (hw : w.Named) (hd : w.Distinct) {ino : Nat → Nat}
    (hi : ∀ d es e, w.ls d = some es → some e ∈ es → e.isDir = true → e.inode = some (ino e.target)) {fs : Bool} {md : Option Int}
    {fuel : Nat} {dirs : Text → Option Info} (h : scanDirectory w fs md fuel = .done dirs) {names names' : List Text} {d : Nat}
    (hr : Reach w md names d) (hr' : Reach w md names' d) (hne : names ≠ []) (hne' : names' ≠ []) (hp : dirs (key names) ≠ none)
    (hp' : dirs (key names') ≠ none) : names = names' := by
  have hin : w.Inodes := fun d es e h1 h2 h3 => by rw [hi d es e h1 h2 h3]; simp
  obtain ⟨s, rfl, own, h1, h2⟩ := owned_loop hw hin (sound_start w fs md) (owned_start w md) h
  have hown : ∀ names, Reach w md names d → names ≠ [] → s.dirs (key names) ≠ none → own (key names) = ino d := by
    intro names hr hne hp
    obtain ⟨_, n0, d0, es, e, g1, g2, g3, g4, g5, g6, g7, g8⟩ := h1 _ (fun hk => hne ((key_nil (reach_good hw hr)).1 hk)) hp
    have hn : names = n0 ++ [e.name] := key_inj (reach_good hw hr) (reach_good hw g8) g6
    subst hn
    have := reach_fun hd hr g8
    subst this
    rw [hi _ _ _ g2 g3 g4] at g5
    exact (Option.some.inj g5).symm
  have hk : ∀ names, Reach w md names d → names ≠ [] → key names ≠ [] := fun names hr hne hk => hne ((key_nil (reach_good hw hr)).1 hk)
  exact key_inj (reach_good hw hr) (reach_good hw hr')
    (h2 _ _ (hk _ hr hne) (hk _ hr' hne') hp hp' ((hown _ hr hne hp).trans (hown _ hr' hne' hp').symm))

/-- The full C63 does not hold: the inode of the root is not noted, so a link to the root lists the root a second time. -/
theorem c63_root_twice_false : (scanDirectory (device [(0, [dirE "loop" (some 1) 0, fileE "f" none])]) false none 20).says
    ["".toList, "loop".toList, "loop/loop".toList] =
    some [some ⟨["loop".toList], [("f".toList, -1)]⟩, some ⟨[], [("f".toList, -1)]⟩, none] := by decide +kernel

/-- The full C63 does not hold: the inode of a symbolic link is that of the link, so the directory is listed under both names. -/
theorem c63_link_twice_false : (scanDirectory (device [(0, [dirE "a" (some 1) 1, dirE "link" (some 2) 1]), (1, [fileE "f" none])]) false
    none 20).says ["a".toList, "link".toList] = some [some ⟨[], [("f".toList, -1)]⟩, some ⟨[], [("f".toList, -1)]⟩] := by decide +kernel

/-- Where `inode()` raises and no limit is given, a recursive link is followed for ever (as far as the operating system lets it). -/
theorem c63_endless_false (fuel : Nat) (fs : Bool) (s : State) (path : Text)
    (hs : ∃ rest below, s.stack = (path, dirE "l" none 0 :: rest) :: below) :
    loop (device [(0, [dirE "l" none 0])]) fs none fuel s = .running := by
  induction fuel generalizing s path with
  | zero => rfl
  | succ fuel ih =>
    obtain ⟨rest, below, hs⟩ := hs
    simp only [loop, hs]
    have hr : round (device [(0, [dirE "l" none 0])]) fs none s path (dirE "l" none 0 :: rest) below =
        .go (push (device [(0, [dirE "l" none 0])]) { s with stack := (path, rest) :: below } (Path.join path "l".toList) 0) := rfl
    rw [hr]
    exact ih _ (Path.join path "l".toList) ⟨[], (path, rest) :: below, rfl⟩

/-- So that scan does not end. -/
example (fs : Bool) : ¬ ends (device [(0, [dirE "l" none 0])]) fs none := by
  rintro ⟨fuel, h⟩
  have := c63_endless_false fuel fs (start (device [(0, [dirE "l" none 0])])) [] ⟨[], [], rfl⟩
  simp only [scanDirectory, this] at h
  rcases h with h | ⟨_, h⟩ <;> exact Result.noConfusion h

/-- A recursive link between two directories with honest inodes: each is listed once. -/
example : (scanDirectory (device [(0, [dirE "a" (some 1) 1]), (1, [dirE "b" (some 2) 2]), (2, [dirE "a" (some 1) 1])]) false none 20).says
    ["".toList, "a".toList, "a/b".toList, "a/b/a".toList] = some [some ⟨["a".toList], []⟩, some ⟨["b".toList], []⟩, some ⟨[], []⟩, none] := by
  decide +kernel

/-- A side effect: two directories with one inode number, on different file systems, and only the first is listed. -/
theorem c63_other_filesystem_false : (scanDirectory (device [(0, [dirE "usb1" (some 2) 1, dirE "usb2" (some 2) 2]), (1, []),
    (2, [fileE "f" none])]) false none 20).says ["".toList, "usb1".toList, "usb2".toList] =
    some [some ⟨["usb1".toList], []⟩, some ⟨[], []⟩, none] := by decide +kernel

/-! ### C64 -/

/-- C64: a scan that ends without exception lists exactly the directories that can be reached, each with exactly its visible
subdirectories (unless below the limit) and visible files, in the order of the listing, with their sizes. -/
theorem c64_complete {w : World} (hw : w.Named) (hd : w.Distinct) (hi : w.Inodes) {fs : Bool} {md : Option Int} (ht : w.Tree md)
    {fuel : Nat} {dirs : Text → Option Info} (h : scanDirectory w fs md fuel = .done dirs) (p : Text) (info : Info) :
    dirs p = some info ↔
      ∃ names d es, p = key names ∧ Reach w md names d ∧ w.ls d = some es ∧ info = infoOf fs md names.length es := by
  obtain ⟨s, P, rfl, hf⟩ := full_loop hw hd hi ht (full_start w fs md) h
  constructor
  · intro hp
    obtain ⟨names, hg, rfl⟩ := hf.keys p (by rw [hp]; simp)
    rw [hf.dirs names hg] at hp
    cases hP : P names with
    | none => rw [hP] at hp; simp at hp
    | some v =>
      obtain ⟨d, done⟩ := v
      rw [hP] at hp
      simp only [Option.map_some, Option.some.injEq] at hp
      obtain ⟨h1, h2 | ⟨r, hr⟩⟩ := hf.reach _ _ _ hP
      · exact ⟨names, d, done, rfl, h1, h2, hp.symm⟩
      · simp at hr
  · rintro ⟨names, d, es, rfl, hr, hls, rfl⟩
    obtain ⟨es', h1, h2⟩ := full_done hd hf hr
    rw [hls] at h1
    injection h1 with h1
    subst h1
    exact dirs_top hw hf h2

/-- C64: and with a depth limit, where no listing breaks off, the scan does end without exception. -/
theorem c64_ends {w : World} (hw : w.Named) (hwh : w.Whole) (fs : Bool) (m : Int) : ∃ fuel dirs, scanDirectory w fs (some m) fuel = .done dirs := by
  obtain ⟨fuel, h⟩ := c63_limit w fs m
  rcases h with h | ⟨dirs, h⟩
  · exact absurd h (loop_whole hw hwh fuel (sound_start w fs (some m)))
  · exact ⟨fuel, dirs, h⟩

/-- C64: a device without links is such a tree. -/
theorem c64_plain {w : World} {md : Option Int} (hp : w.Plain) : w.Tree md := plain_tree hp

/-- The example device satisfies all hypotheses of C64. -/
example (md : Option Int) : tree.Named ∧ tree.Distinct ∧ tree.Inodes ∧ tree.Whole ∧ tree.Tree md := by
  have hls : ∀ d es, tree.ls d = some es → (d, es) ∈ treeList := by
    intro d es h
    simp only [tree, device, Option.map_eq_some_iff] at h
    obtain ⟨⟨d', es'⟩, h1, rfl⟩ := h
    have h2 := List.find?_some h1
    have h3 := List.mem_of_find?_eq_some h1
    have h2 : d' = d := of_decide_eq_true h2
    exact h2 ▸ h3
  have c1 : ∀ x ∈ treeList, ∀ o ∈ x.2, o.all (fun e => decide (e.name ≠ [] ∧ '/' ∉ e.name)) = true := by decide +kernel
  have c2 : ∀ x ∈ treeList, (x.2.map (Option.map (·.name))).Nodup := by decide +kernel
  have c3 : ∀ x ∈ treeList, ∀ o ∈ x.2, o.all (fun e => decide (e.isDir = true → e.inode ≠ none ∧ e.target ≠ 0)) = true := by decide +kernel
  have c4 : ∀ x ∈ treeList, none ∉ x.2 := by decide +kernel
  have c5 : ∀ x ∈ treeList, ∀ o ∈ x.2, ∀ x' ∈ treeList, ∀ o' ∈ x'.2, o.all (fun e => o'.all (fun e' => decide (e.isDir = true →
      e'.isDir = true → (e.inode = e'.inode → x.1 = x'.1 ∧ e.name = e'.name) ∧ (e.target = e'.target → x.1 = x'.1 ∧ e.name = e'.name))))
      = true := by decide +kernel
  refine ⟨?_, ?_, ?_, ?_, plain_tree ⟨?_, ?_⟩⟩
  · intro d es e h he
    exact of_decide_eq_true (c1 _ (hls d es h) _ he)
  · intro d es h
    have := c2 _ (hls d es h)
    rw [List.Nodup, List.pairwise_map] at this
    refine this.imp ?_
    rintro _ _ hne x y rfl rfl hxy
    exact hne (by simp [hxy])
  · intro d es e h he hd
    exact (of_decide_eq_true (c3 _ (hls d es h) _ he) hd).1
  · intro d es h
    exact c4 _ (hls d es h)
  · intro d es e d' es' e' h he hd h' he' hd'
    exact of_decide_eq_true (c5 _ (hls d es h) _ he _ (hls d' es' h') _ he') hd hd'
  · intro d es e h he hd
    exact (of_decide_eq_true (c3 _ (hls d es h) _ he) hd).2

/-- A listing that breaks off makes the whole scan fail: what was found is lost. -/
example : (match scanDirectory (device [(0, [fileE "f" none, dirE "a" (some 1) 1]), (1, [none])]) false none 20 with
    | .raised => true | _ => false) = true := by decide +kernel

end Verif.Scan
