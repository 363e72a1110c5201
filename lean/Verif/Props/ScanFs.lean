import Verif.Proofs.ScanFs
import Verif.Props.Scan
import Verif.Props.Links
/-!
Properties C140-C142: scans of a file system with links.
-/
namespace Verif.ScanFs
open Verif Path
open _root_.Verif.RemoteDirectory (Cfg GoesUp snapDir exampleCfg)
open _root_.Verif.Links (LFS LNode NoLink Tree Contained addUpload readUpload ofList)
open _root_.Verif.Scan (key Info Reach)

/-! ### C140 -/

/-- C140: a file that a scan lists can be fetched under the path of its directory in the result, followed by its name: the path leads to a
regular file, the size listed is its size (or -1 if it could not be got), and, when the operating system does what it is asked, the request
for it is answered with this size and reads give its bytes. -/
theorem c140_listed_fetched (c : Cfg) (hs : c.Sane) (fs : LFS) (ht : Tree fs) (env : Env) (hn : Lists fs env.names) (fuel : Nat)
    (dirs : Text → Option Info) (h : scan c env fs fuel = .done dirs) (p : Text) (info : Info) (hp : dirs p = some info)
    (f : Text × Int) (hf : f ∈ info.files) :
    ∃ k d, fs.place c.cwd (join c.root (join p f.1)) = some k ∧ fs k = some (.file d) ∧
      f.2 = (if env.sizeFails (join p f.1) then -1 else (d.length : Int)) ∧
      ∀ id k', fs.isDir c.cwd (snapDir c) = true → id.head? ≠ some '/' → fs.writable c.cwd (join (snapDir c) id) = some k' → k ≠ k' →
        (addUpload c ⟨none, false, false, .good, false, [], 4096⟩ fs (join p f.1) id).2 = .ok d.length ∧
        ∀ o s : Nat, (o : Int) ≤ maxSize → (s : Int) ≤ maxSize →
          (readUpload c {} (addUpload c ⟨none, false, false, .good, false, [], 4096⟩ fs (join p f.1) id).1 id o s).2 =
            .ok ((d.drop o).take s) := by
  have hroot : c.root ≠ [] := by intro e; have := hs.root; rw [e] at this; exact nomatch this
  simp only [scan] at h
  split at h
  · obtain ⟨names, _, rfl, _, _, h2⟩ := Scan.c62_there (world_named hn) h hp
    obtain ⟨d', es, e, hr, hls, he, _, hfile, hname, hsize⟩ := h2 f hf
    obtain ⟨k0, hk0, hd0, hm, hee, hprop, hj, hjj⟩ := reach_entry hroot hn hr hls he
    have hfile' : (fs.content c.cwd (join (join c.root (key names)) e.name)).isSome = true := by
      rw [hee] at hfile
      simp only [entryOf, Bool.and_eq_true] at hfile
      exact hfile.2
    rw [hjj] at hfile'
    obtain ⟨k, d, hk, hkd⟩ := content_place hfile'
    rw [← hname, hj]
    have hsz : f.2 = (if env.sizeFails (key (names ++ [e.name])) then -1 else (d.length : Int)) := by
      rw [hsize, if_pos rfl, hee]
      simp only [entryOf, hj, hjj, LFS.stat, hk, Option.bind_some, hkd]
      split
      · rename_i heq; split at heq
        · exact nomatch heq
        · rename_i hsf; injection heq with heq; subst heq; simp [hsf]
      · rename_i heq; split at heq
        · rename_i hsf; simp [hsf]
        · exact nomatch heq
    refine ⟨k, d, hk, hkd, hsz, fun id k' hd hid hw hne => ?_⟩
    have hl := lstrip_key (proper_good hprop)
    refine Links.c125_follows_false c hs fs ht hd _ id ?_ (key_up hprop) k k' d (by rw [hl]; exact hk) hkd hid hw hne
    intro hh
    exact key_nul hprop (List.mem_of_mem_head? hh)
  · exact nomatch h

/-! ### C141 -/

/-- C141, the part that holds: if every link in the remote directory leads to a place in it, then all that is listed lies in it: the
directories that are listed, the subdirectories that are named, and the files.  Missing: links that lead out. -/
theorem c141_contained_partial (c : Cfg) (hs : c.Sane) (fs : LFS) (env : Env) (hn : Lists fs env.names) (R : List Text)
    (hroot : fs.place c.cwd c.root = some R) (hc : Contained fs R) (fuel : Nat) (dirs : Text → Option Info)
    (h : scan c env fs fuel = .done dirs) (p : Text) (info : Info) (hp : dirs p = some info) :
    (∀ k, fs.place c.cwd (join c.root p) = some k → R <+: k) ∧
    (∀ n ∈ info.dirs, ∀ k, fs.place c.cwd (join c.root (join p n)) = some k → R <+: k) ∧
    ∀ f ∈ info.files, ∀ k, fs.place c.cwd (join c.root (join p f.1)) = some k → R <+: k := by
  have hne : c.root ≠ [] := RemoteDirectory.ne_nil_of_head hs.root
  obtain ⟨hw, _⟩ := Links.place_walk hroot
  rw [join_abs _ _ hs.root] at hw
  have hin : ∀ names : List Text, (∀ n ∈ names, Proper n) → ∀ k, fs.place c.cwd (join c.root (key names)) = some k → R <+: k := by
    intro names hp k hk
    obtain ⟨hk, _⟩ := Links.place_walk hk
    rw [join_abs _ _ (join_head _ _ hs.root)] at hk
    obtain ⟨A, h1, h2, h3⟩ := Links.join_parts hne hs.rootUp (good_head (proper_good hp)) (key_up hp)
    rw [h1] at hk
    exact Links.walk_below hs.rootUp h2 h3 (.inr rfl) hw hc hk
  simp only [scan] at h
  split at h
  · obtain ⟨names, d, rfl, hr, h1, h2⟩ := Scan.c62_there (world_named hn) h hp
    refine ⟨hin names (reach_num hn hr).2, ?_, ?_⟩
    · intro n hm
      obtain ⟨d', es, e, hr, hls, he, _, rfl⟩ := h1 n hm
      obtain ⟨k0, _, _, _, _, hprop, hj, _⟩ := reach_entry hne hn hr hls he
      rw [hj]
      exact hin _ hprop
    · intro f hf
      obtain ⟨d', es, e, hr, hls, he, _, _, hname, _⟩ := h2 f hf
      obtain ⟨k0, _, _, _, _, hprop, hj, _⟩ := reach_entry hne hn hr hls he
      rw [← hname, hj]
      exact hin _ hprop
  · exact nomatch h

/-- Each name once. -/
def once : List Text → List Text
  | [] => []
  | n :: l => if n ∈ once l then once l else n :: once l

theorem mem_once (l : List Text) (n : Text) : n ∈ once l ↔ n ∈ l := by
  induction l with
  | nil => simp [once]
  | cons m l ih =>
    simp only [once]
    split
    · rename_i h
      simp only [ih, List.mem_cons]
      exact ⟨.inr, fun h' => h'.elim (fun e => e ▸ ih.1 (by rw [e]; exact h)) id⟩
    · simp [ih]

theorem once_nodup (l : List Text) : (once l).Nodup := by
  induction l with
  | nil => simp [once]
  | cons m l ih =>
    simp only [once]
    split
    · exact ih
    · rename_i h; exact List.nodup_cons.2 ⟨h, ih⟩

/-- The names in a directory of a file system given by a list. -/
def namesIn (l : List (List Text × LNode)) (k : List Text) : List Text :=
  once (l.filterMap fun x => if x.1 ≠ [] ∧ x.1.dropLast = k then x.1.getLast? else none)

/-- What can be asked of the names in such a list: all are proper names. -/
def properNames (l : List (List Text × LNode)) : Bool :=
  l.all fun x => x.1.all fun n => n ≠ [] && n ≠ ['.'] && n ≠ ['.', '.'] && !n.contains '/' && !n.contains (Char.ofNat 0)

theorem lookup_of_mem {l : List (List Text × LNode)} {x : List Text × LNode} (h : x ∈ l) : l.lookup x.1 ≠ none := by
  induction l with
  | nil => simp at h
  | cons y l ih =>
    rw [List.lookup_cons]
    split
    · exact fun e => nomatch e
    · rename_i hb
      rcases List.mem_cons.1 h with rfl | h
      · simp at hb
      · exact ih h

theorem ofList_lists (l : List (List Text × LNode)) (h : properNames l = true) : Lists (ofList l) (namesIn l) := by
  intro k
  refine ⟨once_nodup _, fun n => ?_⟩
  simp only [namesIn, mem_once, List.mem_filterMap]
  constructor
  · rintro ⟨x, hx, hn⟩
    split at hn
    · rename_i hc
      obtain ⟨h1, h2⟩ := hc
      have hk : x.1 = k ++ [n] := by
        rw [← h2]
        have hg := List.getLast?_eq_some_getLast h1
        rw [hg] at hn
        injection hn with hn
        rw [← hn]
        exact (List.dropLast_concat_getLast h1).symm
      have := List.all_eq_true.1 (List.all_eq_true.1 h x hx) n (by rw [hk]; simp)
      refine ⟨?_, by rw [← hk]; exact lookup_of_mem hx⟩
      simp at this
      exact ⟨this.1.1.1.1, this.1.1.1.2, this.1.1.2, this.1.2, this.2⟩
    · exact nomatch hn
  · rintro ⟨_, hn⟩
    cases hx : ofList l (k ++ [n]) with
    | none => exact absurd hx hn
    | some v => exact ⟨_, Links.lookup_mem hx, by simp⟩

/-- A calm environment for a file system given by a list: inode numbers by position. -/
def calmEnv (l : List (List Text × LNode)) : Env := { names := namesIn l, inode := fun k => l.findIdx (·.1 == k) }

theorem ofList_calm (l : List (List Text × LNode)) : (calmEnv l).Calm (ofList l) := by
  refine ⟨fun _ => rfl, fun _ => rfl, fun _ => rfl, fun _ => rfl, fun _ => rfl, fun _ => rfl, ?_⟩
  have hfind : ∀ k, ofList l k ≠ none → ∃ h : l.findIdx (·.1 == k) < l.length, (l[l.findIdx (·.1 == k)]).1 = k := by
    intro k hk
    cases hx : ofList l k with
    | none => exact absurd hx hk
    | some n =>
      have hlt : l.findIdx (·.1 == k) < l.length := List.findIdx_lt_length_of_exists ⟨_, Links.lookup_mem hx, by simp⟩
      exact ⟨hlt, by simpa using List.findIdx_getElem (w := hlt)⟩
  intro k k' h1 h2 h
  obtain ⟨_, e1⟩ := hfind k h1
  obtain ⟨_, e2⟩ := hfind k' h2
  simp only [calmEnv] at h
  rw [← e1, ← e2]
  simp only [h]

/-- The remote directory with a link to a file and one to a directory outside. -/
def outList : List (List Text × LNode) :=
  [([], .dir), (["home".toList], .dir), (["home".toList, "dataplicity".toList], .dir),
   (["home".toList, "dataplicity".toList, "remote".toList], .dir), (["etc".toList], .dir),
   (["etc".toList, "passwd".toList], .file [114, 111, 111, 116]),
   (["home".toList, "dataplicity".toList, "remote".toList, "a".toList], .file [1, 2, 3, 4, 5]),
   (["home".toList, "dataplicity".toList, "remote".toList, "out".toList], .link "../../../etc/passwd".toList),
   (["home".toList, "dataplicity".toList, "remote".toList, "etc".toList], .link "/etc".toList),
   (["home".toList, "dataplicity".toList, "remote".toList, "gone".toList], .link "nowhere".toList)]

/-- The full C141 does not hold: links are followed, so files and directories outside the remote directory are listed, with their sizes. -/
theorem c141_counterexample : (scan exampleCfg (calmEnv outList) (ofList outList) 30).says ["".toList, "etc".toList] =
    some [some ⟨["etc".toList], [("a".toList, 5), ("out".toList, 4)]⟩, some ⟨[], [("passwd".toList, 4)]⟩] ∧
    (ofList outList).place exampleCfg.cwd (join exampleCfg.root "etc/passwd".toList) = some ["etc".toList, "passwd".toList] := by
  decide +kernel

/-- The example satisfies the hypotheses of C140. -/
example : Links.Tree (ofList outList) ∧ Lists (ofList outList) (calmEnv outList).names :=
  ⟨Links.ofList_tree _ (by decide +kernel) (by decide +kernel), ofList_lists _ (by decide +kernel)⟩

/-- Links that stay inside: the hypotheses of C141 hold, and the files are listed under the names of the links. -/
example : Contained (ofList Links.safeList) Links.safeRoot ∧ Lists (ofList Links.safeList) (calmEnv Links.safeList).names ∧
    (scan exampleCfg (calmEnv Links.safeList) (ofList Links.safeList) 30).says ["".toList, "sub".toList] =
      some [some ⟨["sub".toList], [("a".toList, 5), ("in".toList, 5)]⟩, some ⟨[], [("b".toList, 5)]⟩] :=
  ⟨Links.safe_contained, ofList_lists _ (by decide +kernel), by decide +kernel⟩

/-! ### C142 -/

/-- C142: where the remote directory is a directory without links, and the operating system answers, the scan ends and gives no exception. -/
theorem c142_ends (c : Cfg) (fs : LFS) (hd : fs.isDir c.cwd c.root = true) (env : Env) (hn : Lists fs env.names) (hc : env.Calm fs) :
    ∃ fuel dirs, scan c env fs fuel = .done dirs := by
  obtain ⟨fuel, dirs, h⟩ := Scan.c64_ends (world_named (c := c) hn) (world_whole hc) true 10
  exact ⟨fuel, dirs, by simp only [scan, hd, if_true]; exact h⟩

/-- C142: its result has exactly the visible directories less than ten levels deep; and each of them has exactly the visible files in it, with
their sizes, and exactly the visible directories in it (unless these are ten levels deep), each once. -/
theorem c142_exact (c : Cfg) (hs : c.Sane) (fs : LFS) (ht : Links.Tree fs) (R : List Text) (hroot : fs.place c.cwd c.root = some R)
    (hl : NoLinks fs R) (env : Env) (hn : Lists fs env.names) (hc : env.Calm fs) (fuel : Nat) (dirs : Text → Option Info)
    (h : scan c env fs fuel = .done dirs) :
    (∀ p, dirs p ≠ none → ∃ ns, p = joinWith '/' ns ∧ (∀ x ∈ ns, Proper x ∧ Visible x) ∧ fs (R ++ ns) = some .dir ∧ ns.length < 10) ∧
    ∀ ns, (∀ x ∈ ns, Proper x ∧ Visible x) → fs (R ++ ns) = some .dir → ns.length < 10 →
      ∃ info, dirs (joinWith '/' ns) = some info ∧
        (info.files.map (·.1)).Nodup ∧ info.dirs.Nodup ∧
        (∀ n z, (n, z) ∈ info.files ↔ Proper n ∧ Visible n ∧ ∃ d, fs (R ++ ns ++ [n]) = some (.file d) ∧ z = d.length) ∧
        ∀ n, n ∈ info.dirs ↔ Proper n ∧ Visible n ∧ fs (R ++ ns ++ [n]) = some .dir ∧ ns.length < 9 := by
  simp only [scan] at h
  split at h
  · rename_i hdir
    have hd : fs R = some .dir := by
      obtain ⟨k, h1, h2⟩ := (Links.isDir_iff ..).1 hdir
      rw [hroot] at h1
      injection h1 with h1
      rw [h1]; exact h2
    have hcomp := Scan.c64_complete (world_named hn) (world_distinct hn) (world_inodes hc) (world_tree hs ht hroot hd hl hc hn) h
    refine ⟨?_, ?_⟩
    · intro p hp
      cases hi : dirs p with
      | none => exact absurd hi hp
      | some info =>
        obtain ⟨ns, d, es, rfl, hr, _⟩ := (hcomp p info).1 hi
        obtain ⟨_, h1, h2, h3⟩ := (reach_iff hs ht hroot hd hl hc hn ns d).1 hr
        exact ⟨ns, rfl, h1, h2, h3⟩
    · intro ns h1 h2 h3
      have hr := (reach_iff hs ht hroot hd hl hc hn ns (num (key ns))).2 ⟨rfl, h1, h2, h3⟩
      have hp : ∀ n ∈ ns, Proper n := fun n hn => (h1 n hn).1
      have hls : (world c env fs).ls (num (key ns)) =
          some ((env.names (R ++ ns)).map fun n => some (entryOf c env fs (key ns) (R ++ ns) n)) := by
        show list c env fs (text (num (key ns))) = _
        rw [text_num, list_key hs ht hroot hd hl hc hp, if_pos h2]
      refine ⟨_, (hcomp (key ns) _).2 ⟨ns, _, _, rfl, hr, hls, rfl⟩, ?_⟩
      have hent : ∀ n ∈ env.names (R ++ ns), ∀ x ∈ ns ++ [n], Proper x := by
        intro n hm x hx
        simp only [List.mem_append, List.mem_singleton] at hx
        rcases hx with hx | rfl
        · exact hp x hx
        · exact (((hn _).2 x).1 hm).1
      -- the entries that are seen
      have hseen : (((env.names (R ++ ns)).map fun n => some (entryOf c env fs (key ns) (R ++ ns) n)).filterMap
          (fun o => o.bind (fun e => if e.visible then some e else none))) =
          ((env.names (R ++ ns)).filter (fun n => n.head? ≠ some '.')).map (entryOf c env fs (key ns) (R ++ ns)) := by
        generalize env.names (R ++ ns) = l
        induction l with
        | nil => rfl
        | cons n l ih =>
          have hv : (entryOf c env fs (key ns) (R ++ ns) n).visible ↔ n.head? ≠ some '.' := Iff.rfl
          simp only [List.map_cons, List.filterMap_cons, Option.bind_some, List.filter_cons]
          by_cases hh : n.head? = some '.'
          · have hv' : ¬ (entryOf c env fs (key ns) (R ++ ns) n).visible := fun h => hv.1 h hh
            rw [if_neg hv', if_neg (by simpa using hh)]
            exact ih
          · have hv' : (entryOf c env fs (key ns) (R ++ ns) n).visible := hv.2 hh
            rw [if_pos hv', if_pos (by simpa using hh), List.map_cons]
            exact congrArg _ ih
      have hnd : ((env.names (R ++ ns)).filter (fun n => n.head? ≠ some '.')).Nodup := (hn _).1.sublist List.filter_sublist
      refine ⟨?_, ?_, ?_, ?_⟩
      · simp only [Scan.infoOf, hseen, List.map_map, List.filter_map]
        refine List.Nodup.sublist ?_ hnd
        show (List.map (fun n => n) _).Sublist _
        rw [List.map_id']
        exact List.filter_sublist
      · simp only [Scan.infoOf, hseen]
        split
        · simp only [List.map_map, List.filter_map]
          refine List.Nodup.sublist ?_ hnd
          rw [show (fun e : Scan.Entry => e.name) ∘ entryOf c env fs (key ns) (R ++ ns) = id from rfl, List.map_id]
          exact List.filter_sublist
        · exact List.nodup_nil
      · intro n z
        simp only [Scan.infoOf, hseen, List.mem_map, List.mem_filter]
        constructor
        · rintro ⟨e, ⟨⟨m, ⟨hm, hv⟩, rfl⟩, hf⟩, he⟩
          have hpm := ((hn _).2 m).1 hm
          rw [entry_eq hs ht hroot hd hl hc (hent m hm)] at hf he
          obtain ⟨rfl, rfl⟩ := Prod.mk.inj he
          refine ⟨hpm.1, by simpa [Visible] using hv, ?_⟩
          cases hfile : fs (R ++ ns ++ [m]) with
          | none => rw [hfile] at hf; simp at hf
          | some x =>
            cases x with
            | file d => exact ⟨d, rfl, by simp⟩
            | dir => rw [hfile] at hf; simp at hf
            | link t => rw [hfile] at hf; simp at hf
        · rintro ⟨h4, h5, d, h6, rfl⟩
          have hm : n ∈ env.names (R ++ ns) := ((hn _).2 n).2 ⟨h4, by rw [h6]; exact fun e => nomatch e⟩
          refine ⟨_, ⟨⟨n, ⟨hm, by simpa [Visible] using h5⟩, rfl⟩, ?_⟩, ?_⟩
          · rw [entry_eq hs ht hroot hd hl hc (hent n hm), h6]; rfl
          · rw [entry_eq hs ht hroot hd hl hc (hent n hm), h6]; rfl
      · intro n
        have hdeep : Scan.deeper (some 10) ns.length ↔ ns.length < 9 := by
          show (ns.length : Int) + 1 < 10 ↔ _
          omega
        simp only [Scan.infoOf, hseen, hdeep]
        by_cases hlt : ns.length < 9
        · simp only [hlt, if_true, and_true, List.mem_map, List.mem_filter]
          constructor
          · rintro ⟨e, ⟨⟨m, ⟨hm, hv⟩, rfl⟩, hf⟩, rfl⟩
            have hpm := ((hn _).2 m).1 hm
            rw [entry_eq hs ht hroot hd hl hc (hent m hm)] at hf ⊢
            exact ⟨hpm.1, by simpa [Visible] using hv, by simpa using hf⟩
          · rintro ⟨h4, h5, h6⟩
            have hm : n ∈ env.names (R ++ ns) := ((hn _).2 n).2 ⟨h4, by rw [h6]; exact fun e => nomatch e⟩
            refine ⟨_, ⟨⟨n, ⟨hm, by simpa [Visible] using h5⟩, rfl⟩, ?_⟩, rfl⟩
            rw [entry_eq hs ht hroot hd hl hc (hent n hm), h6]; rfl
        · simp [hlt]
  · exact nomatch h

/-- A directory without links, reached through a link, with hidden files and directories, and a directory that is named like a file. -/
def plainList : List (List Text × LNode) :=
  [([], .dir), (["home".toList], .dir), (["home".toList, "dataplicity".toList], .link "/disk".toList), (["disk".toList], .dir),
   (["disk".toList, "remote".toList], .dir), (["disk".toList, "remote".toList, "b.txt".toList], .dir),
   (["disk".toList, "remote".toList, "b.txt".toList, "c".toList], .file [7]),
   (["disk".toList, "remote".toList, "b.txt".toList, ".c".toList], .file [8]),
   (["disk".toList, "remote".toList, ".d".toList], .dir), (["disk".toList, "remote".toList, ".d".toList, "e".toList], .file []),
   (["disk".toList, "remote".toList, "a".toList], .file [1, 2, 3])]

/-- Is this entry a link in the directory `R`? -/
def isLinkIn (R : List Text) (x : List Text × LNode) : Bool := match x.2 with
  | .link _ => R.isPrefixOf x.1
  | _ => false

theorem ofList_noLinks (l : List (List Text × LNode)) (R : List Text) (h : l.any (isLinkIn R) = false) : NoLinks (ofList l) R := by
  intro k hk t ht
  have := List.any_eq_false.1 h _ (Links.lookup_mem ht)
  simp [isLinkIn, List.isPrefixOf_iff_prefix.2 hk] at this

/-- It satisfies the hypotheses of C142. -/
example : Links.Tree (ofList plainList) ∧ (ofList plainList).place exampleCfg.cwd exampleCfg.root = some Links.safeRoot ∧
    NoLinks (ofList plainList) Links.safeRoot ∧ Lists (ofList plainList) (calmEnv plainList).names ∧
    (calmEnv plainList).Calm (ofList plainList) :=
  ⟨Links.ofList_tree _ (by decide +kernel) (by decide +kernel), by decide +kernel, ofList_noLinks _ _ (by decide +kernel),
    ofList_lists _ (by decide +kernel), ofList_calm _⟩

/-- Its scan. -/
example : (scan exampleCfg (calmEnv plainList) (ofList plainList) 30).says ["".toList, "b.txt".toList, ".d".toList, "a".toList] =
    some [some ⟨["b.txt".toList], [("a".toList, 3)]⟩, some ⟨[], [("c".toList, 1)]⟩, none, none] := by decide +kernel

/-- Where `stat` fails for a file its size is -1, and a directory that cannot be opened is named but not listed. -/
example : (scan exampleCfg { calmEnv plainList with sizeFails := fun p => p = "a".toList, scandirFails := fun p => p = "b.txt".toList }
    (ofList plainList) 30).says ["".toList, "b.txt".toList] = some [some ⟨["b.txt".toList], [("a".toList, -1)]⟩, none] := by decide +kernel

theorem scan_no_dir {c : Cfg} {env : Env} {fs : LFS} (h : fs.isDir c.cwd c.root = false) (fuel : Nat) : scan c env fs fuel = .raised := by
  simp [scan, h]

/-- Without the remote directory the scan gives an exception. -/
example : scan { exampleCfg with root := "/home/nobody".toList } (calmEnv plainList) (ofList plainList) 30 = .raised :=
  scan_no_dir (by decide +kernel) 30

end Verif.ScanFs
