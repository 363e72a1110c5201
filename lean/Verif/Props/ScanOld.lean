import Verif.Props.ScanFs
import Verif.Proofs.ScanOld
/-!
C147: scans by Pythons whose `os` has no `scandir`.
-/
namespace Verif.ScanFs
open Verif Path
open _root_.Verif.RemoteDirectory (Cfg exampleCfg)
open _root_.Verif.Links (LFS LNode Tree ofList)
open _root_.Verif.Scan (key Good Reach)

/-- C147: whatever links there are, no two paths that are listed, other than that of the root, lead to the same directory. -/
theorem c147_once_partial (c : Cfg) (hs : c.Sane) (fs : LFS) (env : Env) (hn : Lists fs env.names) (hi : ∀ p, env.inodeFails p = false) (fuel : Nat)
    (dirs : Text → Option Scan.Info) (h : scanOld c env fs fuel = .done dirs) (names names' : List Text) (hne : names ≠ []) (hne' : names' ≠ [])
    (hg : ∀ n ∈ names, Proper n) (hg' : ∀ n ∈ names', Proper n) (hp : dirs (key names) ≠ none) (hp' : dirs (key names') ≠ none)
    (hsame : fs.place c.cwd (join c.root (key names)) = fs.place c.cwd (join c.root (key names'))) : names = names' := by
  have hr : c.root ≠ [] := RemoteDirectory.ne_nil_of_head hs.root
  simp only [scanOld] at h
  split at h
  · refine Scan.once_inode (worldOld_named hn) (worldOld_inodes hi) h (proper_good hg) (proper_good hg') hne hne' hp hp' ?_
    intro n d es e n' d' es' e' h1 h2 h3 h4 h5 h6 h7 h8 _ _ _ _
    obtain ⟨k, e1, _, _, e2⟩ := reachOld_entry hr hn h1 h2 h3
    obtain ⟨k', e1', _, _, e2'⟩ := reachOld_entry hr hn h5 h6 h7
    have hx : ∀ (n : List Text) (k : List Text) (m : Text), join (join c.root (key n)) m = join c.root (key (n ++ [m])) →
        (entryOld c env fs (key n) k m).inode = (fs.place c.cwd (join c.root (key (n ++ [m])))).map env.inode := by
      intro n k m hm
      simp only [entryOld, hi, Bool.false_eq_true, if_false, hm]
    rw [e1, e1', hx _ _ _ e2, hx _ _ _ e2', ← h4, ← h8, hsame]
  · exact nomatch h

/-- C147: without links such a Python gives the same result as one with `scandir`. -/
theorem c147_same (c : Cfg) (hs : c.Sane) (fs : LFS) (ht : Links.Tree fs) (R : List Text) (hroot : fs.place c.cwd c.root = some R)
    (hl : NoLinks fs R) (env : Env) (hc : env.Calm fs) (hn : Lists fs env.names) (fuel : Nat) : scanOld c env fs fuel = scan c env fs fuel := by
  simp only [scanOld, scan]
  split
  · rename_i hdir
    have hd : fs R = some .dir := by simpa [LFS.isDir, LFS.stat, hroot] using hdir
    symm
    refine Scan.scan_agree (w := world c env fs) (w' := worldOld c env fs) rfl (fun d => ∃ names, d = num (key names) ∧ ∀ n ∈ names, Proper n) ⟨[], rfl, by simp⟩ ?_ ?_ fuel
    · rintro d ⟨names, rfl, hp⟩
      show list c env fs (text (num (key names))) = listOld c env fs (text (num (key names)))
      rw [text_num, list_key hs ht hroot hd hl hc hp]
      simp only [listOld, hc.scandir, Bool.false_eq_true, if_false]
      rcases stat_key hs ht hroot hd hl hp with h | ⟨h1, h2⟩
      · rw [h]
        simp only
        split
        · congr 1
          refine List.map_congr_left fun n hm => ?_
          obtain ⟨h1, h2⟩ := ((hn _).2 n).1 hm
          have hpp : ∀ x ∈ names ++ [n], Proper x := by
            intro x hx
            simp only [List.mem_append, List.mem_singleton] at hx
            rcases hx with hx | rfl
            · exact hp x hx
            · exact h1
          rw [entryOld_eq hs ht hroot hd hl hc hpp h2]
        · rfl
      · rw [h1, h2]; rfl
    · rintro d es e ⟨names, rfl, hp⟩ hls he
      have hls' : list c env fs (text (num (key names))) = some es := hls
      rw [text_num] at hls'
      obtain ⟨k, n, _, _, hm, rfl⟩ := list_entry hls' he
      have hpn := (((hn k).2 n).1 hm).1
      refine ⟨names ++ [n], ?_, ?_⟩
      · show num (join _ n) = _
        rw [Scan.join_key (proper_good hp) ⟨hpn.1, hpn.2.2.2.1⟩]
      · intro x hx
        simp only [List.mem_append, List.mem_singleton] at hx
        rcases hx with hx | rfl
        · exact hp x hx
        · exact hpn
  · rfl

/-- C147: whatever links there are, the names in a listing lead somewhere: those of subdirectories to directories, those of files to what is none. -/
theorem c147_there (c : Cfg) (hs : c.Sane) (fs : LFS) (env : Env) (hn : Lists fs env.names) (fuel : Nat) (dirs : Text → Option Scan.Info)
    (h : scanOld c env fs fuel = .done dirs) (p : Text) (info : Scan.Info) (hp : dirs p = some info) :
    (∀ n ∈ info.dirs, ∃ k, fs.place c.cwd (join c.root (join p n)) = some k ∧ fs k = some .dir) ∧
    ∀ f ∈ info.files, ∃ k x, fs.place c.cwd (join c.root (join p f.1)) = some k ∧ fs k = some x ∧ x ≠ .dir := by
  have hroot : c.root ≠ [] := RemoteDirectory.ne_nil_of_head hs.root
  simp only [scanOld] at h
  split at h
  · obtain ⟨names, _, rfl, _, h1, h2⟩ := Scan.c62_there (worldOld_named hn) h hp
    constructor
    · intro n hm
      obtain ⟨d, es, e, hr, hls, he, hd, rfl⟩ := h1 n hm
      obtain ⟨k0, hee, hprop, hj, hjj⟩ := reachOld_entry hroot hn hr hls he
      rw [hee] at hd
      simp only [entryOld, Bool.and_eq_true, LFS.isDir, LFS.stat, decide_eq_true_eq, hjj] at hd
      rw [hj]
      cases hk : fs.place c.cwd (join c.root (key (names ++ [e.name]))) with
      | none => rw [hk] at hd; exact nomatch hd.2
      | some k => rw [hk] at hd; exact ⟨k, rfl, hd.2⟩
    · intro f hm
      obtain ⟨d, es, e, hr, hls, he, _, hd, hname, _⟩ := h2 f hm
      obtain ⟨k0, hee, hprop, hj, hjj⟩ := reachOld_entry hroot hn hr hls he
      rw [hee] at hd
      simp only [entryOld, Bool.and_eq_true, LFS.stat, hjj] at hd
      rw [← hname, hj]
      cases hk : fs.place c.cwd (join c.root (key (names ++ [e.name]))) with
      | none => rw [hk] at hd; exact nomatch hd.2
      | some k =>
        rw [hk] at hd
        simp only [Option.bind_some] at hd
        cases hx : fs k with
        | none => rw [hx] at hd; exact nomatch hd.2
        | some x => rw [hx] at hd; exact ⟨k, x, rfl, hx, by simpa using hd.2⟩
  · exact nomatch h

/-- A remote directory with a directory, a link to it and a link to the remote directory. -/
def twoWays : List (List Text × LNode) :=
  let r := ["home".toList, "dataplicity".toList, "remote".toList]
  [([], .dir), (r.take 1, .dir), (r.take 2, .dir), (r, .dir), (r ++ ["d".toList], .dir), (r ++ ["d".toList, "f".toList], .file [1, 2, 3]),
   (r ++ ["l".toList], .link "d".toList), (r ++ ["up".toList], .link ".".toList)]

/-- The full C147 does not hold: the root is listed once more under a link to it. -/
theorem c147_root_false : (scanOld exampleCfg (calmEnv twoWays) (ofList twoWays) 60).says
      ["".toList, "d".toList, "l".toList, "up".toList, "up/d".toList] =
    some [some ⟨["d".toList, "up".toList], []⟩, some ⟨[], [("f".toList, 3)]⟩, none, some ⟨[], []⟩, none] ∧
    (ofList twoWays).place exampleCfg.cwd (join exampleCfg.root "up".toList) = (ofList twoWays).place exampleCfg.cwd exampleCfg.root := by
  decide +kernel

/-- With `scandir` the directory and the link are both listed. -/
example : (scan exampleCfg (calmEnv twoWays) (ofList twoWays) 60).says ["".toList, "d".toList, "l".toList, "up".toList, "up/d".toList] =
    some [some ⟨["d".toList, "l".toList, "up".toList], []⟩, some ⟨[], [("f".toList, 3)]⟩, some ⟨[], [("f".toList, 3)]⟩, some ⟨[], []⟩, none] := by
  decide +kernel

/-- A link that leads nowhere is not listed. -/
example : (scanOld exampleCfg (calmEnv (twoWays ++ [(Links.safeRoot ++ ["gone".toList], .link "x".toList)]))
      (ofList (twoWays ++ [(Links.safeRoot ++ ["gone".toList], .link "x".toList)])) 60).says ["".toList] =
    some [some ⟨["d".toList, "up".toList], []⟩] := by
  decide +kernel

/-- The hypotheses hold for it. -/
example : exampleCfg.Sane ∧ Lists (ofList twoWays) (calmEnv twoWays).names ∧ ∀ p, (calmEnv twoWays).inodeFails p = false :=
  ⟨Links.exampleCfg_sane, ofList_lists _ (by decide +kernel), fun _ => rfl⟩

/-- And for the device of C142 those of the other theorem. -/
example (fuel : Nat) : scanOld exampleCfg (calmEnv plainList) (ofList plainList) fuel = scan exampleCfg (calmEnv plainList) (ofList plainList) fuel :=
  c147_same exampleCfg Links.exampleCfg_sane _ (Links.ofList_tree _ (by decide +kernel) (by decide +kernel)) Links.safeRoot (by decide +kernel)
    (ofList_noLinks _ _ (by decide +kernel)) _ (ofList_calm _) (ofList_lists _ (by decide +kernel)) fuel

end Verif.ScanFs
