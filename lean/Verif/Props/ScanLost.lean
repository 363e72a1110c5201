import Verif.Props.ScanFs
import Verif.Proofs.ScanLost
/-!
C146: what a scan loses when directories can be reached in several ways.
-/
namespace Verif.Scan
open Verif Path

/-- C146, for scans without a limit and for scans whose result has no directory at the last level: whatever can be reached along visible names,
by links or not, is listed at some path that leads to it, with all its visible files. -/
theorem c146_found_partial {w : World} (hw : w.Named) (hd : w.Distinct) (hi : w.Inodes) (hk : w.Known) {fs : Bool} {md : Option Int} {fuel : Nat}
    {dirs : Text → Option Info} (h : scanDirectory w fs md fuel = .done dirs)
    (hlast : ∀ names d, Reach w md names d → dirs (key names) ≠ none → deeper md names.length)
    {names : List Text} {d : Nat} (hr : Reach w none names d) {es : List (Option Entry)} (hes : w.ls d = some es) :
    ∃ names' info, Reach w md names' d ∧ dirs (key names') = some info ∧
      ∀ e, some e ∈ es → e.name.head? ≠ some '.' → e.isDir = false → e.isFile = true →
        (e.name, if fs then (match e.size with | some k => (k : Int) | none => -1) else -1) ∈ info.files := by
  obtain ⟨g, hg⟩ := dfs_start hw fs md
  obtain ⟨s, hs, rfl⟩ := dfs_loop hw hd hi fuel hg h
  obtain ⟨names', hr', hx⟩ := dfs_done hk hs hlast hr
  rcases hs.seen names' d es hr' hes hx with ⟨r, hm⟩ | hh
  · exact nomatch hm
  · cases hinfo : s.dirs (key names') with
    | none => exact absurd hinfo hx
    | some info =>
      refine ⟨names', info, hr', hinfo, fun e he hv hdir hfile => ?_⟩
      obtain ⟨info', h1, h2⟩ := (hh e he hv).2 hdir hfile
      rw [hinfo] at h1
      injection h1 with h1
      subst h1
      have e1 : fileInfo fs e = (e.name, if fs then (match e.size with | some k => (k : Int) | none => -1) else -1) := by
        cases fs <;> cases hsz : e.size <;> simp [fileInfo, hsz]
      rw [← e1]
      exact h2

/-- The same without a limit. -/
theorem c146_no_limit {w : World} (hw : w.Named) (hd : w.Distinct) (hi : w.Inodes) (hk : w.Known) {fs : Bool} {fuel : Nat}
    {dirs : Text → Option Info} (h : scanDirectory w fs none fuel = .done dirs) {names : List Text} {d : Nat} (hr : Reach w none names d) :
    ∃ names', Reach w none names' d ∧ dirs (key names') ≠ none := by
  cases hls : w.ls d with
  | none => exact absurd hls (by cases hr with | root h => exact h | sub _ _ _ _ _ _ h => exact h)
  | some es =>
    obtain ⟨n, info, h1, h2, _⟩ := c146_found_partial hw hd hi hk h (fun _ _ _ _ => trivial) hr hls
    exact ⟨n, h1, by rw [h2]; simp⟩

/-- A link to the root, found before a directory. -/
def upList : List (Nat × List (Option Entry)) :=
  [(0, [dirE "a" (some 1) 0, dirE "d" (some 2) 1]), (1, [dirE "e" (some 3) 2, fileE "g" none]), (2, [fileE "f" none])]

theorem device_ls {l : List (Nat × List (Option Entry))} {d : Nat} {es : List (Option Entry)} (h : (device l).ls d = some es) : (d, es) ∈ l := by
  simp only [device, Option.map_eq_some_iff] at h
  obtain ⟨⟨d', es'⟩, h1, rfl⟩ := h
  have h2 := List.find?_some h1
  have h3 := List.mem_of_find?_eq_some h1
  have h2 : d' = d := of_decide_eq_true h2
  exact h2 ▸ h3

/-- The hypotheses of C146 for a device given by a list. -/
theorem device_fair (l : List (Nat × List (Option Entry)))
    (c1 : ∀ x ∈ l, ∀ o ∈ x.2, o.all (fun e => decide (e.name ≠ [] ∧ '/' ∉ e.name)) = true)
    (c2 : ∀ x ∈ l, (x.2.map (Option.map (·.name))).Nodup)
    (c3 : ∀ x ∈ l, ∀ o ∈ x.2, o.all (fun e => decide (e.isDir = true → e.inode ≠ none)) = true)
    (c4 : ∀ x ∈ l, ∀ o ∈ x.2, ∀ x' ∈ l, ∀ o' ∈ x'.2, o.all (fun e => o'.all (fun e' => decide (e.isDir = true → e'.isDir = true →
      e.inode = e'.inode → e.target = e'.target))) = true) :
    (device l).Named ∧ (device l).Distinct ∧ (device l).Inodes ∧ (device l).Known := by
  refine ⟨?_, ?_, ?_, ?_⟩
  · intro d es e h he
    exact of_decide_eq_true (c1 _ (device_ls h) _ he)
  · intro d es h
    have := c2 _ (device_ls h)
    rw [List.Nodup, List.pairwise_map] at this
    refine this.imp ?_
    rintro _ _ hne x y rfl rfl hxy
    exact hne (by simp [hxy])
  · intro d es e h he hd
    exact of_decide_eq_true (c3 _ (device_ls h) _ he) hd
  · intro d es e d' es' e' h he h' he' hd hd'
    exact of_decide_eq_true (c4 _ (device_ls h) _ he _ (device_ls h') _ he') hd hd'

/-- The hypotheses hold for it. -/
example : (device upList).Named ∧ (device upList).Distinct ∧ (device upList).Inodes ∧ (device upList).Known :=
  device_fair _ (by decide +kernel) (by decide +kernel) (by decide +kernel) (by decide +kernel)

/-- C146: an ordinary directory need not be listed at its own path, nor named in the listing of the root. -/
theorem c146_own_path_false : (scanDirectory (device upList) false none 30).says ["".toList, "a".toList, "a/d".toList, "a/d/e".toList, "d".toList,
      "d/e".toList] =
    some [some ⟨["a".toList], []⟩, some ⟨["d".toList], []⟩, some ⟨["e".toList], [("g".toList, -1)]⟩, some ⟨[], [("f".toList, -1)]⟩, none, none] := by
  decide +kernel

/-- Seven directories inside each other, a link to the root in the last, and beside them a directory with a subdirectory. -/
def deepList : List (Nat × List (Option Entry)) :=
  [(0, [dirE "a" (some 1) 1, dirE "x" (some 20) 20]), (1, [dirE "b" (some 2) 2]), (2, [dirE "c" (some 3) 3]), (3, [dirE "d" (some 4) 4]),
   (4, [dirE "e" (some 5) 5]), (5, [dirE "f" (some 6) 6]), (6, [dirE "g" (some 7) 7]), (7, [dirE "up" (some 8) 0]),
   (20, [dirE "y" (some 21) 21]), (21, [fileE "f" (some 5)])]

/-- The paths of `deepList` within the limit of the agent. -/
def deepPaths : List (List Text × Nat) :=
  let ch := ["a".toList, "b".toList, "c".toList, "d".toList, "e".toList, "f".toList, "g".toList, "up".toList]
  (List.range 8).map (fun n => (ch.take n, n)) ++
    [(ch, 0), (ch ++ ["a".toList], 1), (ch ++ ["x".toList], 20), (["x".toList], 20), (["x".toList, "y".toList], 21)]

/-- Paths found by going through a finite list. -/
theorem reach_mem {l : List (Nat × List (Option Entry))} {md : Option Int} {ps : List (List Text × Nat)} (h0 : ([], 0) ∈ ps)
    (hc : ∀ p ∈ ps, ∀ x ∈ l, x.1 = p.2 → ∀ o ∈ x.2, o.all (fun e => decide (e.visible → e.isDir = true → deeper md p.1.length →
      (p.1 ++ [e.name], e.target) ∈ ps)) = true) {names : List Text} {d : Nat} (h : Reach (device l) md names d) : (names, d) ∈ ps := by
  induction h with
  | root _ => exact h0
  | sub h1 h2 h3 h4 h5 h6 h7 ih => exact of_decide_eq_true (hc _ ih _ (device_ls h2) rfl _ h3) h4 h5 h6

/-- The full C146 does not hold: with the limit of the agent a directory two levels below the root, and its file, are not listed at any path,
as the link has led to its parent at the last level before. -/
theorem c146_lost_false : Reach (device deepList) (some 10) ["x".toList, "y".toList] 21 ∧
    ∃ fuel dirs, scanDirectory (device deepList) true (some 10) fuel = .done dirs ∧
      ∀ names, Reach (device deepList) (some 10) names 21 → dirs (key names) = none := by
  refine ⟨?_, ?_⟩
  · have h0 : Reach (device deepList) (some 10) [] 0 := .root (by decide +kernel)
    have h1 : Reach (device deepList) (some 10) ["x".toList] 20 := by
      have := Reach.sub (e := ⟨"x".toList, true, false, some 20, 20, none⟩) h0 (es := [dirE "a" (some 1) 1, dirE "x" (some 20) 20])
        (by decide +kernel) (by decide +kernel) (by decide +kernel) rfl (by decide +kernel) (by decide +kernel)
      exact this
    have := Reach.sub (e := ⟨"y".toList, true, false, some 21, 21, none⟩) h1 (es := [dirE "y" (some 21) 21])
        (by decide +kernel) (by decide +kernel) (by decide +kernel) rfl (by decide +kernel) (by decide +kernel)
    exact this
  · have hk : (match scanDirectory (device deepList) true (some 10) 60 with
        | .done dirs => deepPaths.all (fun p => decide (p.2 = 21 → dirs (key p.1) = none)) | _ => false) = true := by decide +kernel
    cases hs : scanDirectory (device deepList) true (some 10) 60 with
    | done dirs =>
      rw [hs] at hk
      refine ⟨60, dirs, hs, fun names hr => ?_⟩
      have hm := reach_mem (ps := deepPaths) (by decide +kernel) (by decide +kernel) hr
      exact of_decide_eq_true (List.all_eq_true.1 hk _ hm) rfl
    | raised => rw [hs] at hk; exact nomatch hk
    | running => rw [hs] at hk; exact nomatch hk

/-- The hypotheses of C146 hold there. -/
example : (device deepList).Named ∧ (device deepList).Distinct ∧ (device deepList).Inodes ∧ (device deepList).Known :=
  device_fair _ (by decide +kernel) (by decide +kernel) (by decide +kernel) (by decide +kernel)

end Verif.Scan

namespace Verif.ScanFs
open Verif
open _root_.Verif.RemoteDirectory (exampleCfg)
open _root_.Verif.Links (LNode ofList)
open _root_.Verif.Scan (Result.says)

/-- The same remote directory as a file system. -/
def deepFiles : List (List Text × LNode) :=
  let r := ["home".toList, "dataplicity".toList, "remote".toList]
  let ch := ["a".toList, "b".toList, "c".toList, "d".toList, "e".toList, "f".toList, "g".toList]
  [([], .dir), (r.take 1, .dir), (r.take 2, .dir), (r, .dir)] ++ (List.range 7).map (fun n => (r ++ ch.take (n + 1), LNode.dir)) ++
    [(r ++ ch ++ ["up".toList], .link "/home/dataplicity/remote".toList), (r ++ ["x".toList], .dir), (r ++ ["x".toList, "y".toList], .dir),
     (r ++ ["x".toList, "y".toList, "f".toList], .file [1, 2, 3, 4, 5])]

/-- C146: the scan that the agent performs on it.  The directory `x` is not named in the listing of the root, and is empty where it is listed. -/
theorem c146_agent_false : (scan exampleCfg (calmEnv deepFiles) (ofList deepFiles) 60).says
      ["".toList, "x".toList, "x/y".toList, "a/b/c/d/e/f/g/up/x".toList, "a/b/c/d/e/f/g/up/x/y".toList] =
    some [some ⟨["a".toList], []⟩, none, none, some ⟨[], []⟩, none] ∧
    (ofList deepFiles).content exampleCfg.cwd (Path.join exampleCfg.root "x/y/f".toList) = some [1, 2, 3, 4, 5] := by decide +kernel

/-- It is a sound file system. -/
example : Links.Tree (ofList deepFiles) ∧ Lists (ofList deepFiles) (calmEnv deepFiles).names :=
  ⟨Links.ofList_tree _ (by decide +kernel) (by decide +kernel), ofList_lists _ (by decide +kernel)⟩

end Verif.ScanFs
