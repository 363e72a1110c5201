import Verif.Proofs.ScanFs
/-!
Scans by Pythons without `os.scandir` (C147).
-/
namespace Verif.Scan
open Verif

/-- Two devices on which the scan meets the same listings. -/
theorem push_agree {w w' : World} {s : State} {path : Text} {d : Nat} (h : w.ls d = w'.ls d) : push w s path d = push w' s path d := by
  simp only [push, h]

theorem loop_agree {w w' : World} {fs : Bool} {md : Option Int} (G : Nat → Prop) (hls : ∀ d, G d → w.ls d = w'.ls d)
    (hG : ∀ d es e, G d → w.ls d = some es → some e ∈ es → G e.target) (fuel : Nat) {s : State}
    (hs : ∀ f ∈ s.stack, ∀ e, some e ∈ f.2 → G e.target) : loop w fs md fuel s = loop w' fs md fuel s := by
  induction fuel generalizing s with
  | zero => rfl
  | succ fuel ih =>
    simp only [loop]
    cases hst : s.stack with
    | nil => rfl
    | cons f below =>
      obtain ⟨path, scan⟩ := f
      simp only
      have hpush : ∀ (s : State) (p : Text) (d : Nat), G d → (∀ f ∈ s.stack, ∀ e, some e ∈ f.2 → G e.target) →
          ∀ f ∈ (push w s p d).stack, ∀ e, some e ∈ f.2 → G e.target := by
        intro s p d hd hs f hf e he
        rcases push_cases w s p d with ⟨_, e1⟩ | ⟨es, h1, e1⟩
        · rw [e1] at hf; exact hs f hf e he
        · rw [e1] at hf
          simp only [List.mem_cons] at hf
          rcases hf with rfl | hf
          · exact hG d es e hd h1 he
          · exact hs f hf e he
      cases scan with
      | nil =>
        simp only [round]
        exact ih fun f hf => hs f (by rw [hst]; exact List.mem_cons_of_mem _ hf)
      | cons o rest =>
        cases o with
        | none => rfl
        | some e =>
          have hbase : ∀ f ∈ (path, rest) :: below, ∀ e, some e ∈ f.2 → G e.target := by
            intro f hf e' he'
            simp only [List.mem_cons] at hf
            rcases hf with rfl | hf
            · exact hs (path, some e :: rest) (by rw [hst]; simp) e' (List.mem_cons_of_mem _ he')
            · exact hs f (by rw [hst]; exact List.mem_cons_of_mem _ hf) e' he'
          have he : G e.target := hs (path, some e :: rest) (by rw [hst]; simp) e (by simp)
          simp only [round]
          by_cases c1 : e.name.head? = some '.'
          · simp only [c1, if_true]; exact ih hbase
          · simp only [c1, if_false]
            by_cases c2 : e.isDir = true
            · simp only [c2, if_true]
              by_cases c3 : tooDeep md ((path, rest) :: below).length = true
              · simp only [c3, if_true]; exact ih hbase
              · simp only [c3, if_false]
                cases hi : e.inode with
                | none =>
                  simp only
                  rw [← push_agree (hls _ he)]
                  exact ih (hpush _ _ _ he hbase)
                | some i =>
                  simp only
                  by_cases c4 : s.visited.contains i = true
                  · simp only [c4, if_true]; exact ih hbase
                  · simp only [c4, if_false]
                    rw [← push_agree (hls _ he)]
                    exact ih (hpush _ _ _ he hbase)
            · simp only [c2, if_false]
              by_cases c5 : e.isFile = true
              · simp only [c5, if_true]; exact ih hbase
              · simp only [c5, if_false]; exact ih hbase

theorem scan_agree {w w' : World} {fs : Bool} {md : Option Int} (hroot : w.root = w'.root) (G : Nat → Prop) (h0 : G w.root)
    (hls : ∀ d, G d → w.ls d = w'.ls d) (hG : ∀ d es e, G d → w.ls d = some es → some e ∈ es → G e.target) (fuel : Nat) :
    scanDirectory w fs md fuel = scanDirectory w' fs md fuel := by
  have hstart : start w = start w' := by
    simp only [start, ← hroot]
    exact push_agree (hls _ h0)
  simp only [scanDirectory, ← hstart]
  refine loop_agree G hls hG fuel ?_
  intro f hf e he
  simp only [start] at hf
  rcases push_cases w ⟨[], fun _ => none, []⟩ [] w.root with ⟨_, e1⟩ | ⟨es, h1, e1⟩
  · rw [e1] at hf; simp at hf
  · rw [e1] at hf
    simp only [List.mem_singleton] at hf
    subst hf
    exact hG _ _ _ h0 h1 he

/-- Two entries listed with the same inode number are the same entry. -/
theorem once_inode {w : World} (hw : w.Named) (hin : w.Inodes) {fs : Bool} {md : Option Int} {fuel : Nat} {dirs : Text → Option Info}
    (h : scanDirectory w fs md fuel = .done dirs) {names names' : List Text} (hg : Good names) (hg' : Good names') (hne : names ≠ [])
    (hne' : names' ≠ []) (hp : dirs (key names) ≠ none) (hp' : dirs (key names') ≠ none)
    (hino : ∀ n d es e n' d' es' e', Reach w md n d → w.ls d = some es → some e ∈ es → names = n ++ [e.name] → Reach w md n' d' →
      w.ls d' = some es' → some e' ∈ es' → names' = n' ++ [e'.name] → w.ls e.target ≠ none → w.ls e'.target ≠ none →
      e.isDir = true → e'.isDir = true → e.inode = e'.inode) : names = names' := by
  obtain ⟨s, rfl, own, h1, h2⟩ := owned_loop hw hin (sound_start w fs md) (owned_start w md) h
  have hk : ∀ names, Good names → names ≠ [] → key names ≠ [] := fun names hg hne hk => hne ((key_nil hg).1 hk)
  obtain ⟨_, n0, d0, es, e, a1, a2, a3, a4, a5, a6, a7, a8⟩ := h1 _ (hk _ hg hne) hp
  obtain ⟨_, n1, d1, es', e', b1, b2, b3, b4, b5, b6, b7, b8⟩ := h1 _ (hk _ hg' hne') hp'
  have hn := key_inj hg (reach_good hw a8) a6
  have hn' := key_inj hg' (reach_good hw b8) b6
  have := hino _ _ _ _ _ _ _ _ a1 a2 a3 hn b1 b2 b3 hn' a7 b7 a4 b4
  rw [a5, b5] at this
  exact key_inj hg hg' (h2 _ _ (hk _ hg hne) (hk _ hg' hne') hp hp' (Option.some.inj this))

end Verif.Scan

namespace Verif.ScanFs
open Verif Path
open _root_.Verif.RemoteDirectory (Cfg)
open _root_.Verif.Links (LFS LNode Tree NoLink)
open _root_.Verif.Scan (key Good Reach)

theorem listOld_entry {c : Cfg} {env : Env} {fs : LFS} {path : Text} {es : List (Option Scan.Entry)} (h : listOld c env fs path = some es)
    {e : Scan.Entry} (he : some e ∈ es) :
    ∃ k n, fs.place c.cwd (join c.root path) = some k ∧ fs k = some .dir ∧ n ∈ env.names k ∧ e = entryOld c env fs path k n := by
  simp only [listOld] at h
  split at h
  · exact nomatch h
  · split at h
    · rename_i k hk
      split at h
      · rename_i hd
        injection h with h
        subst h
        simp only [List.mem_map, Option.some.injEq] at he
        obtain ⟨n, hn, rfl⟩ := he
        exact ⟨k, n, hk, hd, hn, rfl⟩
      · exact nomatch h
    · exact nomatch h

theorem worldOld_named {c : Cfg} {env : Env} {fs : LFS} (hn : Lists fs env.names) : (worldOld c env fs).Named := by
  intro d es e h he
  obtain ⟨k, n, _, _, hm, rfl⟩ := listOld_entry h he
  have := ((hn k).2 n).1 hm
  exact ⟨this.1.1, this.1.2.2.2.1⟩

theorem worldOld_inodes {c : Cfg} {env : Env} {fs : LFS} (hi : ∀ p, env.inodeFails p = false) : (worldOld c env fs).Inodes := by
  intro d es e h he hd
  obtain ⟨k, n, _, _, _, rfl⟩ := listOld_entry h he
  simp only [entryOld, LFS.isDir, LFS.stat, Bool.and_eq_true, decide_eq_true_eq] at hd
  simp only [entryOld, hi, Bool.false_eq_true, if_false]
  cases hp : fs.place c.cwd (join (join c.root (text d)) n) with
  | none => simp [hp] at hd
  | some k => simp

/-- The entries that are met, with their paths. -/
theorem reachOld_entry {c : Cfg} (hr : c.root ≠ []) {env : Env} {fs : LFS} (hn : Lists fs env.names) {md : Option Int} {names : List Text}
    {d : Nat} (h : Reach (worldOld c env fs) md names d) {es : List (Option Scan.Entry)} (hls : (worldOld c env fs).ls d = some es)
    {e : Scan.Entry} (he : some e ∈ es) :
    ∃ k, e = entryOld c env fs (key names) k e.name ∧ (∀ n ∈ names ++ [e.name], Proper n) ∧
      join (key names) e.name = key (names ++ [e.name]) ∧
      join (join c.root (key names)) e.name = join c.root (key (names ++ [e.name])) := by
  have hnum : d = num (key names) ∧ ∀ n ∈ names, Proper n := by
    clear hls he
    induction h with
    | root _ => exact ⟨rfl, by simp⟩
    | sub _ hls hmem _ _ _ _ ih =>
      obtain ⟨rfl, hp⟩ := ih
      have hls' : listOld c env fs (text (num _)) = some _ := hls
      rw [text_num] at hls'
      obtain ⟨k, n, _, _, hm, rfl⟩ := listOld_entry hls' hmem
      have hpn := ((hn k).2 n).1 hm
      refine ⟨?_, ?_⟩
      · show num (join _ n) = num (key (_ ++ [n]))
        rw [Scan.join_key (proper_good hp) ⟨hpn.1.1, hpn.1.2.2.2.1⟩]
      · intro x hx
        simp only [List.mem_append, List.mem_singleton] at hx
        rcases hx with hx | rfl
        · exact hp x hx
        · exact hpn.1
  obtain ⟨rfl, hp⟩ := hnum
  have hls' : listOld c env fs (text (num (key names))) = some es := hls
  rw [text_num] at hls'
  obtain ⟨k, n, h1, h2, hm, rfl⟩ := listOld_entry hls' he
  have hpn := (((hn k).2 n).1 hm).1
  have hj := Scan.join_key (proper_good hp) ⟨hpn.1, hpn.2.2.2.1⟩
  refine ⟨k, rfl, ?_, hj, ?_⟩
  · intro x hx
    simp only [List.mem_append, List.mem_singleton] at hx
    rcases hx with hx | rfl
    · exact hp x hx
    · exact hpn
  · show join (join c.root (key names)) n = _
    rw [join_join (good_head (proper_good hp)) (proper_head hpn) hr, hj]
    rfl

/-- Without links both kinds of entries are the same. -/
theorem entryOld_eq {c : Cfg} (hs : c.Sane) {fs : LFS} (ht : Tree fs) {R : List Text} (hR : fs.place c.cwd c.root = some R)
    (hd : fs R = some .dir) (hl : NoLinks fs R) {env : Env} (hc : env.Calm fs) {names : List Text} {n : Text}
    (hp : ∀ x ∈ names ++ [n], Proper x) (hex : fs (R ++ names ++ [n]) ≠ none) :
    entryOld c env fs (key names) (R ++ names) n = entryOf c env fs (key names) (R ++ names) n := by
  have hpn := hp n (by simp)
  have hps : ∀ x ∈ names, Proper x := fun x hx => hp x (by simp [hx])
  have hne : c.root ≠ [] := RemoteDirectory.ne_nil_of_head hs.root
  have hj := Scan.join_key (proper_good hps) ⟨hpn.1, hpn.2.2.2.1⟩
  have hjj : join (join c.root (key names)) n = join c.root (key (names ++ [n])) := by
    rw [join_join (good_head (proper_good hps)) (proper_head hpn) hne, hj]
  have hst := stat_eq hs ht hR hd hl hp
  rw [← List.append_assoc] at hst
  have hpl : fs.place c.cwd (join c.root (key (names ++ [n]))) = some (R ++ names ++ [n]) := by
    rcases stat_key hs ht hR hd hl hp with h | ⟨_, h⟩
    · rw [h, List.append_assoc]
    · rw [List.append_assoc] at hex; exact absurd h hex
  have hnl : NoLink fs (R ++ names ++ [n]) := hl (R ++ names ++ [n]) (by rw [List.append_assoc]; exact List.prefix_append ..)
  simp only [entryOld, entryOf, hc.isDir, hc.isFile, hc.inode, hc.size, hjj, hj, LFS.isDir, LFS.content, hst, hpl, Bool.not_false,
    Bool.true_and, Bool.false_eq_true, if_false, Option.map_some]
  cases hf : fs (R ++ names ++ [n]) with
  | none => exact absurd hf hex
  | some x =>
    cases x with
    | link t => exact absurd hf (hnl t)
    | _ => rfl

end Verif.ScanFs
