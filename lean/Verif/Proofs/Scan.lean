import Verif.Spec.Scan
import Verif.Proofs.Path
/-!
Lemmas for C62-C64.
-/
namespace Verif.Scan
open Verif Path

/-! ### Keys -/

/-- Names that may be components of a path. -/
def Good (names : List Text) : Prop := ∀ n ∈ names, n ≠ [] ∧ '/' ∉ n

theorem good_append {a : List Text} {n : Text} (h : Good a) (hn : n ≠ [] ∧ '/' ∉ n) : Good (a ++ [n]) := by
  intro x hx
  simp only [List.mem_append, List.mem_singleton] at hx
  rcases hx with hx | rfl
  · exact h x hx
  · exact hn

theorem key_split {names : List Text} (h : Good names) (hne : names ≠ []) : splitOn '/' (key names) = names :=
  splitOn_joinWith '/' names hne (fun p hp => (h p hp).2)

theorem key_nil {names : List Text} (h : Good names) : key names = [] ↔ names = [] := by
  constructor
  · intro e
    apply Classical.byContradiction
    intro hne
    have := key_split h hne
    rw [e] at this
    have hm : ([] : Text) ∈ names := by rw [← this]; simp [splitOn]
    exact (h _ hm).1 rfl
  · rintro rfl; rfl

theorem key_inj {a b : List Text} (ha : Good a) (hb : Good b) (h : key a = key b) : a = b := by
  by_cases e : a = []
  · subst e
    exact ((key_nil hb).1 (h.symm.trans rfl)).symm
  · by_cases e' : b = []
    · subst e'
      exact absurd ((key_nil ha).1 (h.trans rfl)) e
    · rw [← key_split ha e, ← key_split hb e', h]

theorem joinWith_snoc (names : List Text) (n : Text) (hne : names ≠ []) :
    joinWith '/' (names ++ [n]) = joinWith '/' names ++ '/' :: n := by
  induction names with
  | nil => exact absurd rfl hne
  | cons a r ih =>
    cases r with
    | nil => simp [joinWith]
    | cons b r => simp only [List.cons_append, joinWith] at ih ⊢; rw [ih (by simp)]; simp

theorem joinWith_last (names : List Text) (hne : names ≠ []) (h : Good names) : (joinWith '/' names).getLast? ≠ some '/' := by
  have hl := List.dropLast_concat_getLast hne
  have hg := h _ (List.getLast_mem hne)
  intro e
  have hm : '/' ∈ names.getLast hne := by
    by_cases hd : names.dropLast = []
    · rw [hd] at hl
      have : names = [names.getLast hne] := by simpa using hl.symm
      rw [this] at e
      simp only [joinWith] at e
      exact List.mem_of_getLast? e
    · rw [← hl, joinWith_snoc _ _ hd] at e
      rw [List.getLast?_append, List.getLast?_cons_of_ne_nil hg.1] at e
      cases hx : (names.getLast hne).getLast? with
      | none => exact absurd (List.getLast?_eq_none_iff.1 hx) hg.1
      | some c => rw [hx] at e; simp at e; subst e; exact List.mem_of_getLast? hx
  exact hg.2 hm

theorem join_key {names : List Text} {n : Text} (h : Good names) (hn : n ≠ [] ∧ '/' ∉ n) : join (key names) n = key (names ++ [n]) := by
  have hh : n.head? ≠ some '/' := by
    intro e
    exact hn.2 (List.mem_of_head? e)
  by_cases e : names = []
  · subst e
    simp [join, hh, key, joinWith]
  · have hk : ¬ key names = [] := fun he => e ((key_nil h).1 he)
    rw [key, key, joinWith_snoc _ _ e, join, if_neg hh, if_neg]
    rintro (he | he)
    · exact hk he
    · exact joinWith_last names e h he

theorem reach_good {w : World} {md : Option Int} {names : List Text} {d : Nat} (hw : w.Named) (h : Reach w md names d) : Good names := by
  induction h with
  | root _ => simp [Good]
  | sub _ h1 h2 _ _ _ _ ih => exact good_append ih (hw _ _ _ h1 h2)

/-! ### What is recorded can be reached -/

/-- The frames of the stack: what they stand for. -/
inductive Frames (w : World) (md : Option Int) : List (Text × List (Option Entry)) → Prop where
  | nil : Frames w md []
  | cons {names d done rest below} : Reach w md names d → w.ls d = some (done ++ rest) → names.length = below.length →
      Frames w md below → Frames w md ((key names, rest) :: below)

/-- What the result says about a directory is there. -/
def Sayable (w : World) (fs : Bool) (md : Option Int) (names : List Text) (info : Info) : Prop :=
  (∀ n ∈ info.dirs, ∃ d es e, Reach w md names d ∧ w.ls d = some es ∧ some e ∈ es ∧ e.visible ∧ e.isDir = true ∧ e.name = n ∧
    deeper md names.length) ∧
  (∀ f ∈ info.files, ∃ d es e, Reach w md names d ∧ w.ls d = some es ∧ some e ∈ es ∧ e.visible ∧ e.isDir = false ∧ e.isFile = true ∧
    f = fileInfo fs e)

/-- The result so far says only what is there. -/
structure Sound (w : World) (fs : Bool) (md : Option Int) (s : State) : Prop where
  frames : Frames w md s.stack
  listed : ∀ p info, s.dirs p = some info → ∃ names d, p = key names ∧ Reach w md names d ∧ Sayable w fs md names info
  top : ∀ f ∈ s.stack, s.dirs f.1 ≠ none

theorem fileInfo_fst (fs : Bool) (e : Entry) : (fileInfo fs e).1 = e.name := by
  simp only [fileInfo]; split <;> rfl

/-- The depth test of the code. -/
theorem deep_iff (md : Option Int) (n : Nat) : tooDeep md (n + 1) = false ↔ deeper md n := by
  cases md with
  | none => simp [tooDeep, deeper]
  | some m =>
    simp only [tooDeep, deeper]
    constructor
    · intro h; have := of_decide_eq_false h; omega
    · intro h; exact decide_eq_false (by omega)

theorem push_cases (w : World) (s : State) (path : Text) (d : Nat) :
    (w.ls d = none ∧ push w s path d = s) ∨ (∃ es, w.ls d = some es ∧ push w s path d =
      { s with stack := (path, es) :: s.stack, dirs := fun p => if p = path then some ⟨[], []⟩ else s.dirs p }) := by
  simp only [push]
  cases h : w.ls d with
  | none => exact .inl ⟨rfl, rfl⟩
  | some es => exact .inr ⟨es, rfl, rfl⟩

theorem sound_push {w : World} {fs : Bool} {md : Option Int} {s : State} {names : List Text} {d : Nat} (hs : Sound w fs md s)
    (hr : w.ls d ≠ none → Reach w md names d) (hl : names.length = s.stack.length) : Sound w fs md (push w s (key names) d) := by
  rcases push_cases w s (key names) d with ⟨h, e⟩ | ⟨es, h, e⟩
  · rw [e]; exact hs
  · rw [e]
    have hr' := hr (by rw [h]; simp)
    refine ⟨.cons hr' (done := []) h hl hs.frames, ?_, ?_⟩
    · intro p info hp
      simp only at hp
      split at hp
      · rename_i hpk
        injection hp with hp
        subst hp
        exact ⟨names, d, hpk, hr', by simp, by simp⟩
      · exact hs.listed p info hp
    · intro f hf
      simp only [List.mem_cons] at hf
      simp only
      split
      · simp
      · rename_i hne
        rcases hf with rfl | hf
        · exact absurd rfl hne
        · exact hs.top f hf

theorem sound_round {w : World} {fs : Bool} {md : Option Int} (hw : w.Named) {s s' : State} {path : Text} {scan : List (Option Entry)}
    {below : List (Text × List (Option Entry))} (hst : s.stack = (path, scan) :: below) (hs : Sound w fs md s)
    (h : round w fs md s path scan below = .go s') : Sound w fs md s' := by
  have hf := hs.frames
  have htop := hs.top
  rw [hst] at hf htop
  cases hf with
  | cons hr hls hlen hb =>
    rename_i names d done
    cases scan with
    | nil =>
      simp only [round, Out.go.injEq] at h
      subst h
      exact ⟨hb, hs.listed, fun f hf => htop f (by simp [hf])⟩
    | cons o scan' =>
      cases o with
      | none => simp [round] at h
      | some e =>
        have hmem : some e ∈ done ++ some e :: scan' := by simp
        have hname := hw _ _ _ hls hmem
        have hbase : Sound w fs md { s with stack := (key names, scan') :: below } := by
          refine ⟨.cons hr (done := done ++ [some e]) (by simpa using hls) hlen hb, hs.listed, ?_⟩
          intro f hf
          simp only [List.mem_cons] at hf
          rcases hf with rfl | hf
          · exact htop (key names, some e :: scan') (by simp)
          · exact htop f (by simp [hf])
        simp only [round] at h
        split at h
        · injection h with h; subst h; exact hbase
        · rename_i hhid
          split at h
          · rename_i hdir
            split at h
            · injection h with h; subst h; exact hbase
            · rename_i hdeep
              have hdeep' : deeper md names.length := by
                rw [← deep_iff]
                simpa [hlen] using hdeep
              have hsub : w.ls e.target ≠ none → Reach w md (names ++ [e.name]) e.target :=
                fun ht => .sub hr hls hmem hhid hdir hdeep' ht
              split at h
              · injection h with h
                subst h
                rw [join_key (reach_good hw hr) hname]
                exact sound_push hbase hsub (by simp [hlen])
              · split at h
                · injection h with h; subst h; exact hbase
                · injection h with h
                  subst h
                  rw [join_key (reach_good hw hr) hname]
                  refine sound_push ⟨hbase.frames, ?_, ?_⟩ hsub (by simp [addDir, hlen])
                  · intro p info hp
                    simp only [addDir] at hp
                    split at hp
                    · rename_i hpk
                      cases hq : s.dirs p with
                      | none => rw [hq] at hp; simp at hp
                      | some i0 =>
                        rw [hq] at hp
                        simp only [Option.map_some, Option.some.injEq] at hp
                        subst hp
                        obtain ⟨n', d', g1, g2, g3, g4⟩ := hs.listed p i0 hq
                        have en : n' = names := key_inj (reach_good hw g2) (reach_good hw hr) (g1.symm.trans hpk)
                        subst en
                        refine ⟨n', d, hpk, hr, ?_, g4⟩
                        intro n hn
                        simp only [List.mem_append, List.mem_singleton] at hn
                        rcases hn with hn | rfl
                        · exact g3 n hn
                        · exact ⟨d, _, e, hr, hls, hmem, hhid, hdir, rfl, hdeep'⟩
                    · exact hs.listed p info hp
                  · intro f hf
                    have := hbase.top f hf
                    simp only [addDir]
                    split
                    · simp only [ne_eq, Option.map_eq_none_iff]; exact this
                    · exact this
          · rename_i hdir
            split at h
            · rename_i hfile
              injection h with h
              subst h
              refine ⟨hbase.frames, ?_, ?_⟩
              · intro p info hp
                simp only [addFile] at hp
                split at hp
                · rename_i hpk
                  cases hq : s.dirs p with
                  | none => rw [hq] at hp; simp at hp
                  | some i0 =>
                    rw [hq] at hp
                    simp only [Option.map_some, Option.some.injEq] at hp
                    subst hp
                    obtain ⟨n', d', g1, g2, g3, g4⟩ := hs.listed p i0 hq
                    have en : n' = names := key_inj (reach_good hw g2) (reach_good hw hr) (g1.symm.trans hpk)
                    subst en
                    refine ⟨n', d, hpk, hr, g3, ?_⟩
                    intro f hf
                    simp only [List.mem_append, List.mem_singleton] at hf
                    rcases hf with hf | rfl
                    · exact g4 f hf
                    · exact ⟨d, _, e, hr, hls, hmem, hhid, by simpa using hdir, hfile, rfl⟩
                · exact hs.listed p info hp
              · intro f hf
                have := hbase.top f hf
                simp only [addFile]
                split
                · simp only [ne_eq, Option.map_eq_none_iff]; exact this
                · exact this
            · injection h with h; subst h; exact hbase

theorem sound_start (w : World) (fs : Bool) (md : Option Int) : Sound w fs md (start w) := by
  have h0 : Sound w fs md ⟨[], fun _ => none, []⟩ := ⟨.nil, by simp, by simp⟩
  exact sound_push h0 (names := []) (fun h => .root h) rfl

theorem sound_loop {w : World} {fs : Bool} {md : Option Int} (hw : w.Named) {fuel : Nat} {s : State} (hs : Sound w fs md s)
    {dirs : Text → Option Info} (h : loop w fs md fuel s = .done dirs) :
    ∀ p info, dirs p = some info → ∃ names d, p = key names ∧ Reach w md names d ∧ Sayable w fs md names info := by
  induction fuel generalizing s with
  | zero => simp [loop] at h
  | succ fuel ih =>
    simp only [loop] at h
    split at h
    · injection h with h; subst h; exact hs.listed
    · rename_i path scan below hst
      split at h
      · simp at h
      · rename_i s' hr
        exact ih (sound_round hw hst hs hr) h

/-- A reachable path has no hidden name and is not too deep. -/
theorem reach_visible {w : World} {md : Option Int} {names : List Text} {d : Nat} (h : Reach w md names d) :
    (∀ n ∈ names, n.head? ≠ some '.') ∧ ∀ m, md = some m → names ≠ [] → (names.length : Int) < m := by
  induction h with
  | root _ => exact ⟨by simp, by simp⟩
  | sub _ _ _ hv _ hd _ ih =>
    refine ⟨?_, ?_⟩
    · intro n hn
      simp only [List.mem_append, List.mem_singleton] at hn
      rcases hn with hn | rfl
      · exact ih.1 n hn
      · exact hv
    · intro m hm _
      subst hm
      simp only [deeper] at hd
      simp only [List.length_append, List.length_singleton]
      omega

/-! ### Termination with a depth limit -/

/-- The rounds needed for entries in a directory below which `k` more levels may be entered. -/
def weight (w : World) : Nat → List (Option Entry) → Nat
  | 0, es => 1 + es.length
  | k + 1, es => 1 + (es.map (fun o => match o with
      | none => 1
      | some e => 1 + match w.ls e.target with
        | none => 0
        | some es' => weight w k es')).sum

def stackWeight (w : World) (m : Nat) : List (Text × List (Option Entry)) → Nat
  | [] => 0
  | (_, es) :: below => weight w (m - (below.length + 1)) es + stackWeight w m below

theorem weight_nil (w : World) (k : Nat) : weight w k [] = 1 := by cases k <;> simp [weight]

theorem weight_cons (w : World) (k : Nat) (o : Option Entry) (es : List (Option Entry)) : weight w k es + 1 ≤ weight w k (o :: es) := by
  cases k with
  | zero => simp [weight]; omega
  | succ k => simp only [weight, List.map_cons, List.sum_cons]; cases o <;> simp only <;> omega

theorem weight_sub (w : World) (k : Nat) (e : Entry) (es es' : List (Option Entry)) (h : w.ls e.target = some es') :
    weight w (k + 1) es + 1 + weight w k es' = weight w (k + 1) (some e :: es) := by
  simp only [weight, List.map_cons, List.sum_cons, h]; omega

theorem round_weight {w : World} {fs : Bool} {m : Int} {s s' : State} {path : Text} {scan : List (Option Entry)}
    {below : List (Text × List (Option Entry))} (h : round w fs (some m) s path scan below = .go s') :
    stackWeight w m.toNat s'.stack < stackWeight w m.toNat ((path, scan) :: below) := by
  cases scan with
  | nil =>
    simp only [round, Out.go.injEq] at h
    subst h
    simp only [stackWeight, weight_nil]; omega
  | cons o scan' =>
    cases o with
    | none => simp [round] at h
    | some e =>
      have hlt := weight_cons w (m.toNat - (below.length + 1)) (some e) scan'
      have hbase : stackWeight w m.toNat ((path, scan') :: below) < stackWeight w m.toNat ((path, some e :: scan') :: below) := by
        simp only [stackWeight]; omega
      have hpush : ∀ (s0 : State) (p : Text), s0.stack = (path, scan') :: below → tooDeep (some m) (below.length + 1) = false →
          stackWeight w m.toNat (push w s0 p e.target).stack < stackWeight w m.toNat ((path, some e :: scan') :: below) := by
        intro s0 p hst hd
        rcases push_cases w s0 p e.target with ⟨_, e1⟩ | ⟨es, h1, e1⟩
        · rw [e1, hst]; exact hbase
        · rw [e1]
          simp only [hst, stackWeight, List.length_cons]
          have hm : (below.length : Int) + 1 < m := by
            have := (deep_iff (some m) below.length).1 hd
            exact this
          have hk : m.toNat - (below.length + 1) = (m.toNat - (below.length + 1 + 1)) + 1 := by omega
          rw [hk, ← weight_sub w _ e scan' es h1]
          omega
      simp only [round] at h
      split at h
      · injection h with h; subst h; exact hbase
      · split at h
        · split at h
          · injection h with h; subst h; exact hbase
          · rename_i hd
            have hd' : tooDeep (some m) (below.length + 1) = false := by simpa using hd
            split at h
            · injection h with h; subst h; exact hpush _ _ rfl hd'
            · split at h
              · injection h with h; subst h; exact hbase
              · injection h with h; subst h; exact hpush _ _ rfl hd'
        · split at h
          · injection h with h; subst h; exact hbase
          · injection h with h; subst h; exact hbase

theorem loop_limit (w : World) (fs : Bool) (m : Int) (fuel : Nat) (s : State) (h : stackWeight w m.toNat s.stack < fuel) :
    (loop w fs (some m) fuel s = .raised) ∨ ∃ dirs, loop w fs (some m) fuel s = .done dirs := by
  induction fuel generalizing s with
  | zero => omega
  | succ fuel ih =>
    simp only [loop]
    cases hst : s.stack with
    | nil => exact .inr ⟨_, rfl⟩
    | cons f below =>
      obtain ⟨path, scan⟩ := f
      simp only
      cases hr : round w fs (some m) s path scan below with
      | raised => exact .inl rfl
      | go s' =>
        have := round_weight hr
        rw [hst] at h
        exact ih s' (by omega)

/-! ### Termination without a depth limit -/

def stackSize (st : List (Text × List (Option Entry))) : Nat := (st.map (fun f => 1 + f.2.length)).sum

/-- The inodes not visited yet. -/
def fresh (inodes visited : List Nat) : Nat := (inodes.filter (fun i => !visited.contains i)).length

theorem fresh_cons {inodes visited : List Nat} {i : Nat} (hi : i ∈ inodes) (hv : visited.contains i = false) :
    fresh inodes (i :: visited) < fresh inodes visited := by
  unfold fresh
  have hsub : inodes.filter (fun j => !(i :: visited).contains j) = (inodes.filter (fun j => !visited.contains j)).filter (· != i) := by
    rw [List.filter_filter]
    congr 1
    funext j
    by_cases e : j = i <;> simp [e]
  rw [hsub]
  apply List.length_filter_lt_length_iff_exists.2
  exact ⟨i, by simp [hi]; simpa using hv, by simp⟩

theorem fresh_same {inodes visited : List Nat} : fresh inodes visited ≤ inodes.length := List.length_filter_le _ _

/-- All directory entries on the stack or that may come there have inodes from the list. -/
def InodesIn (w : World) (inodes : List Nat) : Prop :=
  ∀ d es e, w.ls d = some es → some e ∈ es → e.isDir = true → ∃ i ∈ inodes, e.inode = some i

def StackIn (inodes : List Nat) (st : List (Text × List (Option Entry))) : Prop :=
  ∀ f ∈ st, ∀ e, some e ∈ f.2 → e.isDir = true → ∃ i ∈ inodes, e.inode = some i

theorem round_fresh {w : World} {fs : Bool} {md : Option Int} {inodes : List Nat} (hw : InodesIn w inodes) {s s' : State} {path : Text}
    {scan : List (Option Entry)} {below : List (Text × List (Option Entry))} (hst : StackIn inodes ((path, scan) :: below))
    (h : round w fs md s path scan below = .go s') :
    StackIn inodes s'.stack ∧ (fresh inodes s'.visited < fresh inodes s.visited ∨
      s'.visited = s.visited ∧ stackSize s'.stack < stackSize ((path, scan) :: below)) := by
  cases scan with
  | nil =>
    simp only [round, Out.go.injEq] at h
    subst h
    exact ⟨fun f hf => hst f (by simp [hf]), .inr ⟨rfl, by simp [stackSize]⟩⟩
  | cons o scan' =>
    cases o with
    | none => simp [round] at h
    | some e =>
      have hin : StackIn inodes ((path, scan') :: below) := by
        intro f hf x hx
        simp only [List.mem_cons] at hf
        rcases hf with rfl | hf
        · exact hst (path, some e :: scan') (by simp) x (by simp at hx ⊢; exact .inr hx)
        · exact hst f (by simp [hf]) x hx
      have hbase : stackSize ((path, scan') :: below) < stackSize ((path, some e :: scan') :: below) := by
        simp [stackSize]
      simp only [round] at h
      split at h
      · injection h with h; subst h; exact ⟨hin, .inr ⟨rfl, hbase⟩⟩
      · split at h
        · rename_i hdir
          obtain ⟨i, hi, hie⟩ := hst (path, some e :: scan') (by simp) e (by simp) hdir
          split at h
          · injection h with h; subst h; exact ⟨hin, .inr ⟨rfl, hbase⟩⟩
          · split at h
            · rename_i hn; rw [hie] at hn; exact nomatch hn
            · rename_i i' hi'
              rw [hie] at hi'
              injection hi' with hi'
              subst hi'
              split at h
              · injection h with h; subst h; exact ⟨hin, .inr ⟨rfl, hbase⟩⟩
              · rename_i hv
                have hv' : s.visited.contains i = false := by simpa using hv
                injection h with h
                subst h
                rcases push_cases w { addDir { s with stack := (path, scan') :: below } path e.name with
                    visited := i :: s.visited } (join path e.name) e.target with ⟨_, e1⟩ | ⟨es, h1, e1⟩
                · simp only [addDir] at e1 ⊢
                  rw [e1]
                  exact ⟨hin, .inl (fresh_cons hi hv')⟩
                · simp only [addDir] at e1 ⊢
                  rw [e1]
                  refine ⟨?_, .inl (fresh_cons hi hv')⟩
                  intro f hf x hx hxd
                  simp only [List.mem_cons] at hf
                  rcases hf with rfl | hf
                  · exact hw _ _ _ h1 hx hxd
                  · exact hin f (by simpa using hf) x hx hxd
        · split at h
          · injection h with h; subst h; exact ⟨hin, .inr ⟨rfl, hbase⟩⟩
          · injection h with h; subst h; exact ⟨hin, .inr ⟨rfl, hbase⟩⟩

theorem loop_inodes {w : World} {fs : Bool} {md : Option Int} {inodes : List Nat} (hw : InodesIn w inodes) (n k : Nat) (s : State)
    (hst : StackIn inodes s.stack) (hn : fresh inodes s.visited ≤ n) (hk : stackSize s.stack ≤ k) :
    ∃ fuel, loop w fs md fuel s = .raised ∨ ∃ dirs, loop w fs md fuel s = .done dirs := by
  induction n generalizing k s with
  | zero =>
    induction k generalizing s with
    | zero =>
      cases hs : s.stack with
      | nil => exact ⟨1, .inr ⟨s.dirs, by simp [loop, hs]⟩⟩
      | cons f b => rw [hs] at hk; simp [stackSize] at hk
    | succ k ih =>
      cases hs : s.stack with
      | nil => exact ⟨1, .inr ⟨s.dirs, by simp [loop, hs]⟩⟩
      | cons f b =>
        obtain ⟨path, scan⟩ := f
        rw [hs] at hst hk
        cases hr : round w fs md s path scan b with
        | raised => exact ⟨1, .inl (by simp [loop, hs, hr])⟩
        | go s' =>
          obtain ⟨h1, h2⟩ := round_fresh hw hst hr
          rcases h2 with h2 | ⟨h2, h3⟩
          · omega
          · obtain ⟨fuel, hf⟩ := ih s' h1 (by rw [h2]; exact hn) (by omega)
            exact ⟨fuel + 1, by simpa [loop, hs, hr] using hf⟩
  | succ n ihn =>
    induction k generalizing s with
    | zero =>
      cases hs : s.stack with
      | nil => exact ⟨1, .inr ⟨s.dirs, by simp [loop, hs]⟩⟩
      | cons f b => rw [hs] at hk; simp [stackSize] at hk
    | succ k ih =>
      cases hs : s.stack with
      | nil => exact ⟨1, .inr ⟨s.dirs, by simp [loop, hs]⟩⟩
      | cons f b =>
        obtain ⟨path, scan⟩ := f
        rw [hs] at hst hk
        cases hr : round w fs md s path scan b with
        | raised => exact ⟨1, .inl (by simp [loop, hs, hr])⟩
        | go s' =>
          obtain ⟨h1, h2⟩ := round_fresh hw hst hr
          rcases h2 with h2 | ⟨h2, h3⟩
          · obtain ⟨fuel, hf⟩ := ihn (stackSize s'.stack) s' h1 (by omega) (Nat.le_refl _)
            exact ⟨fuel + 1, by simpa [loop, hs, hr] using hf⟩
          · obtain ⟨fuel, hf⟩ := ih s' h1 (by rw [h2]; exact hn) (by omega)
            exact ⟨fuel + 1, by simpa [loop, hs, hr] using hf⟩

/-! ### Each inode is followed once -/

/-- Every directory listed below the root was followed at an inode of its own. -/
def Owned (w : World) (md : Option Int) (s : State) : Prop :=
  ∃ own : Text → Nat, (∀ p, p ≠ [] → s.dirs p ≠ none → own p ∈ s.visited ∧ ∃ names d es e, Reach w md names d ∧ w.ls d = some es ∧
      some e ∈ es ∧ e.isDir = true ∧ e.inode = some (own p) ∧ p = key (names ++ [e.name]) ∧ w.ls e.target ≠ none ∧
      Reach w md (names ++ [e.name]) e.target) ∧
    ∀ p q, p ≠ [] → q ≠ [] → s.dirs p ≠ none → s.dirs q ≠ none → own p = own q → p = q

theorem owned_same {w : World} {md : Option Int} {s s' : State} (h : Owned w md s) (hv : ∀ i ∈ s.visited, i ∈ s'.visited)
    (hd : ∀ p, s'.dirs p ≠ none → s.dirs p ≠ none) : Owned w md s' := by
  obtain ⟨own, h1, h2⟩ := h
  exact ⟨own, fun p hp hs => ⟨hv _ (h1 p hp (hd p hs)).1, (h1 p hp (hd p hs)).2⟩,
    fun p q hp hq hsp hsq e => h2 p q hp hq (hd p hsp) (hd q hsq) e⟩

theorem addDir_none (s : State) (path name p : Text) : (addDir s path name).dirs p ≠ none → s.dirs p ≠ none := by
  simp only [addDir]
  split
  · simp
  · exact id

theorem addFile_none (s : State) (path p : Text) (info : Text × Int) : (addFile s path info).dirs p ≠ none → s.dirs p ≠ none := by
  simp only [addFile]
  split
  · simp
  · exact id

theorem owned_round {w : World} {fs : Bool} {md : Option Int} (hw : w.Named) (hin : w.Inodes) {s s' : State} {path : Text}
    {scan : List (Option Entry)} {below : List (Text × List (Option Entry))} (hst : s.stack = (path, scan) :: below) (hs : Sound w fs md s)
    (ho : Owned w md s) (h : round w fs md s path scan below = .go s') : Owned w md s' := by
  have hf := hs.frames
  rw [hst] at hf
  cases hf with
  | cons hr hls hlen hb =>
    rename_i names d done
    cases scan with
    | nil =>
      simp only [round, Out.go.injEq] at h
      subst h
      exact owned_same ho (fun _ h => h) (fun _ h => h)
    | cons o scan' =>
      cases o with
      | none => simp [round] at h
      | some e =>
        have hmem : some e ∈ done ++ some e :: scan' := by simp
        have hname := hw _ _ _ hls hmem
        have hgood := reach_good hw hr
        simp only [round] at h
        split at h
        · injection h with h; subst h; exact owned_same ho (fun _ h => h) (fun _ h => h)
        · rename_i hhid
          split at h
          · rename_i hdir
            split at h
            · injection h with h; subst h; exact owned_same ho (fun _ h => h) (fun _ h => h)
            · rename_i hdeep
              have hdeep' : deeper md names.length := by
                rw [← deep_iff]
                simpa [hlen] using hdeep
              split at h
              · rename_i hn; exact absurd hn (hin _ _ _ hls hmem hdir)
              · rename_i i hi
                split at h
                · injection h with h; subst h; exact owned_same ho (fun _ h => h) (fun _ h => h)
                · rename_i hv
                  have hv' : i ∉ s.visited := by simpa using hv
                  injection h with h
                  subst h
                  have hbase : Owned w md { addDir { s with stack := (key names, scan') :: below } (key names) e.name with
                      visited := i :: s.visited } :=
                    owned_same ho (fun _ h => by simp [h]) (fun p h => addDir_none _ _ _ p h)
                  rcases push_cases w { addDir { s with stack := (key names, scan') :: below } (key names) e.name with
                      visited := i :: s.visited } (join (key names) e.name) e.target with ⟨_, e1⟩ | ⟨es, h1, e1⟩
                  · simp only [addDir] at e1 hbase ⊢
                    rw [e1]; exact hbase
                  · simp only [addDir] at e1 ⊢
                    rw [e1]
                    rw [join_key hgood hname]
                    obtain ⟨own, o1, o2⟩ := ho
                    have hback : ∀ q, q ≠ key (names ++ [e.name]) → (if q = key (names ++ [e.name]) then some (⟨[], []⟩ : Info) else
                        if q = key names then (s.dirs q).map (fun i => { i with dirs := i.dirs ++ [e.name] }) else s.dirs q) ≠ none →
                        s.dirs q ≠ none := by
                      intro q hq
                      rw [if_neg hq]
                      split
                      · simp
                      · exact id
                    refine ⟨fun p => if p = key (names ++ [e.name]) then i else own p, ?_, ?_⟩
                    · intro p hp hsp
                      by_cases hpk : p = key (names ++ [e.name])
                      · simp only [hpk, if_true, List.mem_cons, true_or, true_and]
                        refine ⟨names, d, _, e, hr, hls, hmem, hdir, hi, rfl, by rw [h1]; simp, ?_⟩
                        exact .sub hr hls hmem hhid hdir hdeep' (by rw [h1]; simp)
                      · simp only [hpk, if_false, List.mem_cons]
                        obtain ⟨g1, g2⟩ := o1 p hp (hback p hpk hsp)
                        exact ⟨.inr g1, g2⟩
                    · intro p q hp hq hsp hsq heq
                      by_cases hpk : p = key (names ++ [e.name])
                      · by_cases hqk : q = key (names ++ [e.name])
                        · rw [hpk, hqk]
                        · simp only [hpk, if_true, hqk, if_false] at heq
                          exact absurd (heq ▸ (o1 q hq (hback q hqk hsq)).1) hv'
                      · by_cases hqk : q = key (names ++ [e.name])
                        · simp only [hqk, if_true, hpk, if_false] at heq
                          exact absurd (heq ▸ (o1 p hp (hback p hpk hsp)).1) hv'
                        · simp only [hpk, hqk, if_false] at heq
                          exact o2 p q hp hq (hback p hpk hsp) (hback q hqk hsq) heq
          · split at h
            · injection h with h; subst h; exact owned_same ho (fun _ h => h) (fun p h => addFile_none _ _ p _ h)
            · injection h with h; subst h; exact owned_same ho (fun _ h => h) (fun _ h => h)

theorem owned_start (w : World) (md : Option Int) : Owned w md (start w) := by
  refine ⟨fun _ => 0, ?_, ?_⟩
  · intro p hp hs
    exfalso
    simp only [start] at hs
    rcases push_cases w ⟨[], fun _ => none, []⟩ [] w.root with ⟨_, e1⟩ | ⟨es, h1, e1⟩
    · rw [e1] at hs; exact hs rfl
    · rw [e1] at hs; simp [hp] at hs
  · intro p q hp _ hs _ _
    exfalso
    simp only [start] at hs
    rcases push_cases w ⟨[], fun _ => none, []⟩ [] w.root with ⟨_, e1⟩ | ⟨es, h1, e1⟩
    · rw [e1] at hs; exact hs rfl
    · rw [e1] at hs; simp [hp] at hs

theorem owned_loop {w : World} {fs : Bool} {md : Option Int} (hw : w.Named) (hin : w.Inodes) {fuel : Nat} {s : State} (hs : Sound w fs md s)
    (ho : Owned w md s) {dirs : Text → Option Info} (h : loop w fs md fuel s = .done dirs) :
    ∃ s' : State, s'.dirs = dirs ∧ Owned w md s' := by
  induction fuel generalizing s with
  | zero => simp [loop] at h
  | succ fuel ih =>
    simp only [loop] at h
    split at h
    · injection h with h; exact ⟨s, h, ho⟩
    · rename_i path scan below hst
      split at h
      · simp at h
      · rename_i s' hr
        exact ih (sound_round hw hst hs hr) (owned_round hw hin hst hs ho hr) h

/-! ### Completeness -/

theorem two_sublist {α : Type} {a b : α} {l : List α} (ha : a ∈ l) (hb : b ∈ l) (hne : a ≠ b) : [a, b].Sublist l ∨ [b, a].Sublist l := by
  induction l with
  | nil => simp at ha
  | cons x l ih =>
    simp only [List.mem_cons] at ha hb
    rcases ha with rfl | ha
    · rcases hb with rfl | hb
      · exact absurd rfl hne
      · exact .inl (List.Sublist.cons₂ _ (List.singleton_sublist.2 hb))
    · rcases hb with rfl | hb
      · exact .inr (List.Sublist.cons₂ _ (List.singleton_sublist.2 ha))
      · exact (ih ha hb).imp (fun h => h.cons _) (fun h => h.cons _)

theorem reach_fun {w : World} {md : Option Int} (hd : w.Distinct) {names : List Text} {d d' : Nat} (h : Reach w md names d)
    (h' : Reach w md names d') : d = d' := by
  induction h generalizing d' with
  | root _ =>
    generalize hq : ([] : List Text) = q at h'
    cases h' with
    | root _ => rfl
    | sub _ _ _ _ _ _ _ => simp at hq
  | @sub names d es e hr hls hmem _ _ _ _ ih =>
    generalize hq : names ++ [e.name] = q at h'
    cases h' with
    | root _ => simp at hq
    | @sub names' d2 es' e' hr' hls' hmem' _ _ _ _ =>
      obtain ⟨rfl, hn⟩ := List.append_inj' hq rfl
      have hn : e.name = e'.name := by simpa using hn
      have := ih hr'
      subst this
      rw [hls] at hls'
      injection hls' with hls'
      subst hls'
      have : e = e' := by
        apply Classical.byContradiction
        intro hne
        have hp := hd _ _ hls
        have hne' : some e ≠ some e' := by simpa using hne
        rcases two_sublist hmem hmem' hne' with hsub | hsub
        · exact List.pairwise_iff_forall_sublist.1 hp hsub e e' rfl rfl hn
        · exact List.pairwise_iff_forall_sublist.1 hp hsub e' e rfl rfl hn.symm
      rw [this]

end Verif.Scan
