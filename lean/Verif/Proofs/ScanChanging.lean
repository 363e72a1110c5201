import Verif.Proofs.ScanFull
import Verif.Spec.ScanChanging
/-!
Lemmas about scans of directories that change (C179, C180).
-/
namespace Verif.Scan
open Verif Path

/-! ### What one entry does -/

/-- Why and how an entry changes the state. -/
inductive Kind (w : World) (fs : Bool) (md : Option Int) (s : State) (n : Nat) (e : Entry) :
    List Text → List (Text × Int) → List Nat → Option (List (Option Entry)) → Prop where
  | hidden : ¬ e.visible → Kind w fs md s n e [] [] [] none
  | deep : e.isDir = true → ¬ deeper md n → Kind w fs md s n e [] [] [] none
  | known {i} : e.isDir = true → e.inode = some i → i ∈ s.visited → Kind w fs md s n e [] [] [] none
  | other : e.isDir = false → e.isFile = false → Kind w fs md s n e [] [] [] none
  | noInode : e.visible → e.isDir = true → deeper md n → e.inode = none → Kind w fs md s n e [] [] [] (w.ls e.target)
  | enter {i} : e.visible → e.isDir = true → deeper md n → e.inode = some i → i ∉ s.visited →
      Kind w fs md s n e [e.name] [] [i] (w.ls e.target)
  | file : e.visible → e.isDir = false → e.isFile = true → Kind w fs md s n e [] [fileInfo fs e] [] none

/-- The frame of a directory that was opened. -/
def newFrame (path : Text) : Option (List (Option Entry)) → List (Text × List (Option Entry))
  | none => []
  | some es => [(path, es)]

/-- One entry, in one formula. -/
structure Step (w : World) (fs : Bool) (md : Option Int) (s s' : State) (path : Text) (e : Entry) (rest : List (Option Entry))
    (below : List (Text × List (Option Entry))) (ds : List Text) (fls : List (Text × Int)) (vs : List Nat)
    (pushed : Option (List (Option Entry))) : Prop where
  kind : Kind w fs md s below.length e ds fls vs pushed
  stack : s'.stack = newFrame (join path e.name) pushed ++ (path, rest) :: below
  visited : s'.visited = vs ++ s.visited
  dirs : ∀ p, s'.dirs p = if pushed ≠ none ∧ p = join path e.name then some ⟨[], []⟩
    else if p = path then (s.dirs p).map (fun i => ⟨i.dirs ++ ds, i.files ++ fls⟩) else s.dirs p

theorem map_same (o : Option Info) : o.map (fun i => (⟨i.dirs ++ [], i.files ++ []⟩ : Info)) = o := by cases o <;> simp

theorem round_step {w : World} {fs : Bool} {md : Option Int} {s s' : State} {path : Text} {e : Entry} {rest : List (Option Entry)}
    {below : List (Text × List (Option Entry))} (h : round w fs md s path (some e :: rest) below = .go s') :
    ∃ ds fls vs pushed, Step w fs md s s' path e rest below ds fls vs pushed := by
  have quiet : Kind w fs md s below.length e [] [] [] none → s' = { s with stack := (path, rest) :: below } →
      ∃ ds fls vs pushed, Step w fs md s s' path e rest below ds fls vs pushed := by
    rintro hk rfl
    refine ⟨[], [], [], none, hk, rfl, rfl, ?_⟩
    intro p
    simp only [map_same]
    simp
  simp only [round] at h
  split at h
  · rename_i hv
    injection h with h
    exact quiet (.hidden (fun hc => hc hv)) h.symm
  · rename_i hv
    have hv : e.visible := hv
    split at h
    · rename_i hd
      split at h
      · rename_i hp
        injection h with h
        refine quiet (.deep hd ?_) h.symm
        rw [← deep_iff]
        simpa using hp
      · rename_i hp
        have hp' : deeper md below.length := by
          rw [← deep_iff]
          simpa using hp
        split at h
        · rename_i hi
          injection h with h
          subst h
          refine ⟨[], [], [], w.ls e.target, .noInode hv hd hp' hi, ?_, ?_, ?_⟩
          · rcases push_cases w { s with stack := (path, rest) :: below } (join path e.name) e.target with ⟨h1, e1⟩ | ⟨es, h1, e1⟩
            · rw [e1, h1]; rfl
            · rw [e1, h1]; rfl
          · rcases push_cases w { s with stack := (path, rest) :: below } (join path e.name) e.target with ⟨h1, e1⟩ | ⟨es, h1, e1⟩
            · rw [e1]; rfl
            · rw [e1]; rfl
          · intro p
            simp only [map_same]
            rcases push_cases w { s with stack := (path, rest) :: below } (join path e.name) e.target with ⟨h1, e1⟩ | ⟨es, h1, e1⟩
            · rw [e1, h1]; simp
            · rw [e1, h1]; simp
        · rename_i i hi
          split at h
          · rename_i hk
            injection h with h
            exact quiet (.known hd hi (by simpa using hk)) h.symm
          · rename_i hk
            injection h with h
            subst h
            refine ⟨[e.name], [], [i], w.ls e.target, .enter hv hd hp' hi (by simpa using hk), ?_, ?_, ?_⟩
            · rcases push_cases w { addDir { s with stack := (path, rest) :: below } path e.name with visited := i :: s.visited }
                  (join path e.name) e.target with ⟨h1, e1⟩ | ⟨es, h1, e1⟩
              · simp only [addDir] at e1 ⊢; rw [e1, h1]; rfl
              · simp only [addDir] at e1 ⊢; rw [e1, h1]; rfl
            · rcases push_cases w { addDir { s with stack := (path, rest) :: below } path e.name with visited := i :: s.visited }
                  (join path e.name) e.target with ⟨h1, e1⟩ | ⟨es, h1, e1⟩
              · simp only [addDir] at e1 ⊢; rw [e1]; rfl
              · simp only [addDir] at e1 ⊢; rw [e1]; rfl
            · intro p
              rcases push_cases w { addDir { s with stack := (path, rest) :: below } path e.name with visited := i :: s.visited }
                  (join path e.name) e.target with ⟨h1, e1⟩ | ⟨es, h1, e1⟩
              · simp only [addDir] at e1 ⊢; rw [e1, h1]; simp
              · simp only [addDir] at e1 ⊢; rw [e1, h1]; simp
    · rename_i hd
      have hd : e.isDir = false := by simpa using hd
      split at h
      · rename_i hf
        injection h with h
        subst h
        refine ⟨[], [fileInfo fs e], [], none, .file hv hd hf, rfl, rfl, ?_⟩
        intro p
        simp [addFile]
      · rename_i hf
        injection h with h
        exact quiet (.other hd (by simpa using hf)) h.symm

/-! ### What is recorded was given -/

theorem reachAt_good {c : Changing} {md : Option Int} {names : List Text} {d t : Nat} (hw : c.Named) (h : ReachAt c md names d t) :
    Good names := by
  induction h with
  | root _ => simp [Good]
  | sub _ h1 h2 _ _ _ _ _ ih => exact good_append ih (hw _ _ _ _ h1 h2)

theorem reachAt_visible {c : Changing} {md : Option Int} {names : List Text} {d t : Nat} (h : ReachAt c md names d t) :
    (∀ n ∈ names, n.head? ≠ some '.') ∧ ∀ m, md = some m → names ≠ [] → (names.length : Int) < m := by
  induction h with
  | root _ => exact ⟨by simp, by simp⟩
  | sub _ _ _ hv _ hd _ _ ih =>
    refine ⟨?_, ?_⟩
    · intro n hn
      simp only [List.mem_append, List.mem_singleton] at hn
      rcases hn with hn | rfl
      · exact ih.1 n hn
      · exact hv
    · intro m hm _
      subst hm
      simp only [deeper] at hd
      simp only [List.length_append, List.length_singleton]
      omega

/-- The frames of the stack before round `now`. -/
inductive FramesAt (c : Changing) (md : Option Int) (now : Nat) : List (Text × List (Option Entry)) → Prop where
  | nil : FramesAt c md now []
  | cons {names d t done rest below} : ReachAt c md names d t → t < now → (c t).ls d = some (done ++ rest) → names.length = below.length →
      FramesAt c md now below → FramesAt c md now ((key names, rest) :: below)

theorem frames_later {c : Changing} {md : Option Int} {now : Nat} {st : List (Text × List (Option Entry))} (h : FramesAt c md now st) :
    FramesAt c md (now + 1) st := by
  induction h with
  | nil => exact .nil
  | cons h1 h2 h3 h4 _ ih => exact .cons h1 (by omega) h3 h4 ih

theorem frames_mem {c : Changing} {md : Option Int} {now : Nat} {st : List (Text × List (Option Entry))} (h : FramesAt c md now st) :
    ∀ f ∈ st, ∃ names d t, f.1 = key names ∧ ReachAt c md names d t ∧ names.length < st.length := by
  induction h with
  | nil => simp
  | @cons names d t done rest below h1 h2 h3 h4 _ ih =>
    intro f hf
    simp only [List.mem_cons] at hf
    rcases hf with rfl | hf
    · exact ⟨names, d, t, rfl, h1, by simp [h4]⟩
    · obtain ⟨n, d', t', g1, g2, g3⟩ := ih f hf
      exact ⟨n, d', t', g1, g2, by simp only [List.length_cons]; omega⟩

theorem frames_apart {c : Changing} {md : Option Int} (hw : c.Named) {now : Nat} {names : List Text} (hg : Good names)
    {below : List (Text × List (Option Entry))} (hl : names.length = below.length) (h : FramesAt c md now below) :
    ∀ f ∈ below, f.1 ≠ key names := by
  intro f hf hk
  obtain ⟨n, d, t, g1, g2, g3⟩ := frames_mem h f hf
  have := key_inj (reachAt_good hw g2) hg (g1.symm.trans hk)
  subst this
  omega

/-- What the result says about a directory was given by the system before round `now`. -/
def SaidAt (c : Changing) (fs : Bool) (md : Option Int) (now : Nat) (names : List Text) (info : Info) : Prop :=
  (∀ n ∈ info.dirs, ∃ d t es e, ReachAt c md names d t ∧ t < now ∧ (c t).ls d = some es ∧ some e ∈ es ∧ e.visible ∧ e.isDir = true ∧
    e.name = n ∧ deeper md names.length) ∧
  (∀ f ∈ info.files, ∃ d t es e, ReachAt c md names d t ∧ t < now ∧ (c t).ls d = some es ∧ some e ∈ es ∧ e.visible ∧ e.isDir = false ∧
    e.isFile = true ∧ f = fileInfo fs e)

theorem said_later {c : Changing} {fs : Bool} {md : Option Int} {now : Nat} {names : List Text} {info : Info}
    (h : SaidAt c fs md now names info) : SaidAt c fs md (now + 1) names info := by
  refine ⟨?_, ?_⟩
  · intro n hn
    obtain ⟨d, t, es, e, g1, g2, g3⟩ := h.1 n hn
    exact ⟨d, t, es, e, g1, by omega, g3⟩
  · intro n hn
    obtain ⟨d, t, es, e, g1, g2, g3⟩ := h.2 n hn
    exact ⟨d, t, es, e, g1, by omega, g3⟩

structure SoundAt (c : Changing) (fs : Bool) (md : Option Int) (now : Nat) (s : State) : Prop where
  frames : FramesAt c md now s.stack
  listed : ∀ p info, s.dirs p = some info → ∃ names d t, p = key names ∧ ReachAt c md names d t ∧ t < now ∧ SaidAt c fs md now names info
  top : ∀ f ∈ s.stack, s.dirs f.1 ≠ none

theorem kind_open {w : World} {fs : Bool} {md : Option Int} {s : State} {n : Nat} {e : Entry} {ds fls vs pushed}
    (h : Kind w fs md s n e ds fls vs pushed) (hp : pushed ≠ none) :
    e.visible ∧ e.isDir = true ∧ deeper md n ∧ pushed = w.ls e.target := by
  cases h <;> first | exact absurd rfl hp | skip
  · exact ⟨‹_›, ‹_›, ‹_›, rfl⟩
  · exact ⟨‹_›, ‹_›, ‹_›, rfl⟩

theorem kind_dirs {w : World} {fs : Bool} {md : Option Int} {s : State} {n : Nat} {e : Entry} {ds fls vs pushed}
    (h : Kind w fs md s n e ds fls vs pushed) {x : Text} (hx : x ∈ ds) : x = e.name ∧ e.visible ∧ e.isDir = true ∧ deeper md n := by
  cases h <;> first | (simp at hx; done) | skip
  simp only [List.mem_singleton] at hx
  exact ⟨hx, ‹_›, ‹_›, ‹_›⟩

theorem kind_files {w : World} {fs : Bool} {md : Option Int} {s : State} {n : Nat} {e : Entry} {ds fls vs pushed}
    (h : Kind w fs md s n e ds fls vs pushed) {x : Text × Int} (hx : x ∈ fls) :
    x = fileInfo fs e ∧ e.visible ∧ e.isDir = false ∧ e.isFile = true := by
  cases h <;> first | (simp at hx; done) | skip
  simp only [List.mem_singleton] at hx
  exact ⟨hx, ‹_›, ‹_›, ‹_›⟩

theorem sound_step {c : Changing} {fs : Bool} {md : Option Int} (hw : c.Named) {now : Nat} {s s' : State} {path : Text} {e : Entry}
    {rest : List (Option Entry)} {below : List (Text × List (Option Entry))} (hst : s.stack = (path, some e :: rest) :: below)
    (hs : SoundAt c fs md now s) {ds fls vs pushed} (h : Step (c now) fs md s s' path e rest below ds fls vs pushed) :
    SoundAt c fs md (now + 1) s' := by
  have hf := hs.frames
  have htop := hs.top
  rw [hst] at hf htop
  cases hf with
  | @cons names d t done _ _ hr ht hls hlen hb =>
    have hgood := reachAt_good hw hr
    have hmem : some e ∈ done ++ some e :: rest := by simp
    have hname := hw _ _ _ _ hls hmem
    have hj : join (key names) e.name = key (names ++ [e.name]) := join_key hgood hname
    have hbase : FramesAt c md (now + 1) ((key names, rest) :: below) :=
      .cons hr (by omega) (done := done ++ [some e]) (by simpa using hls) hlen (frames_later hb)
    have hreach : pushed ≠ none → ReachAt c md (names ++ [e.name]) e.target now := by
      intro hp
      obtain ⟨g1, g2, g3, g4⟩ := kind_open h.kind hp
      exact .sub hr hls hmem g1 g2 (by rw [hlen]; exact g3) ht (by rw [← g4]; exact hp)
    refine ⟨?_, ?_, ?_⟩
    · rw [h.stack]
      cases hp : pushed with
      | none => exact hbase
      | some es =>
        have hp' : pushed ≠ none := by rw [hp]; simp
        obtain ⟨_, _, _, g4⟩ := kind_open h.kind hp'
        rw [hj]
        exact .cons (hreach hp') (by omega) (done := []) (by rw [← g4, hp]; rfl) (by simp [hlen]) hbase
    · intro p info hp
      rw [h.dirs] at hp
      split at hp
      · rename_i hc
        injection hp with hp
        subst hp
        exact ⟨_, _, now, hc.2.trans hj, hreach hc.1, by omega, by simp, by simp⟩
      · split at hp
        · rename_i hpk
          cases hq : s.dirs p with
          | none => rw [hq] at hp; simp at hp
          | some i0 =>
            rw [hq] at hp
            simp only [Option.map_some, Option.some.injEq] at hp
            subst hp
            obtain ⟨n', d', t', g1, g2, g0, g5⟩ := hs.listed p i0 hq
            have en : n' = names := key_inj (reachAt_good hw g2) hgood (g1.symm.trans hpk)
            subst en
            obtain ⟨g3, g4⟩ := said_later g5
            refine ⟨n', d, t, hpk, hr, by omega, ?_, ?_⟩
            · intro n hn
              simp only [List.mem_append] at hn
              rcases hn with hn | hn
              · exact g3 n hn
              · obtain ⟨k1, k2, k3, k4⟩ := kind_dirs h.kind hn
                exact ⟨d, t, _, e, hr, by omega, hls, hmem, k2, k3, k1.symm, by rw [hlen]; exact k4⟩
            · intro n hn
              simp only [List.mem_append] at hn
              rcases hn with hn | hn
              · exact g4 n hn
              · obtain ⟨k1, k2, k3, k4⟩ := kind_files h.kind hn
                exact ⟨d, t, _, e, hr, by omega, hls, hmem, k2, k3, k4, k1⟩
        · obtain ⟨n', d', t', g1, g2, g0, g5⟩ := hs.listed p info hp
          exact ⟨n', d', t', g1, g2, by omega, said_later g5⟩
    · intro f hf
      rw [h.dirs]
      split
      · simp
      · rename_i hc
        have hf' : f.1 = key names ∨ f ∈ below := by
          rw [h.stack] at hf
          cases hp : pushed with
          | none =>
            rw [hp] at hf
            simp only [newFrame, List.nil_append, List.mem_cons] at hf
            exact hf.imp (fun h => by rw [h]) id
          | some es =>
            rw [hp] at hf hc
            simp only [newFrame, List.cons_append, List.nil_append, List.mem_cons] at hf
            rcases hf with rfl | rfl | hf
            · exact absurd ⟨by simp, rfl⟩ hc
            · exact .inl rfl
            · exact .inr hf
        split
        · rename_i hk
          rw [hk]
          have := htop (key names, some e :: rest) (by simp)
          simp only [ne_eq, Option.map_eq_none_iff]
          exact this
        · rename_i hk
          rcases hf' with hf' | hf'
          · exact absurd hf' hk
          · exact htop f (by simp [hf'])

theorem sound_pop {c : Changing} {fs : Bool} {md : Option Int} {now : Nat} {s : State} {path : Text}
    {below : List (Text × List (Option Entry))} (hst : s.stack = (path, []) :: below) (hs : SoundAt c fs md now s) :
    SoundAt c fs md (now + 1) { s with stack := below } := by
  have hf := hs.frames
  have htop := hs.top
  rw [hst] at hf htop
  cases hf with
  | cons hr ht hls hlen hb =>
    refine ⟨frames_later hb, ?_, fun f hf => htop f (by simp [hf])⟩
    intro p info hp
    obtain ⟨n', d', t', g1, g2, g0, g5⟩ := hs.listed p info hp
    exact ⟨n', d', t', g1, g2, by omega, said_later g5⟩

/-- A round is the end of a directory or one entry. -/
theorem round_go {w : World} {fs : Bool} {md : Option Int} {s s' : State} {path : Text} {scan : List (Option Entry)}
    {below : List (Text × List (Option Entry))} (h : round w fs md s path scan below = .go s') :
    (scan = [] ∧ s' = { s with stack := below }) ∨
      ∃ e rest ds fls vs pushed, scan = some e :: rest ∧ Step w fs md s s' path e rest below ds fls vs pushed := by
  cases scan with
  | nil =>
    simp only [round, Out.go.injEq] at h
    exact .inl ⟨rfl, h.symm⟩
  | cons o rest =>
    cases o with
    | none => simp [round] at h
    | some e =>
      obtain ⟨ds, fls, vs, pushed, hk⟩ := round_step h
      exact .inr ⟨e, rest, ds, fls, vs, pushed, rfl, hk⟩

theorem soundAt_start (c : Changing) (fs : Bool) (md : Option Int) : SoundAt c fs md 1 (start (c 0)) := by
  simp only [start]
  rcases push_cases (c 0) ⟨[], fun _ => none, []⟩ [] (c 0).root with ⟨h, e⟩ | ⟨es, h, e⟩
  · rw [e]; exact ⟨.nil, by simp, by simp⟩
  · rw [e]
    have hr : ReachAt c md [] (c 0).root 0 := .root (by rw [h]; simp)
    refine ⟨.cons (names := []) hr (by omega) (done := []) h rfl .nil, ?_, ?_⟩
    · intro p info hp
      simp only at hp
      split at hp
      · rename_i hk
        injection hp with hp
        subst hp
        exact ⟨[], _, 0, hk, hr, by omega, by simp, by simp⟩
      · simp at hp
    · intro f hf
      simp only [List.mem_singleton] at hf
      subst hf
      simp

/-- A scan that is done comes from a state in which any invariant of the rounds holds. -/
theorem loopC_inv {c : Changing} {fs : Bool} {md : Option Int} {Inv : Nat → State → Prop}
    (hstep : ∀ t s path scan below s', s.stack = (path, scan) :: below → Inv t s → round (c t) fs md s path scan below = .go s' →
      Inv (t + 1) s') {fuel t : Nat} {s : State} (hs : Inv t s) {dirs : Text → Option Info} (h : loopC c fs md fuel t s = .done dirs) :
    ∃ t' s', t' < t + fuel ∧ s'.stack = [] ∧ s'.dirs = dirs ∧ Inv t' s' := by
  induction fuel generalizing t s with
  | zero => simp [loopC] at h
  | succ fuel ih =>
    simp only [loopC] at h
    split at h
    · rename_i hst
      injection h with h
      exact ⟨t, s, by omega, hst, h, hs⟩
    · rename_i path scan below hst
      split at h
      · simp at h
      · rename_i s' hr
        obtain ⟨t', s2, g, g'⟩ := ih (hstep _ _ _ _ _ _ hst hs hr) h
        exact ⟨t', s2, by omega, g'⟩

theorem sound_roundC {c : Changing} {fs : Bool} {md : Option Int} (hw : c.Named) (t : Nat) (s : State) (path : Text)
    (scan : List (Option Entry)) (below : List (Text × List (Option Entry))) (s' : State) (hst : s.stack = (path, scan) :: below)
    (hs : SoundAt c fs md t s) (h : round (c t) fs md s path scan below = .go s') : SoundAt c fs md (t + 1) s' := by
  rcases round_go h with ⟨rfl, rfl⟩ | ⟨e, rest, ds, fls, vs, pushed, rfl, hk⟩
  · exact sound_pop hst hs
  · exact sound_step hw hst hs hk

/-! ### Termination -/

/-- What the round leaves on the stack. -/
theorem round_stack {w : World} {fs : Bool} {md : Option Int} {s s' : State} {path : Text} {e : Entry} {rest : List (Option Entry)}
    {below : List (Text × List (Option Entry))} {ds fls vs pushed} (h : Step w fs md s s' path e rest below ds fls vs pushed) :
    s'.stack = (path, rest) :: below ∨ ∃ q es, deeper md below.length ∧ s'.stack = (q, es) :: (path, rest) :: below := by
  rw [h.stack]
  cases hp : pushed with
  | none => exact .inl rfl
  | some es =>
    obtain ⟨_, _, g, _⟩ := kind_open h.kind (by rw [hp]; simp)
    exact .inr ⟨_, es, g, rfl⟩

/-- The rounds go on: from `s` in round `t` the loop comes to a state with this stack, or it raises. -/
inductive Comes (c : Changing) (fs : Bool) (md : Option Int) (st : List (Text × List (Option Entry))) : Nat → State → Prop where
  | here {t s} : s.stack = st → Comes c fs md st t s
  | raised {t s path scan below} : s.stack = (path, scan) :: below → round (c t) fs md s path scan below = .raised → Comes c fs md st t s
  | next {t s path scan below s'} : s.stack = (path, scan) :: below → round (c t) fs md s path scan below = .go s' →
      Comes c fs md st (t + 1) s' → Comes c fs md st t s

theorem Comes.trans {c : Changing} {fs : Bool} {md : Option Int} {st st' : List (Text × List (Option Entry))} {t : Nat} {s : State}
    (h : Comes c fs md st t s) (h' : ∀ t s, s.stack = st → Comes c fs md st' t s) : Comes c fs md st' t s := by
  induction h with
  | here hs => exact h' _ _ hs
  | raised h1 h2 => exact .raised h1 h2
  | next h1 h2 _ ih => exact .next h1 h2 ih

/-- With `k` levels left below, a directory is done some time. -/
theorem comes_below (c : Changing) (fs : Bool) (m : Int) (k : Nat) : ∀ (es : List (Option Entry)) (path : Text)
    (below : List (Text × List (Option Entry))) (t : Nat) (s : State), m - (below.length + 1) ≤ k →
    s.stack = (path, es) :: below → Comes c fs (some m) below t s := by
  induction k with
  | zero =>
    intro es
    induction es with
    | nil =>
      intro path below t s _ hst
      exact .next hst rfl (.here rfl)
    | cons o rest ih =>
      intro path below t s hk hst
      cases hr : round (c t) fs (some m) s path (o :: rest) below with
      | raised => exact .raised hst hr
      | go s' =>
        refine .next hst hr ?_
        rcases round_go hr with ⟨h, _⟩ | ⟨e, rest', ds, fls, vs, pushed, h, hs⟩
        · simp at h
        · injection h with _ h
          subst h
          rcases round_stack hs with h | ⟨q, es, hd, _⟩
          · exact ih _ _ _ _ hk h
          · simp only [deeper] at hd
            simp only [Int.natCast_zero] at hk
            omega
  | succ k ihk =>
    intro es
    induction es with
    | nil =>
      intro path below t s _ hst
      exact .next hst rfl (.here rfl)
    | cons o rest ih =>
      intro path below t s hk hst
      cases hr : round (c t) fs (some m) s path (o :: rest) below with
      | raised => exact .raised hst hr
      | go s' =>
        refine .next hst hr ?_
        rcases round_go hr with ⟨h, _⟩ | ⟨e, rest', ds, fls, vs, pushed, h, hs⟩
        · simp at h
        · injection h with _ h
          subst h
          rcases round_stack hs with h | ⟨q, es, hd, h⟩
          · exact ih _ _ _ _ hk h
          · refine (ihk es q ((path, rest) :: below) _ _ ?_ h).trans (fun t s hs => ih path below t s hk hs)
            simp only [List.length_cons]
            omega

theorem comes_ends {c : Changing} {fs : Bool} {md : Option Int} {t : Nat} {s : State} (h : Comes c fs md [] t s) :
    ∃ fuel, loopC c fs md fuel t s = .raised ∨ ∃ dirs, loopC c fs md fuel t s = .done dirs := by
  induction h with
  | here hs => exact ⟨1, .inr ⟨_, by simp only [loopC, hs]; rfl⟩⟩
  | raised h1 h2 => exact ⟨1, .inl (by simp only [loopC, h1, h2])⟩
  | next h1 h2 _ ih =>
    obtain ⟨fuel, ih⟩ := ih
    exact ⟨fuel + 1, by simpa only [loopC, h1, h2] using ih⟩

theorem start_stack (w : World) : (start w).stack = [] ∨ ∃ es, (start w).stack = [([], es)] := by
  simp only [start]
  rcases push_cases w ⟨[], fun _ => none, []⟩ [] w.root with ⟨h, e⟩ | ⟨es, h, e⟩
  · rw [e]; exact .inl rfl
  · rw [e]; exact .inr ⟨es, rfl⟩

/-! ### Directories that do not change -/

theorem loopC_same (w : World) (fs : Bool) (md : Option Int) (fuel t : Nat) (s : State) :
    loopC (fun _ => w) fs md fuel t s = loop w fs md fuel s := by
  induction fuel generalizing t s with
  | zero => rfl
  | succ fuel ih =>
    simp only [loopC, loop]
    cases s.stack with
    | nil => rfl
    | cons f below =>
      obtain ⟨path, scan⟩ := f
      simp only
      cases round w fs md s path scan below with
      | raised => rfl
      | go s' => exact ih _ _

/-! ### What stays -/

theorem snoc_inj {a b : List Text} {x y : Text} (h : a ++ [x] = b ++ [y]) : a = b ∧ x = y := by
  obtain ⟨h1, h2⟩ := List.append_inj' h rfl
  exact ⟨h1, by simpa using h2⟩

/-- What is known about a subdirectory that stays. -/
structure SubOf (c : Changing) (md : Option Int) (names : List Text) (d : Nat) (n : Text) (target i : Nat) : Prop where
  above : Stays c md names d
  visible : n.head? ≠ some '.'
  deep : deeper md names.length
  opens : ∀ t, (c t).ls target ≠ none
  there : ∀ es, c.Gives d es → ∃ e, some e ∈ es ∧ e.name = n
  same : ∀ es e, c.Gives d es → some e ∈ es → e.name = n → e.isDir = true ∧ e.inode = some i ∧ e.target = target
  only : ∀ d' es e, c.Gives d' es → some e ∈ es → e.isDir = true → e.inode = some i ∨ e.target = target → d' = d ∧ e.name = n
  root : target ≠ (c 0).root

theorem stays_sub {c : Changing} {md : Option Int} {names : List Text} {n : Text} {target : Nat} (h : Stays c md (names ++ [n]) target) :
    ∃ d i, SubOf c md names d n target i := by
  generalize hq : names ++ [n] = q at h
  cases h with
  | root _ _ => simp at hq
  | @sub names' d n' target i h1 h2 h3 h4 h5 h6 h7 h8 =>
    obtain ⟨rfl, rfl⟩ := snoc_inj hq
    exact ⟨d, i, h1, h2, h3, h4, h5, h6, h7, h8⟩

theorem stays_opens {c : Changing} {md : Option Int} {names : List Text} {d : Nat} (h : Stays c md names d) (t : Nat) :
    ∃ es, (c t).ls d = some es := by
  cases h with
  | root h1 _ => exact Option.ne_none_iff_exists'.1 (h1 t)
  | sub _ _ _ h4 _ _ _ _ => exact Option.ne_none_iff_exists'.1 (h4 t)

theorem stays_fun {c : Changing} {md : Option Int} {names : List Text} {d d' : Nat} (h : Stays c md names d) (h' : Stays c md names d') :
    d = d' := by
  induction h generalizing d' with
  | root _ _ =>
    generalize hq : ([] : List Text) = q at h'
    cases h' with
    | root _ _ => rfl
    | sub _ _ _ _ _ _ _ _ => simp at hq
  | @sub names d n target i h1 h2 h3 h4 h5 h6 h7 h8 ih =>
    obtain ⟨d2, i2, hs⟩ := stays_sub h'
    have := ih hs.above
    subst this
    obtain ⟨es, hes⟩ := stays_opens h1 0
    obtain ⟨e, g1, g2⟩ := h5 es ⟨0, hes⟩
    exact (h6 es e ⟨0, hes⟩ g1 g2).2.2.symm.trans (hs.same es e ⟨0, hes⟩ g1 g2).2.2

/-- Under the names of a directory that stays only this one is opened, and it is opened only there. -/
theorem stays_reach {c : Changing} {md : Option Int} {names names' : List Text} {d d' t : Nat} (h : Stays c md names d)
    (h' : ReachAt c md names' d' t) : names' = names ↔ d' = d := by
  induction h generalizing names' d' t with
  | root h1 h2 =>
    cases h' with
    | root _ => simp
    | sub _ hls hmem _ hdir _ _ _ =>
      constructor
      · intro h; simp at h
      · intro h; exact absurd h (h2 _ _ _ ⟨_, hls⟩ hmem hdir)
  | @sub names d n target i h1 h2 h3 h4 h5 h6 h7 h8 ih =>
    cases h' with
    | root _ =>
      constructor
      · intro h; simp at h
      · intro h; exact absurd h.symm h8
    | @sub names2 d2 t2 es e _ hr hls hmem _ hdir _ _ _ =>
      constructor
      · intro h
        obtain ⟨rfl, hn⟩ := snoc_inj h
        have := (ih hr).1 rfl
        subst this
        exact (h6 es e ⟨_, hls⟩ hmem hn).2.2
      · intro h
        obtain ⟨rfl, hn⟩ := h7 _ es e ⟨_, hls⟩ hmem hdir (.inr h)
        rw [(ih hr).2 rfl, hn]

theorem stays_good {c : Changing} {md : Option Int} (hw : c.Named) {names : List Text} {d : Nat} (h : Stays c md names d) : Good names := by
  induction h with
  | root _ _ => simp [Good]
  | @sub names d n target i h1 h2 h3 h4 h5 h6 h7 h8 ih =>
    obtain ⟨es, hes⟩ := stays_opens h1 0
    obtain ⟨e, g1, g2⟩ := h5 es ⟨0, hes⟩
    exact good_append ih (g2 ▸ hw _ _ _ _ hes g1)

/-- What the scan has so far for the directories that stay. -/
structure Kept (c : Changing) (fs : Bool) (md : Option Int) (now : Nat) (s : State) : Prop where
  seen : ∀ names d info, Stays c md names d → s.dirs (key names) = some info → ∃ t done rest, t < now ∧ (c t).ls d = some (done ++ rest) ∧
    (∀ r, (key names, r) ∈ s.stack → r = rest) ∧ (rest = [] ∨ (key names, rest) ∈ s.stack) ∧
    info.files = (infoOf fs md names.length done).files ∧
    ∀ n target i, SubOf c md names d n target i → (∃ e, some e ∈ done ∧ e.name = n) → n ∈ info.dirs ∧ s.dirs (key (names ++ [n])) ≠ none
  root : ∀ d, Stays c md [] d → s.dirs (key []) ≠ none
  known : ∀ names d n target i, SubOf c md names d n target i → (i ∈ s.visited ↔ s.dirs (key (names ++ [n])) ≠ none) ∧
    (i ∈ s.visited → ∃ info, s.dirs (key names) = some info ∧ n ∈ info.dirs)

theorem subOf_stays {c : Changing} {md : Option Int} {names : List Text} {d : Nat} {n : Text} {target i : Nat}
    (h : SubOf c md names d n target i) : Stays c md (names ++ [n]) target :=
  .sub h.above h.visible h.deep h.opens h.there h.same h.only h.root

theorem files_snoc (fs : Bool) (md : Option Int) (n : Nat) (done : List (Option Entry)) (e : Entry) {w : World} {s : State}
    {ds fls vs pushed} (h : Kind w fs md s n e ds fls vs pushed) :
    (infoOf fs md n (done ++ [some e])).files = (infoOf fs md n done).files ++ fls := by
  rw [infoOf_snoc]
  cases h with
  | hidden hv => rw [if_neg hv]; simp
  | deep hd hp =>
    rw [if_pos hd, if_neg hp]
    split <;> simp
  | known hd hi hv =>
    rw [if_pos hd]
    split
    · split <;> simp
    · simp
  | other hd hf =>
    simp [hd, hf]
  | noInode hv hd hp hi => rw [if_pos hv, if_pos hd, if_pos hp]; simp
  | enter hv hd hp hi hk => rw [if_pos hv, if_pos hd, if_pos hp]; simp
  | file hv hd hf => simp [hv, hd, hf]

theorem kept_pop {c : Changing} {fs : Bool} {md : Option Int} {now : Nat} {s : State} {path : Text}
    {below : List (Text × List (Option Entry))} (hst : s.stack = (path, []) :: below) (hk : Kept c fs md now s) :
    Kept c fs md (now + 1) { s with stack := below } := by
  refine ⟨?_, hk.root, hk.known⟩
  intro names d info hs hd
  obtain ⟨t, done, rest, h0, h1, h2, h3, h4, h5⟩ := hk.seen names d info hs hd
  refine ⟨t, done, rest, by omega, h1, ?_, ?_, h4, h5⟩
  · intro r hr
    exact h2 r (by rw [hst]; exact List.mem_cons_of_mem _ hr)
  · rcases h3 with h3 | h3
    · exact .inl h3
    · rw [hst] at h3
      simp only [List.mem_cons, Prod.mk.injEq] at h3
      rcases h3 with ⟨_, h3⟩ | h3
      · exact .inl h3
      · exact .inr h3

theorem kind_visited {w : World} {fs : Bool} {md : Option Int} {s : State} {n : Nat} {e : Entry} {ds fls vs pushed}
    (h : Kind w fs md s n e ds fls vs pushed) {i : Nat} (hi : i ∈ vs) :
    e.isDir = true ∧ e.inode = some i ∧ i ∉ s.visited ∧ pushed = w.ls e.target ∧ e.name ∈ ds := by
  cases h <;> first | (simp at hi; done) | skip
  simp only [List.mem_singleton] at hi
  subst hi
  exact ⟨‹_›, ‹_›, ‹_›, rfl, by simp⟩

/-- A directory with an inode number is opened only where the number is new. -/
theorem kind_fresh {w : World} {fs : Bool} {md : Option Int} {s : State} {n : Nat} {e : Entry} {ds fls vs pushed}
    (h : Kind w fs md s n e ds fls vs pushed) (hp : pushed ≠ none) {i : Nat} (hi : e.inode = some i) : i ∉ s.visited ∧ i ∈ vs := by
  cases h <;> first | exact absurd rfl hp | skip
  · rename_i hn; rw [hi] at hn; simp at hn
  · rename_i i' _ _ _ hn hk
    rw [hi] at hn
    injection hn with hn
    subst hn
    exact ⟨hk, by simp⟩

/-- The entry of a directory that stays: known already, or opened now. -/
theorem kind_sub {w : World} {fs : Bool} {md : Option Int} {s : State} {n : Nat} {e : Entry} {ds fls vs pushed}
    (h : Kind w fs md s n e ds fls vs pushed) (hv : e.visible) (hd : e.isDir = true) (hdeep : deeper md n) {i : Nat}
    (hi : e.inode = some i) : i ∈ s.visited ∨ (e.name ∈ ds ∧ pushed = w.ls e.target) := by
  cases h with
  | hidden h => exact absurd hv h
  | deep _ h => exact absurd hdeep h
  | known _ h1 h2 => rw [hi] at h1; injection h1 with h1; subst h1; exact .inl h2
  | other h _ => rw [hd] at h; simp at h
  | noInode _ _ _ h => rw [hi] at h; simp at h
  | enter _ _ _ h1 h2 => exact .inr ⟨by simp, rfl⟩
  | file _ h _ => rw [hd] at h; simp at h

theorem kept_step {c : Changing} {fs : Bool} {md : Option Int} (hw : c.Named) {now : Nat} {s s' : State} {path : Text} {e : Entry}
    {rest : List (Option Entry)} {below : List (Text × List (Option Entry))} (hst : s.stack = (path, some e :: rest) :: below)
    (hs : SoundAt c fs md now s) (hk : Kept c fs md now s) {ds fls vs pushed}
    (h : Step (c now) fs md s s' path e rest below ds fls vs pushed) : Kept c fs md (now + 1) s' := by
  have hf := hs.frames
  have htop := hs.top
  rw [hst] at hf htop
  cases hf with
  | @cons names0 d0 t0 done0 _ _ hr ht hls hlen hb =>
    have hgood := reachAt_good hw hr
    have hmem : some e ∈ done0 ++ some e :: rest := by simp
    have hname := hw _ _ _ _ hls hmem
    have hj : join (key names0) e.name = key (names0 ++ [e.name]) := join_key hgood hname
    have hgood' : Good (names0 ++ [e.name]) := good_append hgood hname
    have hkind := h.kind
    rw [← hlen] at hkind
    -- the directory that is opened, if it stays
    have hpush : ∀ n target i, SubOf c md names0 d0 n target i → e.name = n → pushed ≠ none →
        s.dirs (key (names0 ++ [n])) = none ∧ i ∈ vs := by
      intro n target i hsub hn hp
      obtain ⟨_, g2, _⟩ := hsub.same _ e ⟨_, hls⟩ hmem hn
      obtain ⟨k1, k2⟩ := kind_fresh hkind hp g2
      refine ⟨?_, k2⟩
      cases hq : s.dirs (key (names0 ++ [n])) with
      | none => rfl
      | some info => exact absurd ((hk.known _ _ _ _ _ hsub).1.2 (by rw [hq]; simp)) k1
    have hwhich : ∀ names d, Stays c md names d → key names = join (key names0) e.name → pushed ≠ none →
        s.dirs (key names) = none ∧ ∃ i, SubOf c md names0 d0 e.name d i ∧ i ∈ vs ∧ names = names0 ++ [e.name] := by
      intro names d hstay hkey hp
      have hn : names = names0 ++ [e.name] := key_inj (stays_good hw hstay) hgood' (hkey.trans hj)
      subst hn
      obtain ⟨d1, i, hsub⟩ := stays_sub hstay
      have hd : d0 = d1 := (stays_reach hsub.above hr).1 rfl
      subst hd
      obtain ⟨g1, g2⟩ := hpush _ _ _ hsub rfl hp
      exact ⟨g1, i, hsub, g2, rfl⟩
    -- what has been said about a directory that stays is not forgotten
    have hmono : ∀ names d info, Stays c md names d → s.dirs (key names) = some info → ∃ info', s'.dirs (key names) = some info' ∧
        (∀ n ∈ info.dirs, n ∈ info'.dirs) ∧ (names ≠ names0 → info' = info) ∧
        (names = names0 → info' = ⟨info.dirs ++ ds, info.files ++ fls⟩) := by
      intro names d info hstay hd
      rw [h.dirs]
      have hno : ¬ (pushed ≠ none ∧ key names = join (key names0) e.name) := by
        rintro ⟨h1, h2⟩
        have := (hwhich names d hstay h2 h1).1
        rw [hd] at this
        simp at this
      rw [if_neg hno]
      by_cases hn : names = names0
      · subst hn
        rw [if_pos rfl, hd]
        exact ⟨_, rfl, fun n hn => by simp [hn], fun h => absurd rfl h, fun _ => rfl⟩
      · rw [if_neg (fun hc => hn (key_inj (stays_good hw hstay) hgood hc)), hd]
        exact ⟨info, rfl, fun n hn => hn, fun _ => rfl, fun h => absurd h hn⟩
    have hsome : ∀ names d, Stays c md names d → s.dirs (key names) ≠ none → s'.dirs (key names) ≠ none := by
      intro names d hstay hd
      obtain ⟨info, hd⟩ := Option.ne_none_iff_exists'.1 hd
      obtain ⟨info', g, _⟩ := hmono names d info hstay hd
      rw [g]; simp
    have hopen : pushed = (c now).ls e.target → (c now).ls e.target ≠ none → s'.dirs (key (names0 ++ [e.name])) ≠ none := by
      intro h1 h2
      rw [h.dirs, if_pos ⟨by rw [h1]; exact h2, hj.symm⟩]
      simp
    -- the frame of the directory looked at
    have hentry : ∀ n target i, SubOf c md names0 d0 n target i → e.name = n → ∀ info, s.dirs (key names0) = some info →
        n ∈ info.dirs ++ ds ∧ s'.dirs (key (names0 ++ [n])) ≠ none := by
      intro n target i hsub hn info hinfo
      subst hn
      obtain ⟨g1, g2, g3⟩ := hsub.same _ e ⟨_, hls⟩ hmem rfl
      rcases kind_sub hkind hsub.visible g1 hsub.deep g2 with k | ⟨k1, k2⟩
      · obtain ⟨q1, q2⟩ := hk.known _ _ _ _ _ hsub
        obtain ⟨info2, q3, q4⟩ := q2 k
        rw [hinfo] at q3
        injection q3 with q3
        subst q3
        exact ⟨by simp [q4], hsome _ _ (subOf_stays hsub) (q1.1 k)⟩
      · exact ⟨by simp [k1], hopen k2 (by rw [g3]; exact hsub.opens now)⟩
    refine ⟨?_, ?_, ?_⟩
    · intro names d info' hstay hd'
      by_cases hnew : pushed ≠ none ∧ key names = join (key names0) e.name
      · obtain ⟨g1, i, hsub, g2, hn⟩ := hwhich names d hstay hnew.2 hnew.1
        obtain ⟨es, hes⟩ := Option.ne_none_iff_exists'.1 hnew.1
        have hls' : (c now).ls d = some es := by
          obtain ⟨_, _, _, k⟩ := kind_open hkind hnew.1
          rw [← (hsub.same _ e ⟨_, hls⟩ hmem rfl).2.2, ← k, hes]
        rw [h.dirs, if_pos hnew] at hd'
        injection hd' with hd'
        subst hd'
        have hstack : s'.stack = (key names, es) :: (key names0, rest) :: below := by
          rw [h.stack, hes, hnew.2]; rfl
        refine ⟨now, [], es, by omega, hls', ?_, ?_, by simp [infoOf], by simp⟩
        · intro r hr'
          rw [hstack] at hr'
          simp only [List.mem_cons, Prod.mk.injEq] at hr'
          rcases hr' with ⟨_, hr'⟩ | ⟨hr', _⟩ | hr'
          · exact hr'
          · exact absurd g1 (by rw [hr']; exact htop (key names0, some e :: rest) (by simp))
          · exact absurd g1 (htop _ (List.mem_cons_of_mem _ hr'))
        · exact .inr (by rw [hstack]; simp)
      · have hold : ∃ info, s.dirs (key names) = some info := by
          rw [h.dirs, if_neg hnew] at hd'
          split at hd'
          · cases hq : s.dirs (key names) with
            | none => rw [hq] at hd'; simp at hd'
            | some info => exact ⟨info, rfl⟩
          · exact ⟨info', hd'⟩
        obtain ⟨info, hd⟩ := hold
        obtain ⟨info2, m1, m2, m3, m4⟩ := hmono names d info hstay hd
        rw [hd'] at m1
        injection m1 with m1
        subst m1
        have hstack : ∀ r, (key names, r) ∈ s'.stack ↔ (key names, r) ∈ (key names0, rest) :: below := by
          intro r
          rw [h.stack]
          cases hp : pushed with
          | none => rfl
          | some es =>
            simp only [newFrame, List.cons_append, List.nil_append]
            rw [List.mem_cons (a := (key names, r)) (b := (join (key names0) e.name, es))]
            constructor
            · rintro (hc | hc)
              · injection hc with hc _
                exact absurd ⟨by rw [hp]; simp, hc⟩ hnew
              · exact hc
            · exact .inr
        obtain ⟨t, done, rest1, h0, h1, h2, h3, h4, h5⟩ := hk.seen names d info hstay hd
        by_cases hn : names = names0
        · subst hn
          have hd0 : d0 = d := (stays_reach hstay hr).1 rfl
          subst hd0
          have hrest : some e :: rest = rest1 := h2 _ (by rw [hst]; simp)
          subst hrest
          have hap := frames_apart hw hgood hlen hb
          refine ⟨t, done ++ [some e], rest, by omega, by simpa using h1, ?_, ?_, ?_, ?_⟩
          · intro r hr'
            rw [hstack] at hr'
            simp only [List.mem_cons, Prod.mk.injEq] at hr'
            rcases hr' with ⟨_, hr'⟩ | hr'
            · exact hr'
            · exact absurd rfl (hap _ hr')
          · exact .inr ((hstack rest).2 (by simp))
          · rw [m4 rfl, files_snoc fs md names.length done e hkind, h4]
          · rintro n target i hsub ⟨e', he', hn'⟩
            simp only [List.mem_append, List.mem_singleton, Option.some.injEq] at he'
            rcases he' with he' | rfl
            · obtain ⟨k1, k2⟩ := h5 n target i hsub ⟨e', he', hn'⟩
              exact ⟨m2 n k1, hsome _ _ (subOf_stays hsub) k2⟩
            · rw [m4 rfl]
              exact hentry n target i hsub hn' info hd
        · have hkey : key names ≠ key names0 := fun hc => hn (key_inj (stays_good hw hstay) hgood hc)
          have hst2 : ∀ r, (key names, r) ∈ s'.stack ↔ (key names, r) ∈ s.stack := by
            intro r
            rw [hstack, hst]
            simp [hkey]
          refine ⟨t, done, rest1, by omega, h1, fun r hr' => h2 r ((hst2 r).1 hr'), h3.imp id (hst2 _).2, by rw [m3 hn]; exact h4, ?_⟩
          intro n target i hsub he'
          obtain ⟨k1, k2⟩ := h5 n target i hsub he'
          exact ⟨m2 n k1, hsome _ _ (subOf_stays hsub) k2⟩
    · intro d hd
      exact hsome _ _ hd (hk.root d hd)
    · intro names d n target i hsub
      obtain ⟨q1, q2⟩ := hk.known names d n target i hsub
      have hstay := subOf_stays hsub
      rw [h.visited]
      by_cases hi : i ∈ vs
      · obtain ⟨k1, k2, k3, k4, k5⟩ := kind_visited hkind hi
        obtain ⟨rfl, hn⟩ := hsub.only _ _ e ⟨_, hls⟩ hmem k1 (.inl k2)
        have hnames : names0 = names := (stays_reach hsub.above hr).2 rfl
        subst hnames
        subst hn
        obtain ⟨info, hinfo⟩ := Option.ne_none_iff_exists'.1 (htop (key names0, some e :: rest) (by simp))
        obtain ⟨g1, g2⟩ := hentry _ _ _ hsub rfl info hinfo
        obtain ⟨info', m1, _, _, m4⟩ := hmono _ _ info hsub.above hinfo
        refine ⟨⟨fun _ => g2, fun _ => by simp [hi]⟩, fun _ => ⟨info', m1, ?_⟩⟩
        rw [m4 rfl]
        exact g1
      · have hv : i ∈ vs ++ s.visited ↔ i ∈ s.visited := by simp [hi]
        rw [hv]
        refine ⟨⟨fun hx => hsome _ _ hstay (q1.1 hx), ?_⟩, ?_⟩
        · intro hx
          refine q1.2 ?_
          rw [h.dirs] at hx
          split at hx
          · rename_i hnew
            obtain ⟨_, i2, hsub2, g2, hn⟩ := hwhich _ _ hstay hnew.2 hnew.1
            obtain ⟨rfl, rfl⟩ := snoc_inj hn
            have hd0 : d0 = d := (stays_reach hsub.above hr).1 rfl
            subst hd0
            have a1 := (hsub.same _ e ⟨_, hls⟩ hmem rfl).2.1
            have a2 := (hsub2.same _ e ⟨_, hls⟩ hmem rfl).2.1
            rw [a1] at a2
            injection a2 with a2
            subst a2
            exact absurd g2 hi
          · split at hx
            · intro hc; rw [hc] at hx; simp at hx
            · exact hx
        · intro hx
          obtain ⟨info, g1, g2⟩ := q2 hx
          obtain ⟨info', m1, m2, _, _⟩ := hmono _ _ info hsub.above g1
          exact ⟨info', m1, m2 n g2⟩

theorem kept_start (c : Changing) (fs : Bool) (md : Option Int) (hw : c.Named) : Kept c fs md 1 (start (c 0)) := by
  simp only [start]
  rcases push_cases (c 0) ⟨[], fun _ => none, []⟩ [] (c 0).root with ⟨h, e⟩ | ⟨es, h, e⟩
  · rw [e]
    refine ⟨by simp, ?_, by simp⟩
    intro d hd
    generalize hq : ([] : List Text) = q at hd
    cases hd with
    | root h1 _ => exact absurd h (h1 0)
    | sub _ _ _ _ _ _ _ _ => simp at hq
  · rw [e]
    refine ⟨?_, ?_, ?_⟩
    · intro names d info hd hp
      simp only at hp
      split at hp
      · rename_i hx
        have hn : names = [] := (key_nil (stays_good hw hd)).1 hx
        subst hn
        injection hp with hp
        subst hp
        have hroot : d = (c 0).root := by
          generalize hq : ([] : List Text) = q at hd
          cases hd with
          | root _ _ => rfl
          | sub _ _ _ _ _ _ _ _ => simp at hq
        subst hroot
        exact ⟨0, [], es, by omega, h, by simp [key, joinWith], .inr (by simp [key, joinWith]), by simp [infoOf], by simp⟩
      · simp at hp
    · intro d _
      simp [key, joinWith]
    · intro names d n target i hsub
      have hg := stays_good hw (subOf_stays hsub)
      have hne : key (names ++ [n]) ≠ [] := fun hc => by
        have := (key_nil hg).1 hc
        simp at this
      simp [hne]

theorem kept_roundC {c : Changing} {fs : Bool} {md : Option Int} (hw : c.Named) (t : Nat) (s : State) (path : Text)
    (scan : List (Option Entry)) (below : List (Text × List (Option Entry))) (s' : State) (hst : s.stack = (path, scan) :: below)
    (hs : SoundAt c fs md t s ∧ Kept c fs md t s) (h : round (c t) fs md s path scan below = .go s') :
    SoundAt c fs md (t + 1) s' ∧ Kept c fs md (t + 1) s' := by
  refine ⟨sound_roundC hw t s path scan below s' hst hs.1 h, ?_⟩
  rcases round_go h with ⟨rfl, rfl⟩ | ⟨e, rest, ds, fls, vs, pushed, rfl, hk⟩
  · exact kept_pop hst hs.2
  · exact kept_step hw hst hs.1 hs.2 hk

/-- In the end a directory that stays has been listed, as it was at one moment. -/
theorem kept_done {c : Changing} {fs : Bool} {md : Option Int} {now : Nat} {s : State} (hst : s.stack = []) (hk : Kept c fs md now s) {names : List Text}
    {d : Nat} (h : Stays c md names d) : ∃ info t es, s.dirs (key names) = some info ∧ t < now ∧ (c t).ls d = some es ∧
      info.files = (infoOf fs md names.length es).files ∧ ∀ n target, Stays c md (names ++ [n]) target → n ∈ info.dirs := by
  have hall : ∀ names d info, Stays c md names d → s.dirs (key names) = some info → ∃ t es, t < now ∧ (c t).ls d = some es ∧
      info.files = (infoOf fs md names.length es).files ∧
      ∀ n target, Stays c md (names ++ [n]) target → n ∈ info.dirs ∧ s.dirs (key (names ++ [n])) ≠ none := by
    intro names d info h hd
    obtain ⟨t, done, rest, h0, h1, _, h3, h4, h5⟩ := hk.seen names d info h hd
    rw [hst] at h3
    have hrest : rest = [] := by simpa using h3
    subst hrest
    rw [List.append_nil] at h1
    refine ⟨t, done, h0, h1, h4, ?_⟩
    intro n target hn
    obtain ⟨d', i, hsub⟩ := stays_sub hn
    have := stays_fun hsub.above h
    subst this
    exact h5 n target i hsub (hsub.there _ ⟨t, h1⟩)
  have hex : s.dirs (key names) ≠ none := by
    induction h with
    | root h1 h2 => exact hk.root _ (.root h1 h2)
    | @sub names d n target i h1 h2 h3 h4 h5 h6 h7 h8 ih =>
      obtain ⟨info, hd⟩ := Option.ne_none_iff_exists'.1 ih
      obtain ⟨_, _, _, _, _, g⟩ := hall names d info h1 hd
      exact (g n target (.sub h1 h2 h3 h4 h5 h6 h7 h8)).2
  obtain ⟨info, hd⟩ := Option.ne_none_iff_exists'.1 hex
  obtain ⟨t, es, g0, g1, g2, g3⟩ := hall names d info h hd
  exact ⟨info, t, es, hd, g0, g1, g2, fun n target hn => (g3 n target hn).1⟩

end Verif.Scan
