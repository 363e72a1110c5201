import Verif.Proofs.ScanFull
/-!
Directories that can be reached in several ways (C146).
-/
namespace Verif.Scan
open Verif Path

/-- What has been done about an entry of the directory at `names`. -/
def Handled (fs : Bool) (md : Option Int) (s : State) (names : List Text) (e : Entry) : Prop :=
  e.visible → (e.isDir = true → deeper md names.length → ∃ i ∈ s.visited, e.inode = some i) ∧
    (e.isDir = false → e.isFile = true → ∃ info, s.dirs (key names) = some info ∧ fileInfo fs e ∈ info.files)

/-- The state of a scan of directories that may be reached in several ways. -/
structure Dfs (w : World) (fs : Bool) (md : Option Int) (s : State) (g : List (List Text × List (Option Entry))) : Prop where
  stack : s.stack = g.map (fun f => (key f.1, f.2))
  lens : ∀ a f b, g = a ++ f :: b → f.1.length = b.length
  frames : ∀ f ∈ g, ∃ d done, Reach w md f.1 d ∧ w.ls d = some (done ++ f.2) ∧ ∀ e, some e ∈ done → Handled fs md s f.1 e
  listed : ∀ f ∈ g, s.dirs (key f.1) ≠ none
  seen : ∀ names d es, Reach w md names d → w.ls d = some es → s.dirs (key names) ≠ none →
    (∃ rest, (names, rest) ∈ g) ∨ ∀ e, some e ∈ es → Handled fs md s names e
  vis : ∀ i ∈ s.visited, ∃ names d es e, Reach w md names d ∧ w.ls d = some es ∧ some e ∈ es ∧ e.visible ∧ e.isDir = true ∧
    deeper md names.length ∧ e.inode = some i ∧ (w.ls e.target ≠ none → s.dirs (key (names ++ [e.name])) ≠ none)
  fresh : ∀ f ∈ g, ∀ e, some e ∈ f.2 → s.dirs (key (f.1 ++ [e.name])) = none
  par : ∀ names n, Good (names ++ [n]) → s.dirs (key (names ++ [n])) ≠ none → s.dirs (key names) ≠ none
  root : w.ls w.root ≠ none → s.dirs (key []) ≠ none

theorem Handled.mono {fs md s s' names e} (h : Handled fs md s names e) (hv : ∀ i ∈ s.visited, i ∈ s'.visited)
    (hd : ∀ info, s.dirs (key names) = some info → ∃ info', s'.dirs (key names) = some info' ∧ ∀ f ∈ info.files, f ∈ info'.files) :
    Handled fs md s' names e := by
  intro hvis
  obtain ⟨h1, h2⟩ := h hvis
  refine ⟨fun a b => ?_, fun a b => ?_⟩
  · obtain ⟨i, hi, e⟩ := h1 a b
    exact ⟨i, hv i hi, e⟩
  · obtain ⟨info, hi, hf⟩ := h2 a b
    obtain ⟨info', hi', hf'⟩ := hd info hi
    exact ⟨info', hi', hf' _ hf⟩

/-- The entry on top has been looked at. -/
theorem Dfs.next {w : World} {fs : Bool} {md : Option Int} {s : State} {names : List Text} {e : Entry}
    {rest : List (Option Entry)} {g : List (List Text × List (Option Entry))}
    (h : Dfs w fs md s ((names, some e :: rest) :: g)) (s' : State) (hst : s'.stack = (key names, rest) :: g.map (fun f => (key f.1, f.2)))
    (hd : ∀ p info, s.dirs p = some info → ∃ info', s'.dirs p = some info' ∧ ∀ f ∈ info.files, f ∈ info'.files)
    (hd' : ∀ p, s'.dirs p ≠ none → s.dirs p ≠ none)
    (hv : s'.visited = s.visited) (he : Handled fs md s' names e) :
    Dfs w fs md s' ((names, rest) :: g) := by
  have hmono : ∀ n e', Handled fs md s n e' → Handled fs md s' n e' := fun n e' hh => hh.mono (fun i hi => by rw [hv]; exact hi) (hd _)
  have hup : ∀ p, s.dirs p ≠ none → s'.dirs p ≠ none := by
    intro p hp
    cases hx : s.dirs p with
    | none => exact absurd hx hp
    | some info => obtain ⟨i', h1, _⟩ := hd p info hx; rw [h1]; simp
  refine ⟨by simpa using hst, ?_, ?_, ?_, ?_, ?_, ?_, fun n x hg hx => hup _ (h.par n x hg (hd' _ hx)), fun hr => hup _ (h.root hr)⟩
  · intro a f b hab
    cases a with
    | nil =>
      simp only [List.nil_append, List.cons.injEq] at hab
      obtain ⟨rfl, rfl⟩ := hab
      exact h.lens [] (names, some e :: rest) g rfl
    | cons x a =>
      simp only [List.cons_append, List.cons.injEq] at hab
      exact h.lens ((names, some e :: rest) :: a) f b (by rw [hab.2]; simp)
  · intro f hf
    simp only [List.mem_cons] at hf
    rcases hf with rfl | hf
    · obtain ⟨d, done, h1, h2, h3⟩ := h.frames _ (List.mem_cons_self ..)
      refine ⟨d, done ++ [some e], h1, by simpa using h2, ?_⟩
      intro e' he'
      simp only [List.mem_append, List.mem_singleton, Option.some.injEq] at he'
      rcases he' with he' | rfl
      · exact hmono _ _ (h3 e' he')
      · exact he
    · obtain ⟨d, done, h1, h2, h3⟩ := h.frames f (List.mem_cons_of_mem _ hf)
      exact ⟨d, done, h1, h2, fun e' he' => hmono _ _ (h3 e' he')⟩
  · intro f hf
    simp only [List.mem_cons] at hf
    rcases hf with rfl | hf
    · exact hup _ (h.listed (names, some e :: rest) (by simp))
    · exact hup _ (h.listed f (List.mem_cons_of_mem _ hf))
  · intro n d es hr hls hx
    rcases h.seen n d es hr hls (hd' _ hx) with ⟨r, hm⟩ | hh
    · left
      simp only [List.mem_cons, Prod.mk.injEq] at hm
      rcases hm with ⟨rfl, rfl⟩ | hm
      · exact ⟨rest, by simp⟩
      · exact ⟨r, by simp [hm]⟩
    · exact .inr fun e' he' => hmono _ _ (hh e' he')
  · intro i hi
    rw [hv] at hi
    obtain ⟨n, d, es, e', h1, h2, h3, h4, h5, h6, h7, h8⟩ := h.vis i hi
    exact ⟨n, d, es, e', h1, h2, h3, h4, h5, h6, h7, fun hx => hup _ (h8 hx)⟩
  · intro f hf e' he'
    refine Classical.byContradiction fun hx => ?_
    have := hd' _ hx
    simp only [List.mem_cons] at hf
    rcases hf with rfl | hf
    · exact this (h.fresh _ (List.mem_cons_self ..) e' (List.mem_cons_of_mem _ he'))
    · exact this (h.fresh f (List.mem_cons_of_mem _ hf) e' he')

/-- A new directory is entered, or cannot be read. -/
theorem Dfs.into {w : World} {fs : Bool} {md : Option Int} (hw : w.Named) (hdis : w.Distinct) {s : State} {names : List Text} {e : Entry}
    {rest : List (Option Entry)} {g : List (List Text × List (Option Entry))}
    (h : Dfs w fs md s ((names, some e :: rest) :: g)) (hvi : e.visible) (hdir : e.isDir = true) (hdeep : deeper md names.length)
    {i : Nat} (hi : e.inode = some i) :
    ∃ g', Dfs w fs md (push w { addDir { s with stack := (key names, rest) :: g.map (fun f => (key f.1, f.2)) } (key names) e.name with
      visited := i :: s.visited } (key (names ++ [e.name])) e.target) g' := by
  obtain ⟨d, done, hr, hls, hdone⟩ := h.frames _ (List.mem_cons_self ..)
  simp only at hr hls hdone
  have hmem : some e ∈ done ++ some e :: rest := by simp
  have hname := hw _ _ _ hls hmem
  have hgood := reach_good hw hr
  have hgood' : Good (names ++ [e.name]) := good_append hgood hname
  have hlen : names.length = g.length := h.lens [] (names, some e :: rest) g rfl
  have hfresh : s.dirs (key (names ++ [e.name])) = none := h.fresh _ (List.mem_cons_self ..) e (by simp)
  have hpar : s.dirs (key names) ≠ none := h.listed _ (List.mem_cons_self ..)
  -- the state after `addDir`
  generalize hs1 : ({ addDir { s with stack := (key names, rest) :: g.map (fun f => (key f.1, f.2)) } (key names) e.name with
      visited := i :: s.visited } : State) = s1
  have e1 : s1.stack = (key names, rest) :: g.map (fun f => (key f.1, f.2)) := by rw [← hs1]; rfl
  have e2 : s1.visited = i :: s.visited := by rw [← hs1]
  have e3 : ∀ p, s1.dirs p = if p = key names then (s.dirs p).map (fun i => { i with dirs := i.dirs ++ [e.name] }) else s.dirs p := by
    rw [← hs1]; intro p; rfl
  have d1 : ∀ p info, s.dirs p = some info → ∃ info', s1.dirs p = some info' ∧ ∀ f ∈ info.files, f ∈ info'.files := by
    intro p info hp
    rw [e3]
    split
    · exact ⟨{ info with dirs := info.dirs ++ [e.name] }, by rw [hp]; rfl, fun f hf => hf⟩
    · exact ⟨info, hp, fun f hf => hf⟩
  have d2 : ∀ p, s1.dirs p ≠ none → s.dirs p ≠ none := by
    intro p hp
    rw [e3] at hp
    split at hp
    · intro hx; rw [hx] at hp; exact hp rfl
    · exact hp
  have d3 : ∀ p, s.dirs p ≠ none → s1.dirs p ≠ none := by
    intro p hp
    cases hx : s.dirs p with
    | none => exact absurd hx hp
    | some info => obtain ⟨i', h1, _⟩ := d1 p info hx; rw [h1]; simp
  -- the two cases
  rcases push_cases w s1 (key (names ++ [e.name])) e.target with ⟨hn, e4⟩ | ⟨es, hes, e4⟩
  · rw [e4]
    refine ⟨(names, rest) :: g, ?_⟩
    have hmono : ∀ n e', Handled fs md s n e' → Handled fs md s1 n e' := fun n e' hh =>
      hh.mono (fun j hj => by rw [e2]; exact List.mem_cons_of_mem _ hj) (d1 _)
    have he : Handled fs md s1 names e := fun _ => ⟨fun _ _ => ⟨i, by rw [e2]; simp, hi⟩, fun hx => by rw [hdir] at hx; exact nomatch hx⟩
    refine ⟨by simpa using e1, ?_, ?_, ?_, ?_, ?_, ?_, fun n x hg hx => d3 _ (h.par n x hg (d2 _ hx)), fun hr => d3 _ (h.root hr)⟩
    · intro a f b hab
      cases a with
      | nil =>
        simp only [List.nil_append, List.cons.injEq] at hab
        obtain ⟨rfl, rfl⟩ := hab
        exact hlen
      | cons x a =>
        simp only [List.cons_append, List.cons.injEq] at hab
        exact h.lens ((names, some e :: rest) :: a) f b (by rw [hab.2]; simp)
    · intro f hf
      simp only [List.mem_cons] at hf
      rcases hf with rfl | hf
      · refine ⟨d, done ++ [some e], hr, by simpa using hls, ?_⟩
        intro e' he'
        simp only [List.mem_append, List.mem_singleton, Option.some.injEq] at he'
        rcases he' with he' | rfl
        · exact hmono _ _ (hdone e' he')
        · exact he
      · obtain ⟨d, done, h1, h2, h3⟩ := h.frames f (List.mem_cons_of_mem _ hf)
        exact ⟨d, done, h1, h2, fun e' he' => hmono _ _ (h3 e' he')⟩
    · intro f hf
      simp only [List.mem_cons] at hf
      rcases hf with rfl | hf
      · exact d3 _ hpar
      · exact d3 _ (h.listed f (List.mem_cons_of_mem _ hf))
    · intro n d' es' hr' hls' hx
      rcases h.seen n d' es' hr' hls' (d2 _ hx) with ⟨r, hm⟩ | hh
      · left
        simp only [List.mem_cons, Prod.mk.injEq] at hm
        rcases hm with ⟨rfl, rfl⟩ | hm
        · exact ⟨rest, by simp⟩
        · exact ⟨r, by simp [hm]⟩
      · exact .inr fun e' he' => hmono _ _ (hh e' he')
    · intro j hj
      rw [e2] at hj
      rcases List.mem_cons.1 hj with rfl | hj
      · exact ⟨names, d, _, e, hr, hls, hmem, hvi, hdir, hdeep, hi, fun hx => absurd hn hx⟩
      · obtain ⟨n, d', es', e', h1, h2, h3, h4, h5, h6, h7, h8⟩ := h.vis j hj
        exact ⟨n, d', es', e', h1, h2, h3, h4, h5, h6, h7, fun hx => d3 _ (h8 hx)⟩
    · intro f hf e' he'
      refine Classical.byContradiction fun hx => ?_
      have := d2 _ hx
      simp only [List.mem_cons] at hf
      rcases hf with rfl | hf
      · exact this (h.fresh _ (List.mem_cons_self ..) e' (List.mem_cons_of_mem _ he'))
      · exact this (h.fresh f (List.mem_cons_of_mem _ hf) e' he')
  · rw [e4]
    have hreach : Reach w md (names ++ [e.name]) e.target := .sub hr hls hmem hvi hdir hdeep (by rw [hes]; simp)
    refine ⟨(names ++ [e.name], es) :: (names, rest) :: g, ?_⟩
    generalize hs2 : State.mk ((key (names ++ [e.name]), es) :: s1.stack)
      (fun p => if p = key (names ++ [e.name]) then some ⟨[], []⟩ else s1.dirs p) s1.visited = s2
    have f1 : s2.stack = (key (names ++ [e.name]), es) :: (key names, rest) :: g.map (fun f => (key f.1, f.2)) := by rw [← hs2, ← e1]
    have f2 : s2.visited = i :: s.visited := by rw [← hs2]; exact e2
    have f3 : ∀ p, s2.dirs p = if p = key (names ++ [e.name]) then some ⟨[], []⟩ else s1.dirs p := by rw [← hs2]; intro p; rfl
    have g1 : ∀ p info, s.dirs p = some info → ∃ info', s2.dirs p = some info' ∧ ∀ f ∈ info.files, f ∈ info'.files := by
      intro p info hp
      rw [f3, if_neg (by rintro rfl; rw [hfresh] at hp; exact nomatch hp)]
      exact d1 p info hp
    have g2 : ∀ p, s2.dirs p ≠ none → p ≠ key (names ++ [e.name]) → s.dirs p ≠ none := by
      intro p hp hne
      rw [f3, if_neg hne] at hp
      exact d2 _ hp
    have g3 : ∀ p, s.dirs p ≠ none → s2.dirs p ≠ none := by
      intro p hp
      cases hx : s.dirs p with
      | none => exact absurd hx hp
      | some info => obtain ⟨i', h1, _⟩ := g1 p info hx; rw [h1]; simp
    have g4 : s2.dirs (key (names ++ [e.name])) ≠ none := by rw [f3, if_pos rfl]; simp
    have hmono : ∀ n e', Handled fs md s n e' → Handled fs md s2 n e' := fun n e' hh =>
      hh.mono (fun j hj => by rw [f2]; exact List.mem_cons_of_mem _ hj) (g1 _)
    have he : Handled fs md s2 names e := fun _ => ⟨fun _ _ => ⟨i, by rw [f2]; simp, hi⟩, fun hx => by rw [hdir] at hx; exact nomatch hx⟩
    refine ⟨by simpa using f1, ?_, ?_, ?_, ?_, ?_, ?_, ?_, fun hr => g3 _ (h.root hr)⟩
    · intro a f b hab
      cases a with
      | nil =>
        simp only [List.nil_append, List.cons.injEq] at hab
        obtain ⟨rfl, rfl⟩ := hab
        simp [hlen]
      | cons x a =>
        simp only [List.cons_append, List.cons.injEq] at hab
        cases a with
        | nil =>
          simp only [List.nil_append, List.cons.injEq] at hab
          obtain ⟨_, rfl, rfl⟩ := hab
          exact hlen
        | cons y a =>
          simp only [List.cons_append, List.cons.injEq] at hab
          exact h.lens ((names, some e :: rest) :: a) f b (by rw [hab.2.2]; simp)
    · intro f hf
      simp only [List.mem_cons] at hf
      rcases hf with rfl | rfl | hf
      · exact ⟨e.target, [], hreach, by simpa using hes, fun e' he' => nomatch he'⟩
      · refine ⟨d, done ++ [some e], hr, by simpa using hls, ?_⟩
        intro e' he'
        simp only [List.mem_append, List.mem_singleton, Option.some.injEq] at he'
        rcases he' with he' | rfl
        · exact hmono _ _ (hdone e' he')
        · exact he
      · obtain ⟨d, done, h1, h2, h3⟩ := h.frames f (List.mem_cons_of_mem _ hf)
        exact ⟨d, done, h1, h2, fun e' he' => hmono _ _ (h3 e' he')⟩
    · intro f hf
      simp only [List.mem_cons] at hf
      rcases hf with rfl | rfl | hf
      · exact g4
      · exact g3 _ hpar
      · exact g3 _ (h.listed f (List.mem_cons_of_mem _ hf))
    · intro n d' es' hr' hls' hx
      by_cases hn : n = names ++ [e.name]
      · subst hn; exact .inl ⟨es, by simp⟩
      · have hk : key n ≠ key (names ++ [e.name]) := fun hk => hn (key_inj (reach_good hw hr') hgood' hk)
        rcases h.seen n d' es' hr' hls' (g2 _ hx hk) with ⟨r, hm⟩ | hh
        · left
          simp only [List.mem_cons, Prod.mk.injEq] at hm
          rcases hm with ⟨rfl, rfl⟩ | hm
          · exact ⟨rest, by simp⟩
          · exact ⟨r, by simp [hm]⟩
        · exact .inr fun e' he' => hmono _ _ (hh e' he')
    · intro j hj
      rw [f2] at hj
      rcases List.mem_cons.1 hj with rfl | hj
      · exact ⟨names, d, _, e, hr, hls, hmem, hvi, hdir, hdeep, hi, fun _ => g4⟩
      · obtain ⟨n, d', es', e', h1, h2, h3, h4, h5, h6, h7, h8⟩ := h.vis j hj
        exact ⟨n, d', es', e', h1, h2, h3, h4, h5, h6, h7, fun hx => g3 _ (h8 hx)⟩
    · intro f hf e' he'
      refine Classical.byContradiction fun hx => ?_
      simp only [List.mem_cons] at hf
      rcases hf with rfl | rfl | hf
      · -- below the new directory nothing is listed
        have hname' := hw _ _ _ hes he'
        have hg2 : Good (names ++ [e.name] ++ [e'.name]) := good_append hgood' hname'
        have hne : key (names ++ [e.name] ++ [e'.name]) ≠ key (names ++ [e.name]) := fun hk => by
          have := congrArg List.length (key_inj hg2 hgood' hk)
          simp at this
        exact h.par _ _ hg2 (g2 _ hx hne) hfresh
      · have hne' : e'.name ≠ e.name := by
          intro hn
          have hp := hdis _ _ hls
          have hsub : [some e, some e'].Sublist (done ++ some e :: rest) :=
            List.Sublist.trans (List.Sublist.cons_cons _ (List.singleton_sublist.2 he')) (List.sublist_append_right _ _)
          exact List.pairwise_iff_forall_sublist.1 hp hsub e e' rfl rfl hn.symm
        have hname' := hw _ _ _ hls (show some e' ∈ done ++ some e :: rest by simp [he'])
        have hne : key (names ++ [e'.name]) ≠ key (names ++ [e.name]) := fun hk => by
          have := List.append_inj' (key_inj (good_append hgood hname') hgood' hk) rfl
          exact hne' (by simpa using this.2)
        exact g2 _ hx hne (h.fresh _ (List.mem_cons_self ..) e' (List.mem_cons_of_mem _ he'))
      · obtain ⟨df, donef, k1, k2, _⟩ := h.frames f (List.mem_cons_of_mem _ hf)
        have hname' := hw _ _ _ k2 (show some e' ∈ donef ++ f.2 by simp [he'])
        have hne : key (f.1 ++ [e'.name]) ≠ key (names ++ [e.name]) := fun hk => by
          have := List.append_inj' (key_inj (good_append (reach_good hw k1) hname') hgood' hk) rfl
          exact lens_inj h.lens rfl hf this.1
        exact g2 _ hx hne (h.fresh f (List.mem_cons_of_mem _ hf) e' he')
    · intro n x hg hx
      by_cases hn : n ++ [x] = names ++ [e.name]
      · obtain ⟨rfl, _⟩ := List.append_inj' hn rfl
        exact g3 _ hpar
      · have hk : key (n ++ [x]) ≠ key (names ++ [e.name]) := fun hk => hn (key_inj hg hgood' hk)
        exact g3 _ (h.par n x hg (g2 _ hx hk))

theorem dfs_round {w : World} {fs : Bool} {md : Option Int} (hw : w.Named) (hdis : w.Distinct) (hin : w.Inodes)
    {s s' : State} {path : Text} {scan : List (Option Entry)} {below : List (Text × List (Option Entry))}
    (hst : s.stack = (path, scan) :: below) {g : List (List Text × List (Option Entry))} (hs : Dfs w fs md s g)
    (h : round w fs md s path scan below = .go s') : ∃ g', Dfs w fs md s' g' := by
  have hg := hs.stack
  rw [hst] at hg
  cases g with
  | nil => simp at hg
  | cons f g =>
    obtain ⟨names, sc⟩ := f
    simp only [List.map_cons, List.cons.injEq, Prod.mk.injEq] at hg
    obtain ⟨⟨rfl, rfl⟩, rfl⟩ := hg
    have hlen : names.length = g.length := hs.lens [] (names, scan) g rfl
    obtain ⟨d, done, hr, hls, hdone⟩ := hs.frames _ (List.mem_cons_self ..)
    simp only at hr hls hdone
    cases scan with
    | nil =>
      simp only [round, Out.go.injEq] at h
      subst h
      refine ⟨g, rfl, ?_, ?_, ?_, ?_, ?_, ?_, hs.par, hs.root⟩
      · intro a f b hab; exact hs.lens ((names, []) :: a) f b (by rw [hab]; simp)
      · intro f hf; exact hs.frames f (List.mem_cons_of_mem _ hf)
      · intro f hf; exact hs.listed f (List.mem_cons_of_mem _ hf)
      · intro n d' es hr' hls' hx
        rcases hs.seen n d' es hr' hls' hx with ⟨r, hm⟩ | hh
        · simp only [List.mem_cons, Prod.mk.injEq] at hm
          rcases hm with ⟨rfl, rfl⟩ | hm
          · right
            have := reach_fun hdis hr hr'
            subst this
            rw [hls] at hls'
            injection hls' with hls'
            subst hls'
            intro e' he'
            exact hdone e' (by simpa using he')
          · exact .inl ⟨r, hm⟩
        · exact .inr hh
      · exact hs.vis
      · intro f hf; exact hs.fresh f (List.mem_cons_of_mem _ hf)
    | cons o rest =>
      cases o with
      | none => simp [round] at h
      | some e =>
        have hmem : some e ∈ done ++ some e :: rest := by simp
        have hname := hw _ _ _ hls hmem
        have hgood := reach_good hw hr
        have hplain : Handled fs md s names e → ∃ g', Dfs w fs md
            { s with stack := (key names, rest) :: g.map (fun f => (key f.1, f.2)) } g' := fun hh =>
          ⟨_, hs.next _ rfl (fun p info hp => ⟨info, hp, fun _ hf => hf⟩) (fun _ hp => hp) rfl hh⟩
        simp only [round] at h
        split at h
        · rename_i hhid
          injection h with h
          subst h
          exact hplain fun hv => absurd hhid hv
        · rename_i hhid
          split at h
          · rename_i hdir
            have hnf : e.isDir = false → e.isFile = true → ∃ info, s.dirs (key names) = some info ∧ fileInfo fs e ∈ info.files :=
              fun hx => by rw [hdir] at hx; exact nomatch hx
            split at h
            · rename_i hdeep
              injection h with h
              subst h
              have hnd : ¬ deeper md names.length := by
                rw [← deep_iff]
                simpa [hlen] using hdeep
              exact hplain fun _ => ⟨fun _ hx => absurd hx hnd, hnf⟩
            · rename_i hdeep
              have hdeep' : deeper md names.length := by
                rw [← deep_iff]
                simpa [hlen] using hdeep
              split at h
              · rename_i hn; exact absurd hn (hin _ _ _ hls hmem hdir)
              · rename_i i hi
                split at h
                · rename_i hv
                  injection h with h
                  subst h
                  exact hplain fun _ => ⟨fun _ _ => ⟨i, by simpa using hv, hi⟩, hnf⟩
                · injection h with h
                  subst h
                  rw [join_key hgood hname]
                  exact hs.into hw hdis hhid hdir hdeep' hi
          · rename_i hdir
            have hdir' : e.isDir = false := by simpa using hdir
            split at h
            · rename_i hfile
              injection h with h
              subst h
              have hp := hs.listed _ (List.mem_cons_self ..)
              simp only at hp
              refine ⟨_, hs.next _ rfl ?_ ?_ rfl ?_⟩
              · intro p info hx
                simp only [addFile]
                split
                · rw [hx]
                  exact ⟨_, rfl, fun f hf => by simp [hf]⟩
                · exact ⟨info, hx, fun f hf => hf⟩
              · intro p hx; exact addFile_none _ _ p _ hx
              · intro _
                refine ⟨fun hx => by rw [hdir'] at hx; exact (nomatch hx), fun _ _ => ?_⟩
                cases hx : s.dirs (key names) with
                | none => exact absurd hx hp
                | some info =>
                  simp only [addFile, if_true, hx]
                  exact ⟨_, rfl, by simp⟩
            · rename_i hfile
              injection h with h
              subst h
              exact hplain fun _ => ⟨fun hx => by rw [hdir'] at hx; exact (nomatch hx), fun _ hx => absurd hx hfile⟩

theorem dfs_start {w : World} (hw : w.Named) (fs : Bool) (md : Option Int) : ∃ g, Dfs w fs md (start w) g := by
  simp only [start]
  have hk0 : key [] = [] := rfl
  rcases push_cases w ⟨[], fun _ => none, []⟩ [] w.root with ⟨hn, e⟩ | ⟨es, hes, e⟩
  · rw [e]
    exact ⟨[], rfl, by simp, by simp, by simp, by simp, by simp, by simp, by simp, fun hx => absurd hn hx⟩
  · rw [e]
    have hr : Reach w md [] w.root := .root (by rw [hes]; simp)
    have hne : ∀ (n : List Text) (x : Text), Good (n ++ [x]) → key (n ++ [x]) ≠ [] := fun n x hg hk => by simpa using (key_nil hg).1 hk
    refine ⟨[([], es)], rfl, ?_, ?_, ?_, ?_, by simp, ?_, ?_, fun _ => by simp [hk0]⟩
    · intro a f b hab
      cases a with
      | nil => simp only [List.nil_append, List.cons.injEq] at hab; obtain ⟨rfl, rfl⟩ := hab; rfl
      | cons x a => simp at hab
    · intro f hf
      rw [List.mem_singleton.1 hf]
      exact ⟨w.root, [], hr, by simpa using hes, fun e' he' => nomatch he'⟩
    · intro f hf
      rw [List.mem_singleton.1 hf]
      simp [hk0]
    · intro n d es' hr' _ hx
      simp only at hx
      split at hx
      · rename_i hk
        obtain rfl := (key_nil (reach_good hw hr')).1 hk
        exact .inl ⟨es, by simp⟩
      · exact absurd rfl hx
    · intro f hf e' he'
      rw [List.mem_singleton.1 hf] at he' ⊢
      have := hne [] e'.name (good_append (by simp [Good]) (hw _ _ _ hes he'))
      simp only [this, if_false]
    · intro n x hg hx
      simp only [hne n x hg, if_false] at hx
      exact absurd rfl hx

theorem dfs_loop {w : World} {fs : Bool} {md : Option Int} (hw : w.Named) (hdis : w.Distinct) (hin : w.Inodes) (fuel : Nat) {s : State} {g}
    (hs : Dfs w fs md s g) {dirs : Text → Option Info} (h : loop w fs md fuel s = .done dirs) :
    ∃ s', Dfs w fs md s' [] ∧ s'.dirs = dirs := by
  induction fuel generalizing s g with
  | zero => simp [loop] at h
  | succ fuel ih =>
    simp only [loop] at h
    split at h
    · rename_i hst
      injection h with h
      have hg := hs.stack
      rw [hst] at hg
      have hg : g = [] := by simpa using hg.symm
      subst hg
      exact ⟨s, hs, h⟩
    · rename_i path scan below hst
      split at h
      · simp at h
      · rename_i s' hr
        obtain ⟨g', hg'⟩ := dfs_round hw hdis hin hst hs hr
        exact ih hg' h

/-- Every directory that can be reached is listed somewhere, if no listed directory lies at the last level. -/
theorem dfs_done {w : World} {fs : Bool} {md : Option Int} (hino : w.Known) {s : State} (hs : Dfs w fs md s [])
    (hlast : ∀ names d, Reach w md names d → s.dirs (key names) ≠ none → deeper md names.length)
    {names : List Text} {d : Nat} (hr : Reach w none names d) :
    ∃ names', Reach w md names' d ∧ s.dirs (key names') ≠ none := by
  induction hr with
  | root h => exact ⟨[], .root h, hs.root h⟩
  | sub h1 h2 h3 h4 h5 h6 h7 ih =>
    obtain ⟨n, hn, hx⟩ := ih
    rename_i names0 d0 es e
    rcases hs.seen n d0 es hn h2 hx with ⟨r, hm⟩ | hh
    · exact nomatch hm
    · obtain ⟨i, hi, hie⟩ := (hh e h3 h4).1 h5 (hlast n d0 hn hx)
      obtain ⟨n', d', es', e', k1, k2, k3, k4, k5, k6, k7, k8⟩ := hs.vis i hi
      have ht : e.target = e'.target := hino _ _ _ _ _ _ h2 h3 k2 k3 h5 k5 (hie.trans k7.symm)
      rw [ht] at h7 ⊢
      exact ⟨n' ++ [e'.name], .sub k1 k2 k3 k4 k5 k6 h7, k8 h7⟩

end Verif.Scan
