import Verif.Proofs.Scan
/-!
Completeness of the scan (C64).
-/
namespace Verif.Scan
open Verif Path

/-- The directories entered, each with the entries already seen there. -/
abbrev Seen := List Text → Option (Nat × List (Option Entry))

def Seen.set (P : Seen) (names : List Text) (v : Nat × List (Option Entry)) : Seen := fun n => if n = names then some v else P n

theorem Seen.set_self (P : Seen) (names : List Text) (v) : P.set names v names = some v := by simp [Seen.set]

theorem Seen.set_ne (P : Seen) {names n : List Text} (v) (h : n ≠ names) : P.set names v n = P n := by simp [Seen.set, h]

/-- The state of a scan, told by what has been seen.  `hole` is a directory that must be entered next. -/
structure Full (w : World) (fs : Bool) (md : Option Int) (s : State) (P : Seen) (g : List (List Text × List (Option Entry)))
    (hole : Option (List Text)) : Prop where
  stack : s.stack = g.map (fun f => (key f.1, f.2))
  lens : ∀ a f b, g = a ++ f :: b → f.1.length = b.length
  frames : ∀ f ∈ g, ∃ d done, P f.1 = some (d, done) ∧ w.ls d = some (done ++ f.2)
  reach : ∀ names d done, P names = some (d, done) → Reach w md names d ∧ (w.ls d = some done ∨ ∃ rest, (names, rest) ∈ g)
  dirs : ∀ names, Good names → s.dirs (key names) = (P names).map (fun x => infoOf fs md names.length x.2)
  keys : ∀ p, s.dirs p ≠ none → ∃ names, Good names ∧ p = key names
  closed : ∀ names d done e, P names = some (d, done) → some e ∈ done → e.visible → e.isDir = true → deeper md names.length →
    w.ls e.target ≠ none → P (names ++ [e.name]) ≠ none ∨ hole = some (names ++ [e.name])
  vis : ∀ i ∈ s.visited, ∃ names d done e, P names = some (d, done) ∧ some e ∈ done ∧ e.isDir = true ∧ e.inode = some i
  par : ∀ names n, P (names ++ [n]) ≠ none → ∃ d done e, P names = some (d, done) ∧ some e ∈ done ∧ e.name = n
  root : w.ls w.root ≠ none → P [] ≠ none

theorem two_split {α : Type} {a b : α} {done rest : List α} (ha : a ∈ done) : [a, b].Sublist (done ++ b :: rest) := by
  have h1 : [a].Sublist done := List.singleton_sublist.2 ha
  have h2 : [b].Sublist (b :: rest) := List.Sublist.cons₂ _ (List.nil_sublist _)
  exact h1.append h2

theorem lens_inj {g : List (List Text × List (Option Entry))} (hl : ∀ a f b, g = a ++ f :: b → f.1.length = b.length)
    {f : List Text × List (Option Entry)} {g' : List (List Text × List (Option Entry))} (hg : g = f :: g') {x} (hx : x ∈ g') : x.1 ≠ f.1 := by
  intro e
  have h1 := hl [] f g' hg
  obtain ⟨a, b, rfl⟩ := List.append_of_mem hx
  have h2 := hl (f :: a) x b (by simp [hg])
  rw [e, h1] at h2
  simp at h2
  omega

/-- One more entry of the top directory seen. -/
theorem Full.grow {w : World} {fs : Bool} {md : Option Int} (hw : w.Named) {s : State} {P : Seen} {names : List Text} {e : Entry}
    {rest : List (Option Entry)} {g : List (List Text × List (Option Entry))} {d : Nat} {done : List (Option Entry)}
    (h : Full w fs md s P ((names, some e :: rest) :: g) none) (hP : P names = some (d, done)) (hls : w.ls d = some (done ++ some e :: rest))
    (s' : State) (hst : s'.stack = (key names, rest) :: g.map (fun f => (key f.1, f.2)))
    (hd : ∀ p, s'.dirs p = if p = key names then some (infoOf fs md names.length (done ++ [some e])) else s.dirs p)
    (hv : ∀ i ∈ s'.visited, i ∈ s.visited ∨ e.isDir = true ∧ e.inode = some i) :
    Full w fs md s' (P.set names (d, done ++ [some e])) ((names, rest) :: g)
      (if e.visible ∧ e.isDir = true ∧ deeper md names.length ∧ w.ls e.target ≠ none then some (names ++ [e.name]) else none) := by
  have hsome : ∀ n, P n ≠ none → P.set names (d, done ++ [some e]) n ≠ none := by
    intro n hn
    by_cases hx : n = names
    · subst hx; rw [Seen.set_self]; simp
    · rw [Seen.set_ne _ _ hx]; exact hn
  have hup : ∀ n d' done', P n = some (d', done') → ∃ done'', P.set names (d, done ++ [some e]) n = some (d', done'') ∧
      ∀ o ∈ done', o ∈ done'' := by
    intro n d' done' hn
    by_cases hx : n = names
    · subst hx
      rw [hP] at hn
      injection hn with hn
      injection hn with h1 h2
      subst h1 h2
      exact ⟨_, Seen.set_self _ _ _, fun o ho => by simp [ho]⟩
    · exact ⟨done', by rw [Seen.set_ne _ _ hx]; exact hn, fun o ho => ho⟩
  have hgood : Good names := reach_good hw (h.reach _ _ _ hP).1
  refine ⟨by simpa using hst, ?_, ?_, ?_, ?_, ?_, ?_, ?_, ?_, fun hr => hsome _ (h.root hr)⟩
  · intro a f b hab
    cases a with
    | nil =>
      simp only [List.nil_append, List.cons.injEq] at hab
      obtain ⟨rfl, rfl⟩ := hab
      exact h.lens [] (names, some e :: rest) g rfl
    | cons x a =>
      simp only [List.cons_append, List.cons.injEq] at hab
      exact h.lens ((names, some e :: rest) :: a) f b (by rw [hab.2]; simp)
  · intro f hf
    simp only [List.mem_cons] at hf
    rcases hf with rfl | hf
    · exact ⟨d, done ++ [some e], Seen.set_self _ _ _, by simpa using hls⟩
    · have hne := lens_inj h.lens rfl hf
      obtain ⟨d', done', h1, h2⟩ := h.frames f (by simp [hf])
      exact ⟨d', done', by rw [Seen.set_ne _ _ hne]; exact h1, h2⟩
  · intro n d' done' hn
    by_cases hx : n = names
    · subst hx
      rw [Seen.set_self] at hn
      injection hn with hn
      injection hn with h1 h2
      subst h1 h2
      exact ⟨(h.reach _ _ _ hP).1, .inr ⟨rest, by simp⟩⟩
    · rw [Seen.set_ne _ _ hx] at hn
      obtain ⟨h1, h2⟩ := h.reach n d' done' hn
      refine ⟨h1, h2.imp id ?_⟩
      rintro ⟨r, hr⟩
      simp only [List.mem_cons, Prod.mk.injEq] at hr
      rcases hr with ⟨rfl, _⟩ | hr
      · exact absurd rfl hx
      · exact ⟨r, by simp [hr]⟩
  · intro n hn
    rw [hd]
    by_cases hx : n = names
    · subst hx; rw [Seen.set_self]; simp
    · rw [Seen.set_ne _ _ hx, if_neg (fun hk => hx (key_inj hn hgood hk))]
      exact h.dirs n hn
  · intro p hp
    rw [hd] at hp
    split at hp
    · rename_i hpk; exact ⟨names, hgood, hpk⟩
    · exact h.keys p hp
  · intro n d' done' e' hn he' hvi hdir hdeep ht
    by_cases hx : n = names
    · subst hx
      rw [Seen.set_self] at hn
      injection hn with hn
      injection hn with h1 h2
      subst h1 h2
      simp only [List.mem_append, List.mem_singleton, Option.some.injEq] at he'
      rcases he' with he' | rfl
      · rcases h.closed n d done e' hP he' hvi hdir hdeep ht with h1 | h1
        · exact .inl (hsome _ h1)
        · simp at h1
      · right; rw [if_pos ⟨hvi, hdir, hdeep, ht⟩]
    · rw [Seen.set_ne _ _ hx] at hn
      rcases h.closed n d' done' e' hn he' hvi hdir hdeep ht with h1 | h1
      · exact .inl (hsome _ h1)
      · simp at h1
  · intro i hi
    rcases hv i hi with hi | ⟨h1, h2⟩
    · obtain ⟨n, d', done', e', g1, g2, g3⟩ := h.vis i hi
      obtain ⟨done'', g4, g5⟩ := hup n d' done' g1
      exact ⟨n, d', done'', e', g4, g5 _ g2, g3⟩
    · exact ⟨names, d, done ++ [some e], e, Seen.set_self _ _ _, by simp, h1, h2⟩
  · intro n x hx
    have hx' : P (n ++ [x]) ≠ none := by
      by_cases hc : n ++ [x] = names
      · rw [hc, hP]; simp
      · rw [Seen.set_ne _ _ hc] at hx; exact hx
    obtain ⟨d', done', e', g1, g2, g3⟩ := h.par n x hx'
    obtain ⟨done'', g4, g5⟩ := hup n d' done' g1
    exact ⟨d', done'', e', g4, g5 _ g2, g3⟩

/-- The directory that must be entered is entered. -/
theorem Full.enter {w : World} {fs : Bool} {md : Option Int} (hw : w.Named) {s : State} {P : Seen} {names : List Text} {e : Entry}
    {rest : List (Option Entry)} {g : List (List Text × List (Option Entry))} {d : Nat} {done : List (Option Entry)}
    (h : Full w fs md s P ((names, rest) :: g) (some (names ++ [e.name]))) (hP : P names = some (d, done)) (hmem : some e ∈ done)
    (hn : P (names ++ [e.name]) = none) (hr : Reach w md (names ++ [e.name]) e.target) (es : List (Option Entry))
    (hes : w.ls e.target = some es) :
    Full w fs md { s with stack := (key (names ++ [e.name]), es) :: s.stack,
                          dirs := fun p => if p = key (names ++ [e.name]) then some ⟨[], []⟩ else s.dirs p }
      (P.set (names ++ [e.name]) (e.target, [])) ((names ++ [e.name], es) :: (names, rest) :: g) none := by
  have hgood := reach_good hw hr
  have hne : ∀ n, P n ≠ none → n ≠ names ++ [e.name] := by
    rintro n h1 rfl
    exact h1 hn
  have hup : ∀ n v, P n = some v → P.set (names ++ [e.name]) (e.target, []) n = some v := by
    intro n v hv
    rw [Seen.set_ne _ _ (hne n (by rw [hv]; simp))]; exact hv
  refine ⟨?_, ?_, ?_, ?_, ?_, ?_, ?_, ?_, ?_, ?_⟩
  · simp [h.stack]
  · intro a f b hab
    cases a with
    | nil =>
      simp only [List.nil_append, List.cons.injEq] at hab
      obtain ⟨rfl, rfl⟩ := hab
      have := h.lens [] (names, rest) g rfl
      simp only at this
      simp [this]
    | cons x a =>
      simp only [List.cons_append, List.cons.injEq] at hab
      exact h.lens a f b hab.2
  · intro f hf
    simp only [List.mem_cons] at hf
    rcases hf with rfl | hf
    · exact ⟨e.target, [], Seen.set_self _ _ _, by simpa using hes⟩
    · obtain ⟨d', done', h1, h2⟩ := h.frames f (by simpa using hf)
      exact ⟨d', done', hup _ _ h1, h2⟩
  · intro n d' done' hx
    by_cases hc : n = names ++ [e.name]
    · subst hc
      rw [Seen.set_self] at hx
      injection hx with hx
      injection hx with h1 h2
      subst h1 h2
      exact ⟨hr, .inr ⟨es, by simp⟩⟩
    · rw [Seen.set_ne _ _ hc] at hx
      obtain ⟨h1, h2⟩ := h.reach n d' done' hx
      refine ⟨h1, h2.imp id ?_⟩
      rintro ⟨r, hr⟩
      exact ⟨r, List.mem_cons_of_mem _ hr⟩
  · intro n hg
    by_cases hc : n = names ++ [e.name]
    · subst hc; rw [Seen.set_self]; simp [infoOf]
    · simp only
      rw [Seen.set_ne _ _ hc, if_neg (fun hk => hc (key_inj hg hgood hk))]
      exact h.dirs n hg
  · intro p hp
    simp only at hp
    split at hp
    · rename_i hpk; exact ⟨_, hgood, hpk⟩
    · exact h.keys p hp
  · intro n d' done' e' hx he' hvi hdir hdeep ht
    by_cases hc : n = names ++ [e.name]
    · subst hc
      rw [Seen.set_self] at hx
      injection hx with hx
      injection hx with h1 h2
      subst h1 h2
      simp at he'
    · rw [Seen.set_ne _ _ hc] at hx
      left
      rcases h.closed n d' done' e' hx he' hvi hdir hdeep ht with h1 | h1
      · rw [Seen.set_ne _ _ (hne _ h1)]; exact h1
      · injection h1 with h1
        rw [← h1, Seen.set_self]; simp
  · intro i hi
    obtain ⟨n, d', done', e', g1, g2⟩ := h.vis i hi
    exact ⟨n, d', done', e', hup _ _ g1, g2⟩
  · intro n x hx
    by_cases hc : n ++ [x] = names ++ [e.name]
    · obtain ⟨rfl, hx'⟩ := List.append_inj' hc rfl
      have hx' : x = e.name := by simpa using hx'
      exact ⟨d, done, e, hup _ _ hP, hmem, hx'.symm⟩
    · rw [Seen.set_ne _ _ hc] at hx
      obtain ⟨d', done', e', g1, g2⟩ := h.par n x hx
      exact ⟨d', done', e', hup _ _ g1, g2⟩
  · intro hroot
    have := h.root hroot
    rw [Seen.set_ne _ _ (hne _ this)]; exact this

theorem infoOf_snoc (fs : Bool) (md : Option Int) (n : Nat) (done : List (Option Entry)) (e : Entry) :
    infoOf fs md n (done ++ [some e]) =
      if e.visible then
        if e.isDir then
          if deeper md n then { infoOf fs md n done with dirs := (infoOf fs md n done).dirs ++ [e.name] } else infoOf fs md n done
        else if e.isFile then { infoOf fs md n done with files := (infoOf fs md n done).files ++ [fileInfo fs e] }
        else infoOf fs md n done
      else infoOf fs md n done := by
  by_cases hv : e.visible
  · rw [if_pos hv]
    cases hd : e.isDir with
    | true =>
      simp only [if_true]
      by_cases hp : deeper md n
      · simp [infoOf, hv, hd, hp]
      · simp [infoOf, hv, hd, hp]
    | false =>
      cases hf : e.isFile with
      | true =>
        simp [infoOf, hv, hd, hf, fileInfo]
        split <;> rfl
      | false => simp [infoOf, hv, hd, hf]
  · rw [if_neg hv]
    simp [infoOf, hv]

theorem dirs_top {w : World} {fs : Bool} {md : Option Int} (hw : w.Named) {s : State} {P : Seen} {g hole} (h : Full w fs md s P g hole)
    {names : List Text} {d : Nat} {done : List (Option Entry)} (hP : P names = some (d, done)) :
    s.dirs (key names) = some (infoOf fs md names.length done) := by
  rw [h.dirs names (reach_good hw (h.reach _ _ _ hP).1), hP]; rfl

theorem full_round {w : World} {fs : Bool} {md : Option Int} (hw : w.Named) (hdis : w.Distinct) (hin : w.Inodes) (htree : w.Tree md)
    {s s' : State} {path : Text} {scan : List (Option Entry)} {below : List (Text × List (Option Entry))}
    (hst : s.stack = (path, scan) :: below) {P : Seen} {g : List (List Text × List (Option Entry))} (hs : Full w fs md s P g none)
    (h : round w fs md s path scan below = .go s') : ∃ P' g', Full w fs md s' P' g' none := by
  have hg := hs.stack
  rw [hst] at hg
  cases g with
  | nil => simp at hg
  | cons f g =>
    obtain ⟨names, sc⟩ := f
    simp only [List.map_cons, List.cons.injEq, Prod.mk.injEq] at hg
    obtain ⟨⟨rfl, rfl⟩, rfl⟩ := hg
    obtain ⟨d, done, hP, hls⟩ := hs.frames (names, scan) (by simp)
    have hr := (hs.reach _ _ _ hP).1
    have hgood := reach_good hw hr
    have hlen : names.length = g.length := hs.lens [] (names, scan) g rfl
    have htop := dirs_top hw hs hP
    cases scan with
    | nil =>
      simp only [round, Out.go.injEq] at h
      subst h
      refine ⟨P, g, rfl, ?_, ?_, ?_, hs.dirs, hs.keys, hs.closed, hs.vis, hs.par, hs.root⟩
      · intro a f b hab; exact hs.lens ((names, []) :: a) f b (by rw [hab]; simp)
      · intro f hf; exact hs.frames f (by simp [hf])
      · intro n d' done' hn
        obtain ⟨h1, h2⟩ := hs.reach n d' done' hn
        refine ⟨h1, ?_⟩
        rcases h2 with h2 | ⟨r, hm⟩
        · exact .inl h2
        · simp only [List.mem_cons, Prod.mk.injEq] at hm
          rcases hm with ⟨rfl, rfl⟩ | hm
          · rw [hP] at hn
            injection hn with hn
            injection hn with h1 h2
            subst h1 h2
            exact .inl (by simpa using hls)
          · exact .inr ⟨r, hm⟩
    | cons o rest =>
      cases o with
      | none => simp [round] at h
      | some e =>
        have hmem : some e ∈ done ++ some e :: rest := by simp
        have hname := hw _ _ _ hls hmem
        -- an entry that only changes what is said about this directory
        have hgrow : ∀ s1 : State, s1.stack = (key names, rest) :: g.map (fun f => (key f.1, f.2)) →
            (∀ p, s1.dirs p = if p = key names then some (infoOf fs md names.length (done ++ [some e])) else s.dirs p) →
            s1.visited = s.visited → ¬ (e.visible ∧ e.isDir = true ∧ deeper md names.length ∧ w.ls e.target ≠ none) →
            ∃ P' g', Full w fs md s1 P' g' none := by
          intro s1 h1 h2 h3 h4
          have := hs.grow hw hP hls s1 h1 h2 (fun i hi => .inl (h3 ▸ hi))
          rw [if_neg h4] at this
          exact ⟨_, _, this⟩
        have hsame : infoOf fs md names.length (done ++ [some e]) = infoOf fs md names.length done →
            ∀ p, s.dirs p = if p = key names then some (infoOf fs md names.length (done ++ [some e])) else s.dirs p := by
          intro he p
          split
          · rename_i hp; rw [hp, htop, he]
          · rfl
        simp only [round] at h
        split at h
        · rename_i hhid
          injection h with h
          subst h
          have hnv : ¬ e.visible := fun hv => hv hhid
          exact hgrow _ rfl (hsame (by rw [infoOf_snoc, if_neg hnv])) rfl (fun hc => hnv hc.1)
        · rename_i hhid
          have hvi : e.visible := hhid
          split at h
          · rename_i hdir
            split at h
            · rename_i hdeep
              injection h with h
              subst h
              have hnd : ¬ deeper md names.length := by
                rw [← deep_iff]
                simpa [hlen] using hdeep
              exact hgrow _ rfl (hsame (by rw [infoOf_snoc, if_pos hvi, if_pos hdir, if_neg hnd])) rfl (fun hc => hnd hc.2.2.1)
            · rename_i hdeep
              have hdeep' : deeper md names.length := by
                rw [← deep_iff]
                simpa [hlen] using hdeep
              split at h
              · rename_i hn; exact absurd hn (hin _ _ _ hls hmem hdir)
              · rename_i i hi
                split at h
                · rename_i hv
                  exfalso
                  have hv' : i ∈ s.visited := by simpa using hv
                  obtain ⟨n', d', done', e', g1, g2, g3, g4⟩ := hs.vis i hv'
                  obtain ⟨k1, k2⟩ := hs.reach _ _ _ g1
                  have hls' : ∃ es', w.ls d' = some es' ∧ some e' ∈ es' := by
                    rcases k2 with k2 | ⟨r, hm⟩
                    · exact ⟨done', k2, g2⟩
                    · obtain ⟨d2, done2, k3, k4⟩ := hs.frames _ hm
                      simp only at k3
                      rw [g1] at k3
                      injection k3 with k3
                      injection k3 with k5 k6
                      subst k5 k6
                      exact ⟨_, k4, by simp [g2]⟩
                  obtain ⟨es', k3, k4⟩ := hls'
                  obtain ⟨rfl, k5⟩ := htree _ _ _ _ _ _ _ _ hr hls hmem hdir k1 k3 k4 g3 (hi.trans g4.symm)
                  rw [hP] at g1
                  injection g1 with g1
                  injection g1 with g5 g6
                  subst g5 g6
                  exact List.pairwise_iff_forall_sublist.1 (hdis _ _ hls) (two_split g2) e' e rfl rfl k5.symm
                · rename_i hv
                  injection h with h
                  subst h
                  have hfresh : P (names ++ [e.name]) = none := by
                    apply Classical.byContradiction
                    intro hc
                    obtain ⟨d', done', e', g1, g2, g3⟩ := hs.par _ _ hc
                    rw [hP] at g1
                    injection g1 with g1
                    injection g1 with g5 g6
                    subst g5 g6
                    exact List.pairwise_iff_forall_sublist.1 (hdis _ _ hls) (two_split g2) e' e rfl rfl g3
                  have hinfo : infoOf fs md names.length (done ++ [some e]) = { infoOf fs md names.length done with
                      dirs := (infoOf fs md names.length done).dirs ++ [e.name] } := by
                    rw [infoOf_snoc, if_pos hvi, if_pos hdir, if_pos hdeep']
                  have hgr := hs.grow hw hP hls { addDir { s with stack := (key names, rest) :: g.map (fun f => (key f.1, f.2)) }
                      (key names) e.name with visited := i :: s.visited } rfl (by
                    intro p
                    simp only [addDir]
                    split
                    · rename_i hp; rw [hp, htop, hinfo]; rfl
                    · rfl) (by
                    intro j hj
                    simp only [List.mem_cons] at hj
                    rcases hj with rfl | hj
                    · exact .inr ⟨hdir, hi⟩
                    · exact .inl hj)
                  rcases push_cases w { addDir { s with stack := (key names, rest) :: g.map (fun f => (key f.1, f.2)) }
                      (key names) e.name with visited := i :: s.visited } (join (key names) e.name) e.target with ⟨h1, e1⟩ | ⟨es, h1, e1⟩
                  · simp only [addDir] at e1 hgr ⊢
                    rw [e1]
                    rw [if_neg (fun hc => hc.2.2.2 h1)] at hgr
                    exact ⟨_, _, hgr⟩
                  · have hne : w.ls e.target ≠ none := by rw [h1]; simp
                    rw [if_pos ⟨hvi, hdir, hdeep', hne⟩] at hgr
                    have hself : names ++ [e.name] ≠ names := by
                      intro hc
                      have := congrArg List.length hc
                      simp at this
                    have := hgr.enter hw (Seen.set_self _ _ _) (by simp) (by rw [Seen.set_ne _ _ hself]; exact hfresh)
                      (.sub hr hls hmem hvi hdir hdeep' hne) es h1
                    simp only [addDir] at e1 this ⊢
                    rw [e1, join_key hgood hname]
                    exact ⟨_, _, this⟩
          · rename_i hdir
            split at h
            · rename_i hfile
              injection h with h
              subst h
              refine hgrow (addFile { s with stack := (key names, rest) :: g.map (fun f => (key f.1, f.2)) } (key names) (fileInfo fs e)) rfl
                ?_ rfl (fun hc => hdir hc.2.1)
              intro p
              simp only [addFile]
              split
              · rename_i hp
                rw [hp, htop, infoOf_snoc, if_pos hvi, if_neg hdir, if_pos hfile]; rfl
              · rfl
            · rename_i hfile
              injection h with h
              subst h
              exact hgrow _ rfl (hsame (by rw [infoOf_snoc, if_pos hvi, if_neg hdir, if_neg hfile])) rfl (fun hc => hdir hc.2.1)

theorem full_start (w : World) (fs : Bool) (md : Option Int) : ∃ P g, Full w fs md (start w) P g none := by
  simp only [start]
  rcases push_cases w ⟨[], fun _ => none, []⟩ [] w.root with ⟨h, e⟩ | ⟨es, h, e⟩
  · rw [e]
    exact ⟨fun _ => none, [], rfl, by simp, by simp, by simp, by simp, by simp, by simp, by simp, by simp, fun hc => absurd h hc⟩
  · rw [e]
    refine ⟨fun n => if n = [] then some (w.root, []) else none, [([], es)], rfl, ?_, ?_, ?_, ?_, ?_, ?_, by simp, ?_, by simp⟩
    · intro a f b hab
      cases a with
      | nil =>
        simp only [List.nil_append, List.cons.injEq] at hab
        obtain ⟨rfl, rfl⟩ := hab
        rfl
      | cons x a => simp at hab
    · intro f hf
      simp only [List.mem_singleton] at hf
      subst hf
      exact ⟨w.root, [], by simp, by simpa using h⟩
    · intro n d done hn
      split at hn
      · rename_i hx
        subst hx
        injection hn with hn
        injection hn with h1 h2
        subst h1 h2
        exact ⟨.root (by rw [h]; simp), .inr ⟨es, by simp⟩⟩
      · simp at hn
    · intro n hg
      by_cases hx : n = []
      · subst hx; simp [key, joinWith, infoOf]
      · have : key n ≠ [] := fun hk => hx ((key_nil hg).1 hk)
        simp [this, hx]
    · intro p hp
      simp only at hp
      split at hp
      · rename_i hx; exact ⟨[], by simp [Good], hx⟩
      · simp at hp
    · intro n d done e' hn he
      split at hn
      · injection hn with hn
        injection hn with h1 h2
        subst h1 h2
        simp at he
      · simp at hn
    · intro n x hx
      simp at hx

theorem full_loop {w : World} {fs : Bool} {md : Option Int} (hw : w.Named) (hdis : w.Distinct) (hin : w.Inodes) (htree : w.Tree md)
    {fuel : Nat} {s : State} (hs : ∃ P g, Full w fs md s P g none) {dirs : Text → Option Info} (h : loop w fs md fuel s = .done dirs) :
    ∃ s' P, s'.dirs = dirs ∧ Full w fs md s' P [] none := by
  induction fuel generalizing s with
  | zero => simp [loop] at h
  | succ fuel ih =>
    obtain ⟨P, g, hs⟩ := hs
    simp only [loop] at h
    split at h
    · rename_i hst
      injection h with h
      have hg := hs.stack
      rw [hst] at hg
      have hg : g = [] := by simpa using hg.symm
      subst hg
      exact ⟨s, P, h, hs⟩
    · rename_i path scan below hst
      split at h
      · simp at h
      · rename_i s' hr
        exact ih (full_round hw hdis hin htree hst hs hr) h

/-- In the end everything that can be reached has been seen whole. -/
theorem full_done {w : World} {fs : Bool} {md : Option Int} (hdis : w.Distinct) {s : State} {P : Seen} (hs : Full w fs md s P [] none)
    {names : List Text} {d : Nat} (h : Reach w md names d) : ∃ es, w.ls d = some es ∧ P names = some (d, es) := by
  have key : ∀ names d, Reach w md names d → P names ≠ none → ∃ es, w.ls d = some es ∧ P names = some (d, es) := by
    intro names d h hn
    cases hp : P names with
    | none => exact absurd hp hn
    | some v =>
      obtain ⟨d', done⟩ := v
      obtain ⟨h1, h2⟩ := hs.reach _ _ _ hp
      have := reach_fun hdis h h1
      subst this
      rcases h2 with h2 | ⟨r, hr⟩
      · exact ⟨done, h2, rfl⟩
      · simp at hr
  induction h with
  | root hr => exact key _ _ (.root hr) (hs.root hr)
  | @sub names d es e hr hls hmem hv hdir hdeep ht ih =>
    obtain ⟨es', h1, h2⟩ := ih
    rw [hls] at h1
    injection h1 with h1
    subst h1
    refine key _ _ (.sub hr hls hmem hv hdir hdeep ht) ?_
    rcases hs.closed _ _ _ _ h2 hmem hv hdir hdeep ht with h3 | h3
    · exact h3
    · simp at h3

/-- A listing that does not break off raises nothing. -/
theorem loop_whole {w : World} {fs : Bool} {md : Option Int} (hw : w.Named) (hwh : w.Whole) (fuel : Nat) {s : State} (hs : Sound w fs md s) :
    loop w fs md fuel s ≠ .raised := by
  induction fuel generalizing s with
  | zero => simp [loop]
  | succ fuel ih =>
    simp only [loop]
    split
    · simp
    · rename_i path scan below hst
      split
      · rename_i hr
        exfalso
        have hf := hs.frames
        rw [hst] at hf
        cases hf with
        | cons hr' hls hlen hb =>
          cases scan with
          | nil => simp [round] at hr
          | cons o rest =>
            cases o with
            | none => exact hwh _ _ hls (by simp)
            | some e => simp only [round] at hr; repeat' split at hr <;> try exact Out.noConfusion hr
      · rename_i s' hr
        exact ih (sound_round hw hst hs hr)

/-- In a tree a directory is reached along one path only. -/
theorem plain_reach {w : World} {md : Option Int} (hp : w.Plain) {names names' : List Text} {d : Nat} (h : Reach w md names d)
    (h' : Reach w md names' d) : names = names' := by
  induction h generalizing names' with
  | root hr =>
    generalize hq : w.root = q at h'
    cases h' with
    | root _ => rfl
    | sub _ hls hmem _ hdir _ _ => exact absurd hq.symm (hp.2 _ _ _ hls hmem hdir)
  | @sub names d es e hr hls hmem hv hdir hdeep ht ih =>
    generalize hq : e.target = q at h'
    cases h' with
    | root _ => exact absurd hq (hp.2 _ _ _ hls hmem hdir)
    | @sub names' d2 es' e' hr' hls' hmem' _ hdir' _ _ =>
      obtain ⟨h1, h2⟩ := (hp.1 _ _ _ _ _ _ hls hmem hdir hls' hmem' hdir').2 hq
      subst h1
      rw [ih hr', h2]

theorem plain_tree {w : World} {md : Option Int} (hp : w.Plain) : w.Tree md := by
  intro names d es e names' d' es' e' hr hls hmem hdir hr' hls' hmem' hdir' hi
  obtain ⟨h1, h2⟩ := (hp.1 _ _ _ _ _ _ hls hmem hdir hls' hmem' hdir').1 hi
  subst h1
  exact ⟨plain_reach hp hr hr', h2⟩

end Verif.Scan
