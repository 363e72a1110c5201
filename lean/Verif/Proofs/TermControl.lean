import Verif.Spec.TermControl
/-!
Helper lemmas for C113 and C114.
-/
namespace Verif.TermControl
open Verif

theorem asShort_number (j : Json) : (asShort j).map Terminal.toUnsigned = number j := by
  cases j with
  | int i =>
    simp only [asShort, number, Terminal.fitsShort, Bool.and_eq_true, decide_eq_true_eq]
    by_cases h1 : 0 ≤ i ∧ i ≤ 32767
    · rw [if_pos ⟨by omega, h1.2⟩, if_pos h1]
      exact congrArg some (Int.emod_eq_of_lt h1.1 (by omega))
    · rw [if_neg h1]
      by_cases h2 : -32768 ≤ i ∧ i < 0
      · rw [if_pos ⟨h2.1, by omega⟩, if_pos h2]
        simp only [Option.map_some, Terminal.toUnsigned]
        congr 1
        omega
      · rw [if_neg (by omega), if_neg h2]
        rfl
  | bool b => cases b <;> rfl
  | _ => rfl

theorem elems_str (ks : List Text) (a b : Json) (h : ks.map Json.str = [a, b]) : asShort b = none := by
  match ks with
  | [] => simp at h
  | [_] => simp at h
  | x :: y :: r =>
    simp at h
    obtain ⟨_, rfl, _⟩ := h
    rfl

theorem set_strs {size : Json} {l : List Text} (h : elems size = some (l.map .str)) : setPtySize size = none := by
  simp only [setPtySize, h]
  split
  · rename_i a b h'
    injection h' with h'
    rw [elems_str l a b h']
  · rfl

theorem set_pair (size : Json) : setPtySize size = (pair size).map fun p => ⟨p.1, p.2⟩ := by
  cases size with
  | arr l =>
    match l with
    | [] => rfl
    | [_] => rfl
    | [a, b] =>
      simp only [setPtySize, elems, pair, ← asShort_number]
      cases asShort a <;> cases asShort b <;> rfl
    | _ :: _ :: _ :: _ => rfl
  | str s => exact set_strs (l := s.map fun c => [c]) (by simp only [elems, List.map_map]; rfl)
  | obj l => exact set_strs rfl
  | _ => rfl

theorem pair_elems {size : Json} {p} (h : pair size = some p) : ∃ a b, elems size = some [a, b] := by
  cases size with
  | arr l =>
    match l with
    | [a, b] => exact ⟨a, b, rfl⟩
    | [] => simp [pair] at h
    | [_] => simp [pair] at h
    | _ :: _ :: _ :: _ => simp [pair] at h
  | _ => simp [pair] at h

/-- One message, on a running terminal. -/
theorem control_running (t : Term) (m : Option Json) (hf : t.fd = true) :
    (onControl t m).1.fd = true ∧ (onControl t m).1.ok = t.ok ∧
    window (onControl t m).1 = match asked m with
      | some s => some s
      | none => window t := by
  match m with
  | none => exact ⟨hf, rfl, rfl⟩
  | some (.null) => exact ⟨hf, rfl, rfl⟩
  | some (.bool _) => exact ⟨hf, rfl, rfl⟩
  | some (.int _) => exact ⟨hf, rfl, rfl⟩
  | some (.flt _ _) => exact ⟨hf, rfl, rfl⟩
  | some (.str _) => exact ⟨hf, rfl, rfl⟩
  | some (.arr _) => exact ⟨hf, rfl, rfl⟩
  | some (.obj l) =>
    simp only [onControl, asked]
    by_cases ht : lookup l sType = some (.str sResize)
    · rw [if_pos ht, if_pos ht]
      cases hs : lookup l sSize with
      | none => exact ⟨hf, rfl, rfl⟩
      | some size =>
        simp only [Option.bind_some]
        cases hp : pair size with
        | some p =>
          obtain ⟨a, b, he⟩ := pair_elems hp
          simp [he, resize, hf, set_pair, hp, window]
        | none =>
          split
          · simp [resize, hf, set_pair, hp, window]
          · exact ⟨hf, rfl, rfl⟩
    · rw [if_neg ht, if_neg ht]
      exact ⟨hf, rfl, rfl⟩

theorem control_fd (t : Term) (m : Option Json) : (onControl t m).1.fd = t.fd := by
  unfold onControl
  repeat' split
  all_goals first
    | rfl
    | (simp only [resize]; split
       · split <;> rfl
       · rfl)

theorem fd_running (t : Term) (hf : t.fd = false) (ops : List Op) : (run t ops).fd = true ↔ Running ops := by
  have key : ∀ (ops : List Op) (t : Term), (run t ops).fd = true ↔ Running ops ∨ (t.fd = true ∧ ∀ op ∈ ops, op ≠ .stop) := by
    intro ops
    induction ops with
    | nil =>
      intro t
      constructor
      · intro h; exact .inr ⟨h, fun _ h => nomatch h⟩
      · rintro (⟨a, b, h, _⟩ | h)
        · cases a <;> exact nomatch h
        · exact h.1
    | cons op ops ih =>
      intro t
      show (run (step t op) ops).fd = true ↔ _
      rw [ih]
      have up : Running ops → Running (op :: ops) := fun ⟨a, b, h1, h2⟩ => ⟨op :: a, b, by rw [h1]; rfl, h2⟩
      constructor
      · rintro (h | ⟨h1, h2⟩)
        · exact .inl (up h)
        · cases op with
          | control m =>
            refine .inr ⟨(control_fd t m) ▸ h1, fun op hop => ?_⟩
            rcases List.mem_cons.1 hop with rfl | hop
            · exact fun h => nomatch h
            · exact h2 op hop
          | start => exact .inl ⟨[], ops, rfl, h2⟩
          | stop => exact nomatch h1
      · rintro (⟨a, b, h1, h2⟩ | ⟨h1, h2⟩)
        · cases a with
          | nil =>
            injection h1 with e1 e2
            subst e1 e2
            refine .inr ⟨?_, h2⟩
            simp only [step]
            split <;> rfl
          | cons x a =>
            injection h1 with e1 e2
            exact .inl ⟨a, b, e2, h2⟩
        · refine .inr ⟨?_, fun op hop => h2 op (by simp [hop])⟩
          cases op with
          | control m => exact (control_fd t m).trans h1
          | start =>
            simp only [step]
            split <;> rfl
          | stop => exact absurd rfl (h2 .stop (by simp))
  rw [key, hf]
  exact ⟨fun h => h.elim id (fun h => nomatch h.1), Or.inl⟩

theorem step_sound {t : Term} {p : Int × Int} (hs : pair t.size = some p) (hd : t.fd = true → window t = some p) (hk : t.ok = true) (op : Op)
    (hm : ∀ m, op = .control m → isRequest m = true → asked m ≠ none) :
    let p' := match op with
      | .control m => (asked m).getD p
      | _ => p
    pair (step t op).size = some p' ∧ ((step t op).fd = true → window (step t op) = some p') ∧ (step t op).ok = true := by
  cases op with
  | start =>
    simp only [step]
    rw [set_pair, hs]
    exact ⟨hs, fun _ => rfl, hk⟩
  | stop => exact ⟨hs, fun h => by simp [step] at h, hk⟩
  | control m =>
    have same : asked m = none → (onControl t m).1 = t →
        pair (onControl t m).1.size = some ((asked m).getD p) ∧
        ((onControl t m).1.fd = true → window (onControl t m).1 = some ((asked m).getD p)) ∧ (onControl t m).1.ok = true := by
      intro ha he
      rw [he, ha]
      exact ⟨hs, hd, hk⟩
    show pair (onControl t m).1.size = _ ∧ ((onControl t m).1.fd = true → window (onControl t m).1 = _) ∧ (onControl t m).1.ok = true
    match m with
    | none => exact same rfl rfl
    | some (.null) => exact same rfl rfl
    | some (.bool _) => exact same rfl rfl
    | some (.int _) => exact same rfl rfl
    | some (.flt _ _) => exact same rfl rfl
    | some (.str _) => exact same rfl rfl
    | some (.arr _) => exact same rfl rfl
    | some (.obj l) =>
      by_cases ht : lookup l sType = some (.str sResize)
      · have := hm _ rfl (by simp [isRequest, ht])
        simp only [asked, if_pos ht] at this
        cases hz : lookup l sSize with
        | none => rw [hz] at this; exact absurd rfl this
        | some size =>
          rw [hz, Option.bind_some] at this
          cases hp : pair size with
          | none => exact absurd hp this
          | some q =>
            obtain ⟨a, b, he⟩ := pair_elems hp
            simp only [onControl, if_pos ht, asked, hz, he, Option.bind_some, hp, Option.getD_some, resize, set_pair, Option.map_some]
            cases hf : t.fd with
            | true => simp [hp, window, hk]
            | false => simp [hp, hk]
      · exact same (by simp only [asked, if_neg ht]) (by simp only [onControl, if_neg ht])

theorem dups_several : ∀ (l : List Text), (∃ a b r, l.eraseDups = a :: b :: r) ↔ ∃ x ∈ l, ∃ y ∈ l, x ≠ y
  | [] => by simp
  | a :: l => by
    rw [List.eraseDups_cons]
    constructor
    · rintro ⟨x, y, r, h⟩
      injection h with h1 h2
      have : y ∈ l.filter fun b => !b == a := by
        rw [← List.mem_eraseDups, h2]; simp
      simp only [List.mem_filter, Bool.not_eq_true', beq_eq_false_iff_ne] at this
      exact ⟨a, by simp, y, by simp [this.1], fun h => this.2 h.symm⟩
    · rintro ⟨x, hx, y, hy, hne⟩
      have : ∃ z ∈ l, z ≠ a := by
        by_cases hxa : x = a
        · subst hxa
          rcases List.mem_cons.1 hy with rfl | hy
          · exact absurd rfl hne
          · exact ⟨y, hy, fun h => hne h.symm⟩
        · rcases List.mem_cons.1 hx with rfl | hx
          · exact absurd rfl hxa
          · exact ⟨x, hx, hxa⟩
      obtain ⟨z, hz, hza⟩ := this
      have hm : z ∈ (l.filter fun b => !b == a).eraseDups := by
        rw [List.mem_eraseDups]; simp [hz, hza]
      cases he : (l.filter fun b => !b == a).eraseDups with
      | nil => rw [he] at hm; exact nomatch hm
      | cons b r => exact ⟨a, b, r, rfl⟩

theorem several_elems (size : Json) : several size = true ↔ ∃ a b r, elems size = some (a :: b :: r) := by
  cases size with
  | arr l => rcases l with _ | ⟨a, _ | ⟨b, r⟩⟩ <;> simp [several, elems]
  | str l => rcases l with _ | ⟨a, _ | ⟨b, r⟩⟩ <;> simp [several, elems]
  | obj l =>
    have h := dups_several (l.map (·.1))
    simp only [several, List.any_eq_true, decide_eq_true_eq, elems, Option.some.injEq]
    constructor
    · rintro ⟨x, hx, y, hy, hne⟩
      obtain ⟨a, b, r, he⟩ := h.2 ⟨x.1, List.mem_map_of_mem hx, y.1, List.mem_map_of_mem hy, hne⟩
      exact ⟨.str a, .str b, r.map .str, by rw [he]; rfl⟩
    · rintro ⟨a, b, r, he⟩
      have : ∃ a b r, (l.map (·.1)).eraseDups = a :: b :: r := by
        cases hd : (l.map (·.1)).eraseDups with
        | nil => rw [hd] at he; exact nomatch he
        | cons x d =>
          cases d with
          | nil => rw [hd] at he; exact nomatch he
          | cons y d => exact ⟨x, y, d, rfl⟩
      obtain ⟨x, hx, y, hy, hne⟩ := h.1 this
      obtain ⟨x', hx', rfl⟩ := List.mem_map.1 hx
      obtain ⟨y', hy', rfl⟩ := List.mem_map.1 hy
      exact ⟨x', hx', y', hy', hne⟩
  | _ => simp [several, elems]

theorem control_size (t : Term) (m : Option Json) (hf : t.fd = false) :
    (onControl t m).1 = { t with size := lastSize t.size [m] } := by
  match m with
  | none => rfl
  | some (.obj l) =>
    simp only [onControl, lastSize, List.foldl_cons, List.foldl_nil]
    by_cases h : lookup l sType = some (.str sResize)
    · simp only [h, if_true]
      cases hs : lookup l sSize with
      | none => simp
      | some size =>
        have he := several_elems size
        cases hv : several size with
        | true =>
          obtain ⟨a, b, r, e⟩ := he.1 hv
          simp only [e, resize, hf, Option.filter_some, hv, if_true, Option.getD_some]
          simp
        | false =>
          simp only [Option.filter_some, hv, Bool.false_eq_true, if_false, Option.getD_none]
          split
          · rename_i a b r e
            rw [he.2 ⟨a, b, r, e⟩] at hv
            exact nomatch hv
          · rfl
    · simp only [h, if_false]
  | some .null | some (.bool _) | some (.int _) | some (.str _) | some (.arr _) | some (.flt _ _) => rfl

theorem controls_size (t : Term) (ms : List (Option Json)) (hf : t.fd = false) :
    run t (ms.map .control) = { t with size := lastSize t.size ms } := by
  induction ms generalizing t with
  | nil => rfl
  | cons m ms ih =>
    have e : run t ((m :: ms).map .control) = run (onControl t m).1 (ms.map .control) := rfl
    rw [e, control_size t m hf, ih { t with size := lastSize t.size [m] } hf]
    simp only [lastSize, List.foldl_cons, List.foldl_nil]

theorem fileAt_filter {files : List (Nat × Nat)} {a b : Nat} (h : a ≠ b) : fileAt (files.filter fun x => x.1 ≠ a) b = fileAt files b := by
  induction files with
  | nil => rfl
  | cons x r ih =>
    simp only [fileAt, List.find?_cons] at ih ⊢
    by_cases hx : x.1 = a
    · have hb : ¬ x.1 = b := by omega
      rw [List.filter_cons_of_neg (by simp [hx]), ih]
      simp [hb]
    · rw [List.filter_cons_of_pos (by simp [hx])]
      by_cases hb : x.1 = b <;> simp_all

theorem fileAt_none {files : List (Nat × Nat)} {k : Nat} (h : ∀ x ∈ files, x.1 ≠ k) : fileAt files k = none := by
  simp only [fileAt, Option.map_eq_none_iff, List.find?_eq_none]
  intro x hx
  simpa using h x hx

theorem le_sum {files : List (Nat × Nat)} {x} (h : x ∈ files) : x.1 ≤ (files.map (·.1)).sum := by
  induction files with
  | nil => exact (nomatch h)
  | cons y r ih =>
    simp only [List.map_cons, List.sum_cons]
    rcases List.mem_cons.mp h with rfl | h
    · omega
    · have := ih h; omega

/-- A new descriptor is not in use. -/
theorem free_none (files : List (Nat × Nat)) : fileAt files (free files) = none := by
  have hn : fileAt files ((files.map (·.1)).sum + 1) = none := fileAt_none fun x hx => by have := le_sum hx; omega
  have : ((List.range ((files.map (·.1)).sum + 2)).find? fun k => (fileAt files k).isNone).isSome := by
    rw [List.find?_isSome]
    exact ⟨_, List.mem_range.mpr (Nat.lt_succ_self _), by simp [hn]⟩
  obtain ⟨j, hj⟩ := Option.isSome_iff_exists.mp this
  have := List.find?_some hj
  simp only [free, hj, Option.getD_some]
  simpa using this

/-- While the descriptor is open: it belongs to the terminal, and a call of `write_master` uses it. -/
def Open (tfd f : Nat) (s : Fds) : Prop :=
  fileAt s.files tfd = some f ∧ (s.fd = some tfd ∨ s.fd = none) ∧ (∀ x, s.local_ = some x → x.1 = tfd) ∧ OnlyTo f s ∧ s.shut = false

theorem open_step {tfd f : Nat} {s : Fds} (h : Open tfd f s) (op : FdOp) (hc : op ≠ .close) : Open tfd f (fdstep tfd s op) := by
  obtain ⟨h1, h2, h3, h4, h5⟩ := h
  cases op with
  | close => exact absurd rfl hc
  | clear => exact ⟨h1, .inr rfl, h3, h4, h5⟩
  | open_ g =>
    refine ⟨?_, h2, h3, h4, h5⟩
    have hne : free s.files ≠ tfd := by
      intro he
      have := free_none s.files
      rw [he, h1] at this
      exact (nomatch this)
    simp only [fdstep, fileAt, List.find?_cons]
    simpa [hne, fileAt] using h1
  | closeOther fd =>
    simp only [fdstep]
    split
    · exact ⟨h1, h2, h3, h4, h5⟩
    · rename_i hne
      exact ⟨by rw [← h1]; exact fileAt_filter fun e => hne ⟨e, h5⟩, h2, h3, h4, h5⟩
  | data d =>
    simp only [fdstep]
    cases hl : s.local_ with
    | some x => exact ⟨h1, h2, h3, h4, h5⟩
    | none =>
      rcases h2 with h2 | h2
      · simp only [h2]
        split
        · exact ⟨h1, .inl h2, h3, h4, h5⟩
        · exact ⟨h1, .inl rfl, fun x hx => by injection hx with hx; rw [← hx], h4, h5⟩
      · simp only [h2]
        exact ⟨h1, .inr rfl, fun x hx => (nomatch hx), h4, h5⟩
  | write n =>
    simp only [fdstep]
    cases hl : s.local_ with
    | none => exact ⟨h1, h2, h3, h4, h5⟩
    | some x =>
      obtain ⟨fd, d⟩ := x
      have : fd = tfd := h3 _ hl
      subst this
      simp only [h1]
      refine ⟨h1, h2, ?_, ?_, h5⟩
      · intro x hx
        dsimp only at hx
        split at hx
        · exact (nomatch hx)
        · injection hx with hx; rw [← hx]
      · intro x hx
        rcases List.mem_append.mp hx with h | h
        · exact h4 x h
        · rw [List.mem_singleton.mp h]

/-- What holds at every moment. -/
structure Inv (tfd f : Nat) (s : Fds) : Prop where
  fd : s.fd = some tfd ∨ s.fd = none
  loc : ∀ x, s.local_ = some x → x.1 = tfd
  before : s.shut = false → fileAt s.files tfd = some f ∧ ∀ x ∈ s.files, x.2 = f → x.1 = tfd
  after : s.shut = true → ∀ x ∈ s.files, x.2 ≠ f

theorem inv_step {tfd f : Nat} {s : Fds} (h : Inv tfd f s) (op : FdOp) (hn : ∀ g, op = .open_ g → g ≠ f) : Inv tfd f (fdstep tfd s op) := by
  obtain ⟨h1, h2, h3, h4⟩ := h
  cases op with
  | close =>
    refine ⟨h1, h2, fun h => (nomatch h), fun _ x hx hf => ?_⟩
    simp only [fdstep, List.mem_filter] at hx
    cases hs : s.shut with
    | true => exact h4 hs x hx.1 hf
    | false => simpa [(h3 hs).2 x hx.1 hf] using hx.2
  | clear => exact ⟨.inr rfl, h2, h3, h4⟩
  | open_ g =>
    have hg := hn g rfl
    refine ⟨h1, h2, fun hs => ?_, fun hs x hx => ?_⟩
    · obtain ⟨h5, h6⟩ := h3 hs
      have hne : free s.files ≠ tfd := by
        intro he
        have := free_none s.files
        rw [he, h5] at this
        exact (nomatch this)
      refine ⟨?_, fun x hx hf => ?_⟩
      · simp only [fdstep, fileAt, List.find?_cons]
        simpa [hne, fileAt] using h5
      · rcases List.mem_cons.1 hx with rfl | hx
        · exact absurd hf hg
        · exact h6 x hx hf
    · rcases List.mem_cons.1 hx with rfl | hx
      · exact hg
      · exact h4 hs x hx
  | closeOther fd =>
    simp only [fdstep]
    split
    · exact ⟨h1, h2, h3, h4⟩
    · rename_i hne
      refine ⟨h1, h2, fun hs => ?_, fun hs x hx => h4 hs x (List.mem_filter.1 hx).1⟩
      obtain ⟨h5, h6⟩ := h3 hs
      exact ⟨by rw [← h5]; exact fileAt_filter fun e => hne ⟨e, hs⟩, fun x hx => h6 x (List.mem_filter.1 hx).1⟩
  | data d =>
    simp only [fdstep]
    cases hl : s.local_ with
    | some x => exact ⟨h1, h2, h3, h4⟩
    | none =>
      rcases h1 with h1 | h1
      · simp only [h1]
        split
        · exact ⟨.inl h1, h2, h3, h4⟩
        · exact ⟨.inl rfl, fun x hx => (by injection hx with hx; rw [← hx]), h3, h4⟩
      · simp only [h1]
        exact ⟨.inr rfl, fun x hx => (nomatch hx), h3, h4⟩
  | write n =>
    simp only [fdstep]
    cases hl : s.local_ with
    | none => exact ⟨h1, h2, h3, h4⟩
    | some x =>
      obtain ⟨fd, d⟩ := x
      have : fd = tfd := h2 _ hl
      subst this
      cases hf : fileAt s.files fd with
      | none =>
        simp only [hf]
        exact ⟨h1, fun x hx => (nomatch hx), h3, h4⟩
      | some g =>
        simp only [hf]
        refine ⟨h1, fun x hx => ?_, h3, h4⟩
        dsimp only at hx
        split at hx
        · exact (nomatch hx)
        · injection hx with hx; rw [← hx]

theorem inv_run {tfd f : Nat} {s : Fds} (h : Inv tfd f s) (ops : List FdOp) (hn : ∀ g, FdOp.open_ g ∈ ops → g ≠ f) :
    Inv tfd f (fdrun tfd s ops) := by
  induction ops generalizing s with
  | nil => exact h
  | cons op ops ih =>
    exact ih (inv_step h op fun g e => hn g (by rw [e]; exact List.mem_cons_self)) fun g hg => hn g (List.mem_cons_of_mem _ hg)

theorem fresh_inv {tfd f : Nat} {s : Fds} (h : Fresh tfd f s) : Inv tfd f s where
  fd := .inl h.fd
  loc := by rw [h.idle]; exact fun _ e => nomatch e
  before _ := ⟨h.file, h.only⟩
  after e := by rw [h.shut] at e; exact nomatch e

theorem shut_run (tfd : Nat) (s : Fds) (ops : List FdOp) : (fdrun tfd s ops).shut = true ↔ s.shut = true ∨ FdOp.close ∈ ops := by
  induction ops generalizing s with
  | nil => simp [fdrun]
  | cons op ops ih =>
    have e : fdrun tfd s (op :: ops) = fdrun tfd (fdstep tfd s op) ops := rfl
    have hs : (fdstep tfd s op).shut = true ↔ s.shut = true ∨ FdOp.close = op := by
      cases op with
      | close => simp [fdstep]
      | closeOther fd => simp only [fdstep]; split <;> simp
      | data d =>
        simp only [fdstep]
        split
        · simp
        · split
          · simp
          · split <;> simp
      | write n =>
        simp only [fdstep]
        split
        · simp
        · split <;> simp
      | _ => simp [fdstep]
    rw [e, ih, hs, List.mem_cons, or_assoc]

theorem fd_run (tfd : Nat) (s : Fds) (ops : List FdOp) : (fdrun tfd s ops).fd = none ↔ s.fd = none ∨ FdOp.clear ∈ ops := by
  induction ops generalizing s with
  | nil => simp [fdrun]
  | cons op ops ih =>
    have e : fdrun tfd s (op :: ops) = fdrun tfd (fdstep tfd s op) ops := rfl
    have hs : (fdstep tfd s op).fd = none ↔ s.fd = none ∨ FdOp.clear = op := by
      cases op with
      | clear => simp [fdstep]
      | closeOther fd => simp only [fdstep]; split <;> simp
      | data d =>
        simp only [fdstep]
        split
        · simp
        · split
          · rename_i h; simp [h]
          · rename_i h; split <;> simp [h]
      | write n =>
        simp only [fdstep]
        split
        · simp
        · split <;> simp
      | _ => simp [fdstep]
    rw [e, ih, hs, List.mem_cons, or_assoc]

/-- One step writes elsewhere. -/
theorem elsewhere_step {tfd f : Nat} {s : Fds} (h : Inv tfd f s) (op : FdOp) : OnlyTo f (fdstep tfd s op) ↔ OnlyTo f s ∧
    ¬ ∃ n, op = .write n ∧ s.shut = true ∧ s.local_ ≠ none ∧ fileAt s.files tfd ≠ none := by
  have same : ∀ {t : Fds}, t.written = s.written → (OnlyTo f t ↔ OnlyTo f s) := fun e => by simp only [OnlyTo, e]
  cases op with
  | write n =>
    cases hl : s.local_ with
    | none => simp [fdstep, hl]
    | some x =>
      obtain ⟨fd, d⟩ := x
      have : fd = tfd := h.loc _ hl
      subst this
      cases hf : fileAt s.files fd with
      | none => simp [fdstep, hl, hf, OnlyTo]
      | some g =>
        have hg : g = f ↔ s.shut = false := by
          cases hs : s.shut with
          | false =>
            have := (h.before hs).1
            rw [hf] at this
            simp [Option.some.inj this]
          | true =>
            simp only [fileAt, Option.map_eq_some_iff] at hf
            obtain ⟨x, h1, h2⟩ := hf
            have := h.after hs x (List.mem_of_find?_eq_some h1)
            rw [h2] at this
            simp [this]
        simp only [fdstep, hl, hf, OnlyTo, List.mem_append, List.mem_singleton]
        constructor
        · intro hw
          refine ⟨fun x hx => hw x (.inl hx), ?_⟩
          rintro ⟨_, _, hs, _⟩
          rw [hg.1 (hw _ (.inr rfl))] at hs
          exact nomatch hs
        · rintro ⟨h1, h2⟩ x (hx | rfl)
          · exact h1 x hx
          · refine hg.2 ?_
            cases hs : s.shut with
            | false => rfl
            | true => exact absurd ⟨n, rfl, hs, (fun e => nomatch e), (fun e => nomatch e)⟩ h2
  | data d =>
    rw [same]
    · simp
    · simp only [fdstep]
      split
      · rfl
      · split
        · rfl
        · split <;> rfl
  | closeOther fd => rw [same (by simp only [fdstep]; split <;> rfl)]; simp
  | close | clear | open_ _ => simp [fdstep, OnlyTo]

/-- When the descriptor has been closed and forgotten, and nobody is in `write_master`, nothing is written any more. -/
theorem gone_step {tfd : Nat} {s : Fds} (h1 : s.fd = none) (h2 : s.local_ = none) (op : FdOp) :
    (fdstep tfd s op).fd = none ∧ (fdstep tfd s op).local_ = none ∧ (fdstep tfd s op).written = s.written := by
  cases op <;> simp [fdstep, h1, h2]
  split <;> simp [h1, h2]

end Verif.TermControl
