import Verif.Model.ScanJson
import Verif.Spec.ScanJson
import Verif.Proofs.JsonValue
/-! Lemmas for C153. -/
namespace Verif.ScanJson
open Verif JsonText

/-! ### The result is a dict with finitely many keys -/

theorem items_set {l : List (Text × Scan.Info)} {dirs : Text → Option Scan.Info} (h : Items l dirs) (p : Text) (i : Scan.Info) :
    ∃ l', Items l' (fun q => if q = p then some i else dirs q) := by
  obtain ⟨hn, hm⟩ := h
  refine ⟨(p, i) :: l.filter (fun x => decide (x.1 ≠ p)), ?_, ?_⟩
  · rw [List.map_cons, List.nodup_cons]
    constructor
    · intro hp
      obtain ⟨x, hx, hxp⟩ := List.mem_map.1 hp
      have := (List.mem_filter.1 hx).2
      simp [hxp] at this
    · exact List.Sublist.nodup (List.Sublist.map _ (List.filter_sublist)) hn
  · intro q j
    rw [List.mem_cons, List.mem_filter, hm]
    by_cases hq : q = p
    · subst hq
      simp only [if_true, Prod.mk.injEq, true_and, Option.some.injEq]
      constructor
      · rintro (h | ⟨_, h⟩)
        · exact h.symm
        · simp at h
      · exact fun h => .inl h.symm
    · simp only [if_neg hq, Prod.mk.injEq, hq, false_and, false_or]
      exact ⟨fun h => h.1, fun h => ⟨h, by simpa using hq⟩⟩

theorem items_map {l : List (Text × Scan.Info)} {dirs : Text → Option Scan.Info} (h : Items l dirs) (p : Text) (f : Scan.Info → Scan.Info) :
    ∃ l', Items l' (fun q => if q = p then (dirs q).map f else dirs q) := by
  cases hp : dirs p with
  | none =>
    refine ⟨l, h.1, fun q j => ?_⟩
    rw [h.2]
    by_cases hq : q = p
    · subst hq; simp only [if_true, hp]; exact Iff.rfl
    · simp only [if_neg hq]
  | some i =>
    obtain ⟨l', h'⟩ := items_set h p (f i)
    refine ⟨l', h'.1, fun q j => ?_⟩
    rw [h'.2]
    by_cases hq : q = p
    · subst hq; simp only [if_true, hp]; exact Iff.rfl
    · simp only [if_neg hq]

theorem items_push {w : Scan.World} {s : Scan.State} (h : ∃ l, Items l s.dirs) (path : Text) (d : Nat) : ∃ l, Items l (Scan.push w s path d).dirs := by
  unfold Scan.push
  split
  · exact h
  · obtain ⟨l, h⟩ := h
    exact items_set h path ⟨[], []⟩

theorem items_round {w : Scan.World} {fileSizes : Bool} {maxDepth : Option Int} {s s' : Scan.State} {path : Text} {scan : List (Option Scan.Entry)}
    {below : List (Text × List (Option Scan.Entry))} (h : ∃ l, Items l s.dirs) (hr : Scan.round w fileSizes maxDepth s path scan below = .go s') :
    ∃ l, Items l s'.dirs := by
  unfold Scan.round at hr
  split at hr
  · injection hr with hr; rw [← hr]; exact h
  · exact (nomatch hr)
  · dsimp only at hr
    split at hr
    · injection hr with hr; rw [← hr]; exact h
    split at hr
    · split at hr
      · injection hr with hr; rw [← hr]; exact h
      split at hr
      · injection hr with hr; rw [← hr]; refine items_push ?_ _ _; exact h
      split at hr
      · injection hr with hr; rw [← hr]; exact h
      · injection hr with hr; rw [← hr]
        obtain ⟨l, hl⟩ := h
        exact items_push (items_map hl _ _) _ _
    split at hr
    · injection hr with hr; rw [← hr]
      obtain ⟨l, hl⟩ := h
      exact items_map hl _ _
    · injection hr with hr; rw [← hr]; exact h

theorem items_loop {w : Scan.World} {fileSizes : Bool} {maxDepth : Option Int} (fuel : Nat) :
    ∀ {s : Scan.State}, (∃ l, Items l s.dirs) → ∀ {dirs}, Scan.loop w fileSizes maxDepth fuel s = .done dirs → ∃ l, Items l dirs := by
  induction fuel with
  | zero => intro s _ dirs h; exact (nomatch h)
  | succ n ih =>
    intro s hs dirs h
    rw [Scan.loop] at h
    split at h
    · injection h with h; rw [← h]; exact hs
    · split at h
      · exact (nomatch h)
      · rename_i hr
        exact ih (items_round hs hr) h

/-! ### Reading -/

theorem lookup_nodup {κ α : Type} [DecidableEq κ] {l : List (κ × α)} (hn : (l.map (·.1)).Nodup) (k : κ) (v : α) : lookup l k = some v ↔ (k, v) ∈ l := by
  induction l with
  | nil => exact ⟨fun h => (nomatch h), fun h => (nomatch h)⟩
  | cons x l ih =>
    obtain ⟨k', v'⟩ := x
    rw [List.map_cons, List.nodup_cons] at hn
    have ih := ih hn.2
    rw [lookup]
    cases hl : lookup l k with
    | some u =>
      rw [hl] at ih
      simp only
      rw [ih, List.mem_cons, Prod.mk.injEq]
      refine ⟨.inr, ?_⟩
      rintro (⟨rfl, rfl⟩ | h)
      · exfalso
        have hm : (k, u) ∈ l := by
          clear ih
          have : ∀ {m : List (κ × α)} {k u}, lookup m k = some u → (k, u) ∈ m := by
            intro m
            induction m with
            | nil => intro k u h; exact (nomatch h)
            | cons y m ihm =>
              intro k u h
              obtain ⟨k2, v2⟩ := y
              rw [lookup] at h
              cases hm : lookup m k with
              | some z => rw [hm] at h; injection h with h; rw [← h]; exact .tail _ (ihm hm)
              | none =>
                rw [hm] at h
                simp only at h
                split at h
                · rename_i e; injection h with h; subst e h; exact .head _
                · exact (nomatch h)
          exact this hl
        exact hn.1 (List.mem_map.2 ⟨_, hm, rfl⟩)
      · exact h
    | none =>
      rw [hl] at ih
      simp only
      rw [List.mem_cons, Prod.mk.injEq]
      by_cases hk : k' = k
      · rw [if_pos hk]
        constructor
        · intro h; injection h with h; exact .inl ⟨hk.symm, h.symm⟩
        · rintro (⟨_, rfl⟩ | h)
          · rfl
          · exact absurd (ih.2 h) (by simp)
      · rw [if_neg hk]
        constructor
        · intro h; exact (nomatch h)
        · rintro (⟨h, _⟩ | h)
          · exact absurd h.symm hk
          · exact ih.2 h

theorem allOf_map {α β : Type} {f : Json → Option α} {g : β → Json} {h : β → α} (hf : ∀ b, f (g b) = some (h b)) (l : List β) :
    allOf f (l.map g) = some (l.map h) := by
  induction l with
  | nil => rfl
  | cons b l ih => rw [List.map_cons, allOf, hf, ih]; rfl

theorem readInfo_json (b : Bool) (i : Scan.Info) : readInfo (infoJson b i) = some i := by
  obtain ⟨d, f⟩ := i
  have hne : sDirs ≠ sFiles := by decide
  have e1 : "dirs".toList = sDirs := rfl
  have e2 : "files".toList = sFiles := rfl
  have h1 : allOf asName (d.map .str) = some d := by
    have := allOf_map (f := asName) (g := .str) (h := id) (fun b => rfl) d
    rwa [List.map_id] at this
  have h2 : allOf asFile (f.map fun f => .arr [.str f.1, .int f.2]) = some f := by
    have := allOf_map (f := asFile) (g := fun f : Text × Int => .arr [.str f.1, .int f.2]) (h := id) (fun b => rfl) f
    rwa [List.map_id] at this
  rw [infoJson, readInfo, e1, e2]
  cases b <;> cases d with
  | nil =>
    cases f with
    | nil => rfl
    | cons x f => simp only [dirsPart, filesPart, List.isEmpty_nil, List.isEmpty_cons, if_true, Bool.false_eq_true, if_false, List.nil_append, List.append_nil, lookup, hne.symm, optional, h2]
  | cons y d =>
    cases f with
    | nil => simp only [dirsPart, filesPart, List.isEmpty_nil, List.isEmpty_cons, if_true, Bool.false_eq_true, if_false, List.nil_append, List.append_nil, lookup, hne, optional, h1]
    | cons x f => simp only [dirsPart, filesPart, List.isEmpty_cons, Bool.false_eq_true, if_false, if_true, List.cons_append, List.nil_append, lookup, hne, hne.symm, optional, h1, h2]

theorem listing_json (root : Text) (time : Option Int × Nat) (filesFirst : Text → Bool) {l : List (Text × Scan.Info)} {dirs : Text → Option Scan.Info}
    (h : Items l dirs) (p : Text) : listing (scanJson root time filesFirst l) p = dirs p := by
  have e : "directories".toList = sDirectories := rfl
  rw [scanJson, listing, e]
  simp only [lookup, if_true]
  have hn : ((l.map fun d => (d.1, infoJson (filesFirst d.1) d.2)).map (·.1)).Nodup := by rw [List.map_map]; exact h.1
  have hx := fun v => lookup_nodup hn p v
  cases hd : dirs p with
  | none =>
    cases hv : lookup (l.map fun d => (d.1, infoJson (filesFirst d.1) d.2)) p with
    | none => rfl
    | some v =>
      exfalso
      obtain ⟨⟨q, i⟩, hm, he⟩ := List.mem_map.1 ((hx v).1 hv)
      injection he with he1 he2
      simp only at he1
      subst he1
      rw [(h.2 q i).1 hm] at hd
      exact (nomatch hd)
  | some i =>
    rw [(hx (infoJson (filesFirst p) i)).2 (List.mem_map.2 ⟨(p, i), (h.2 p i).2 hd, rfl⟩)]
    exact readInfo_json _ i

theorem floatsList_str (l : List Text) : floatsList (l.map .str) = [] := by
  induction l with
  | nil => rfl
  | cons x l ih => rw [List.map_cons, floatsList, ih]; rfl

theorem floatsList_files (l : List (Text × Int)) : floatsList (l.map fun f => .arr [.str f.1, .int f.2]) = [] := by
  induction l with
  | nil => rfl
  | cons x l ih => rw [List.map_cons, floatsList, ih]; rfl

theorem floats_info (b : Bool) (i : Scan.Info) : floats (infoJson b i) = [] := by
  have h1 : ∀ m, floatsObj (dirsPart i ++ m) = floatsObj m := by
    intro m
    unfold dirsPart
    split
    · rfl
    · rw [List.cons_append, floatsObj, floats, floatsList_str]; rfl
  have h2 : ∀ m, floatsObj (filesPart i ++ m) = floatsObj m := by
    intro m
    unfold filesPart
    split
    · rfl
    · rw [List.cons_append, floatsObj, floats, floatsList_files]; rfl
  rw [infoJson, floats]
  have g1 := h1 []
  have g2 := h2 []
  rw [List.append_nil] at g1 g2
  split
  · rw [h2, g1]; rfl
  · rw [h1, g2]; rfl

theorem floats_scan (root : Text) (time : Option Int × Nat) (filesFirst : Text → Bool) (l : List (Text × Scan.Info)) :
    floats (scanJson root time filesFirst l) = [time] := by
  have h : floatsObj (l.map fun d => (d.1, infoJson (filesFirst d.1) d.2)) = [] := by
    induction l with
    | nil => rfl
    | cons x l ih => rw [List.map_cons, floatsObj, floats_info, ih]; rfl
  rw [scanJson, floats]
  simp only [floatsObj, floats, h, List.nil_append, List.append_nil]

end Verif.ScanJson
