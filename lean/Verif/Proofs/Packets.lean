import Verif.Spec.Packets
import Verif.Proofs.Bencode2
/-! Lemmas for the packet properties. -/
namespace Verif.Packets
open Verif

/-! ### The class table -/

theorem registry_eq : registryOf classes = some (classes.map fun c => (c.num, c)) := by decide +kernel

theorem not_nodup_split {cs : List PClass} (h : ¬ (cs.map (·.num)).Nodup) :
    ∃ c d pre mid post, cs = pre ++ c :: mid ++ d :: post ∧ c.num = d.num := by
  induction cs with
  | nil => simp at h
  | cons c cs ih =>
    by_cases hn : (cs.map (·.num)).Nodup
    · simp only [List.map_cons, List.nodup_cons, hn, and_true, Decidable.not_not, List.mem_map] at h
      obtain ⟨d, hd, he⟩ := h
      obtain ⟨mid, post, rfl⟩ := List.append_of_mem hd
      exact ⟨c, d, [], mid, post, rfl, he.symm⟩
    · obtain ⟨c', d, pre, mid, post, rfl, he⟩ := ih hn
      exact ⟨c', d, c :: pre, mid, post, rfl, he⟩

theorem registryOf_from {cs : List PClass} {reg : List (Nat × PClass)} :
    cs.foldlM (fun reg c => if reg.any (fun e => e.1 == c.num) then none else some (reg ++ [(c.num, c)])) reg =
      if (cs.map (·.num)).Nodup ∧ ∀ e ∈ reg, e.1 ∉ cs.map (·.num) then some (reg ++ cs.map fun c => (c.num, c)) else none := by
  induction cs generalizing reg with
  | nil => simp
  | cons c cs ih =>
    rw [List.foldlM_cons]
    split
    · rename_i h
      rw [if_neg]
      · rfl
      · simp only [List.any_eq_true, beq_iff_eq] at h
        obtain ⟨e, he, h⟩ := h
        exact fun hh => hh.2 e he (by simp [h])
    · rename_i h
      simp only [List.any_eq_true, beq_iff_eq, not_exists, not_and] at h
      simp only [Option.bind_eq_bind, Option.bind_some]
      rw [ih]
      refine ite_congr (propext ?_) (fun _ => by simp) (fun _ => rfl)
      constructor
      · rintro ⟨h1, h2⟩
        refine ⟨List.nodup_cons.2 ⟨h2 (c.num, c) (by simp), h1⟩, fun e he => ?_⟩
        have := h2 e (by simp [he])
        simp only [List.map_cons, List.mem_cons, not_or]
        exact ⟨h e he, this⟩
      · rintro ⟨h1, h3⟩
        rw [List.map_cons, List.nodup_cons] at h1
        refine ⟨h1.2, fun e he => ?_⟩
        rcases List.mem_append.1 he with he | he
        · have := h3 e he
          simp only [List.map_cons, List.mem_cons, not_or] at this
          exact this.2
        · rw [List.mem_singleton] at he
          subst he
          exact h1.1

theorem registryOf_eq (cs : List PClass) :
    registryOf cs = if (cs.map (·.num)).Nodup then some (cs.map fun c => (c.num, c)) else none := by
  rw [registryOf, registryOf_from]; simp

theorem registry_def : registry = classes.map fun c => (c.num, c) := by
  simp [registry, registry_eq]

theorem classes_nums_nodup : (classes.map (·.num)).Nodup := by decide +kernel

theorem classes_attrs_nodup : ∀ c ∈ classes, (c.attrs.map (·.1)).Nodup := by decide +kernel

theorem inj_of_nodup_map {α β} (f : α → β) {l : List α} (h : (l.map f).Nodup) {x y : α} (hx : x ∈ l) (hy : y ∈ l) (he : f x = f y) : x = y := by
  induction l with
  | nil => simp at hx
  | cons a l ih =>
    simp only [List.map_cons, List.nodup_cons, List.mem_map, not_exists, not_and] at h
    rcases List.mem_cons.1 hx with h1 | h1 <;> rcases List.mem_cons.1 hy with h2 | h2
    · rw [h1, h2]
    · subst h1; exact absurd he.symm (h.1 y h2)
    · subst h2; exact absurd he (h.1 x h1)
    · exact ih h.2 h1 h2

theorem lookupClass_iff (n : Int) (c : PClass) : lookupClass n = some c ↔ c ∈ classes ∧ (c.num : Int) = n := by
  rw [lookupClass, registry_def, List.find?_map, Option.map_map]
  constructor
  · intro h
    simp only [Option.map_eq_some_iff] at h
    obtain ⟨c', h1, h2⟩ := h
    have hc : c' = c := h2
    subst hc
    have hm := List.mem_of_find?_eq_some h1
    have hp := List.find?_some h1
    simp only [Function.comp_apply, decide_eq_true_eq] at hp
    exact ⟨hm, hp⟩
  · rintro ⟨hm, hn⟩
    cases hf : classes.find? ((fun e : Nat × PClass => decide ((e.1 : Int) = n)) ∘ fun c => (c.num, c)) with
    | none =>
      have := List.find?_eq_none.1 hf c hm
      simp [hn] at this
    | some c' =>
      have hm' := List.mem_of_find?_eq_some hf
      have hp := List.find?_some hf
      simp only [Function.comp_apply, decide_eq_true_eq] at hp
      have : c' = c := inj_of_nodup_map (·.num) classes_nums_nodup hm' hm (by omega)
      simp [this]

/-! ### Parameters -/

theorem getParam_setParam (x k : String) (v : PyVal) (ps) :
    getParam x (setParam k v ps) = if k = x then some v else getParam x ps := by
  induction ps with
  | nil => simp [setParam, getParam]
  | cons p ps ih =>
    obtain ⟨k', v'⟩ := p
    simp only [setParam]
    by_cases h1 : k' = k
    · subst h1
      by_cases h2 : k' = x <;> simp [getParam, h2]
    · simp only [h1, if_false, getParam, ih]
      by_cases h2 : k' = x
      · have : ¬ k = x := by intro h; exact h1 (h2.trans h.symm)
        simp [h2, this]
      · simp [h2]

/-- First item of that name. -/
def findNamed (x : String) (l : List (String × PyVal)) : Option PyVal := (l.find? (fun kv => decide (kv.1 = x))).map (·.2)

theorem findNamed_none_of_not_mem {x : String} {l : List (String × PyVal)} (h : x ∉ l.map (·.1)) : findNamed x l = none := by
  simp only [findNamed, Option.map_eq_none_iff, List.find?_eq_none, decide_eq_true_eq]
  intro kv hkv he
  exact h (List.mem_map.2 ⟨kv, hkv, he⟩)

theorem getParam_foldl (x : String) (l : List (String × PyVal)) (ps) (h : (l.map (·.1)).Nodup) :
    getParam x (l.foldl (fun ps kv => setParam kv.1 (convArg kv.2) ps) ps) =
      match findNamed x l with
      | some v => some (convArg v)
      | none => getParam x ps := by
  induction l generalizing ps with
  | nil => rfl
  | cons kv l ih =>
    simp only [List.map_cons, List.nodup_cons] at h
    simp only [List.foldl_cons]
    rw [ih _ h.2]
    by_cases hx : kv.1 = x
    · subst hx
      rw [findNamed_none_of_not_mem h.1]
      simp [findNamed, List.find?, getParam_setParam]
    · have : findNamed x (kv :: l) = findNamed x l := by simp [findNamed, List.find?, hx]
      rw [this]
      cases findNamed x l with
      | some v => rfl
      | none => simp [getParam_setParam, hx]

theorem zip_keys_nodup {α β} {ks : List α} {vs : List β} (h : ks.Nodup) : ((ks.zip vs).map (·.1)).Nodup := by
  induction ks generalizing vs with
  | nil => simp
  | cons k ks ih =>
    cases vs with
    | nil => simp
    | cons v vs =>
      simp only [List.nodup_cons] at h
      simp only [List.zip_cons_cons, List.map_cons, List.nodup_cons]
      refine ⟨?_, ih h.2⟩
      intro hm
      obtain ⟨p, hp, rfl⟩ := List.mem_map.1 hm
      exact h.1 (List.of_mem_zip (by simpa using hp)).1

theorem getParam_collect (c : PClass) (hc : (c.attrs.map (·.1)).Nodup) (args kwargs) (hk : (kwargs.map (·.1)).Nodup) (x : String) :
    getParam x (collect c args kwargs) = meant c.attrs args kwargs x := by
  simp only [collect]
  rw [getParam_foldl _ _ _ hk, getParam_foldl _ _ _ (zip_keys_nodup hc)]
  simp only [meant, findNamed]
  cases kwargs.find? (fun kv => decide (kv.1 = x)) with
  | some kv =>
    simp only [Option.map_some, Option.some.injEq]
    cases kv.2 <;> rfl
  | none =>
    simp only [Option.map_none]
    cases ((c.attrs.map (·.1)).zip args).find? (fun kv => decide (kv.1 = x)) with
    | some kv => simp only [Option.map_some, Option.some.injEq]; cases kv.2 <;> rfl
    | none => rfl

theorem checkAttrs_ok (r c params set attrs vs) :
    checkAttrs r c params set attrs = .ok vs ↔ Resolved (fun n => getParam n params) attrs vs := by
  induction attrs generalizing set vs with
  | nil => cases vs <;> simp [checkAttrs, Resolved]
  | cons a attrs ih =>
    obtain ⟨n, t⟩ := a
    simp only [checkAttrs]
    cases hg : getParam n params with
    | none => cases vs <;> simp [Resolved, hg]
    | some v =>
      by_cases ht : t.has v = true
      · simp only [ht, if_true]
        cases hr : checkAttrs r c params (set ++ [(n, v)]) attrs with
        | ok ws =>
          cases vs with
          | nil => simp [Resolved]
          | cons x xs =>
            simp only [Except.ok.injEq, List.cons.injEq, Resolved, hg, Option.some.injEq]
            have := ih (set ++ [(n, v)]) xs
            rw [hr] at this
            simp only [Except.ok.injEq] at this
            rw [← this]
            constructor
            · rintro ⟨rfl, rfl⟩; exact ⟨rfl, ht, rfl⟩
            · rintro ⟨rfl, _, rfl⟩; exact ⟨rfl, rfl⟩
        | error e =>
          cases vs with
          | nil => simp [Resolved]
          | cons x xs =>
            have := ih (set ++ [(n, v)]) xs
            rw [hr] at this
            simp only [Resolved, hg, Option.some.injEq, reduceCtorEq, false_iff, not_and]
            intro _ _ h
            simp only [reduceCtorEq, false_iff] at this
            exact this h
      · simp only [ht, Bool.false_eq_true, if_false, reduceCtorEq, false_iff]
        cases vs with
        | nil => simp [Resolved]
        | cons x xs =>
          simp only [Resolved, hg, Option.some.injEq, not_and]
          rintro rfl h
          exact absurd h ht

theorem checkAttrs_error {r c params set attrs e} (h : checkAttrs r c params set attrs = .error e) : ∃ m, e = .format m := by
  induction attrs generalizing set with
  | nil => simp [checkAttrs] at h
  | cons a attrs ih =>
    obtain ⟨n, t⟩ := a
    simp only [checkAttrs] at h
    split at h
    · simp only [Except.error.injEq] at h; exact ⟨_, h.symm⟩
    · split at h
      · split at h
        · simp at h
        · rename_i he; simp only [Except.error.injEq] at h; subst h; exact ih he
      · simp only [Except.error.injEq] at h; exact ⟨_, h.symm⟩

theorem construct_ok (r c args kwargs p) (hc : (c.attrs.map (·.1)).Nodup) (hk : (kwargs.map (·.1)).Nodup) :
    construct r c args kwargs = .ok p ↔ p.cls = c ∧ Resolved (meant c.attrs args kwargs) c.attrs p.vals := by
  simp only [construct]
  have hf : (fun n => getParam n (collect c args kwargs)) = meant c.attrs args kwargs := by
    funext x; exact getParam_collect c hc args kwargs hk x
  cases hr : checkAttrs r c (collect c args kwargs) [] c.attrs with
  | ok vs =>
    have := (checkAttrs_ok r c (collect c args kwargs) [] c.attrs p.vals)
    rw [hf, hr] at this
    simp only [Except.ok.injEq] at this ⊢
    rw [← this]
    constructor
    · rintro rfl; exact ⟨rfl, rfl⟩
    · rintro ⟨rfl, rfl⟩; rfl
  | error e =>
    have := (checkAttrs_ok r c (collect c args kwargs) [] c.attrs p.vals)
    rw [hf, hr] at this
    simp only [reduceCtorEq, false_iff] at this ⊢
    rintro ⟨_, h⟩; exact this h

theorem construct_error {r c args kwargs e} (h : construct r c args kwargs = .error e) : ∃ m, e = .format m := by
  simp only [construct] at h
  split at h
  · simp at h
  · rename_i he; simp only [Except.error.injEq] at h; subst h; exact checkAttrs_error he

/-- Looking up the `i`-th of distinct names in a zip. -/
theorem resolved_zip {attrs : List (String × AType)} {vs : List PyVal} {f : String → Option PyVal}
    (hf : ∀ n, n ∈ attrs.map (·.1) → f n = ((((attrs.map (·.1)).zip vs).find? (fun kv => decide (kv.1 = n))).map (·.2)))
    (hn : (attrs.map (·.1)).Nodup) (ws : List PyVal) :
    Resolved f attrs ws ↔ attrs.length ≤ vs.length ∧ ws = vs.take attrs.length ∧ Typed attrs ws := by
  induction attrs generalizing vs ws f with
  | nil => cases ws <;> simp [Resolved, Typed]
  | cons a attrs ih =>
    obtain ⟨n, t⟩ := a
    simp only [List.map_cons, List.nodup_cons] at hn
    cases ws with
    | nil => cases vs <;> simp [Resolved]
    | cons w ws =>
      cases vs with
      | nil =>
        have := hf n (by simp)
        simp [Resolved, this]
      | cons v vs =>
        have h0 := hf n (by simp)
        simp only [List.map_cons, List.zip_cons_cons, List.find?_cons, decide_true, Option.map_some] at h0
        have hrest : ∀ m, m ∈ attrs.map (·.1) → f m = (((attrs.map (·.1)).zip vs).find? (fun kv => decide (kv.1 = m))).map (·.2) := by
          intro m hm
          have := hf m (by simp [hm])
          have hne : n ≠ m := by rintro rfl; exact hn.1 hm
          simpa [hne] using this
        simp only [Resolved, h0, Option.some.injEq, ih hrest hn.2, List.length_cons, List.take_succ_cons, List.cons.injEq, Typed]
        constructor
        · rintro ⟨rfl, h1, h2, h3, h4⟩; exact ⟨by omega, ⟨rfl, h3⟩, h1, h4⟩
        · rintro ⟨h1, ⟨rfl, h2⟩, h3, h4⟩; exact ⟨rfl, h3, by omega, h2, h4⟩

/-- No value is text. -/
def NoText (vs : List PyVal) : Prop := ∀ v ∈ vs, ∀ s, v ≠ .text s

theorem find_zip_noText {ks : List String} {vs : List PyVal} (h : NoText vs) {n kv}
    (hf : (ks.zip vs).find? (fun kv => decide (kv.1 = n)) = some kv) : convArg kv.2 = kv.2 := by
  have := List.mem_of_find?_eq_some hf
  have := (List.of_mem_zip (show (kv.1, kv.2) ∈ ks.zip vs from this)).2
  have := h _ this
  cases hk : kv.2 <;> first | rfl | (rw [hk] at this; exact absurd rfl (this _))

theorem meant_positional {attrs args} (h : NoText args) (n : String) :
    meant attrs args [] n = (((attrs.map (·.1)).zip args).find? (fun kv => decide (kv.1 = n))).map (·.2) := by
  simp only [meant, List.find?_nil]
  cases hf : ((attrs.map (·.1)).zip args).find? (fun kv => decide (kv.1 = n)) with
  | none => rfl
  | some kv =>
    have := find_zip_noText h hf
    simp only [Option.map_some, Option.some.injEq]
    cases hk : kv.2 <;> first | rfl | (rw [hk] at this; simp [convArg] at this)

theorem meant_keyword {attrs : List (String × AType)} {args} (h : NoText args) (n : String) :
    meant attrs [] ((attrs.map (·.1)).zip args) n = (((attrs.map (·.1)).zip args).find? (fun kv => decide (kv.1 = n))).map (·.2) := by
  simp only [meant, List.zip_nil_right, List.find?_nil]
  cases hf : ((attrs.map (·.1)).zip args).find? (fun kv => decide (kv.1 = n)) with
  | none => rfl
  | some kv =>
    have := find_zip_noText h hf
    simp only [Option.map_some, Option.some.injEq]
    cases hk : kv.2 <;> first | rfl | (rw [hk] at this; simp [convArg] at this)

theorem fromBody_ok (r c body p) (hc : (c.attrs.map (·.1)).Nodup) (hb : NoText body) :
    fromBody r c body = .ok p ↔ p.cls = c ∧ c.attrs.length ≤ body.length ∧ p.vals = body.take c.attrs.length ∧ Typed c.attrs p.vals := by
  rw [fromBody, construct_ok r c [] _ p hc (zip_keys_nodup hc), resolved_zip (fun n _ => meant_keyword hb n) hc]

theorem construct_positional (r c args p) (hc : (c.attrs.map (·.1)).Nodup) (hb : NoText args) :
    construct r c args [] = .ok p ↔ p.cls = c ∧ c.attrs.length ≤ args.length ∧ p.vals = args.take c.attrs.length ∧ Typed c.attrs p.vals := by
  rw [construct_ok r c args [] p hc (by simp), resolved_zip (fun n _ => meant_positional hb n) hc]

theorem typed_length {as vs} (h : Typed as vs) : as.length = vs.length := by
  induction as generalizing vs with
  | nil => cases vs <;> simp_all [Typed]
  | cons a as ih => obtain ⟨n, t⟩ := a; cases vs with
    | nil => simp [Typed] at h
    | cons v vs => simp only [Typed] at h; simp [ih h.2]

theorem typed_noText {as vs} (h : Typed as vs) : NoText vs := by
  induction as generalizing vs with
  | nil => cases vs with
    | nil => intro v hv; simp at hv
    | cons => simp [Typed] at h
  | cons a as ih => obtain ⟨n, t⟩ := a; cases vs with
    | nil => simp [Typed] at h
    | cons v vs =>
      simp only [Typed] at h
      intro x hx s
      rcases List.mem_cons.1 hx with rfl | hx
      · rintro rfl; cases t <;> simp [AType.has] at h
      · exact ih h.2 x hx s

theorem clean_noText {xs} (h : CleanList xs) : NoText xs := by
  match xs, h with
  | [], _ => intro v hv; simp at hv
  | x :: xs, .cons h1 _ h3 =>
    intro v hv s
    rcases List.mem_cons.1 hv with rfl | hv
    · rintro rfl; cases h1
    · exact clean_noText h3 v hv s

theorem same_typed {t : AType} {v w} (h : Same v w) (ht : t.has v = true) : t.has w = true := by
  cases h <;> cases t <;> simp_all [AType.has]

theorem sameList_typed {as vs ws} (h : SameList vs ws) (ht : Typed as vs) : Typed as ws := by
  induction as generalizing vs ws with
  | nil => cases vs with
    | nil => cases h; trivial
    | cons => simp [Typed] at ht
  | cons a as ih => obtain ⟨n, t⟩ := a; cases vs with
    | nil => simp [Typed] at ht
    | cons v vs => cases h with
      | cons h1 h2 =>
        simp only [Typed] at ht
        exact ⟨same_typed h1 ht.1, ih h2 ht.2⟩

/-! ### Reading -/

theorem decode_list_clean {data xs} (hl : data.length ≤ maxSize) (h : Bencode.decode data = .ok (.list xs)) : CleanList xs := by
  obtain ⟨n, r, hn⟩ := Bencode.decode_ok_iff.1 h
  have := ((Bencode.clean_result n).1 _ _ _ hl hn).1
  cases this with | list h => exact h

theorem fromBytes_ok_iff (r data p) (hl : data.length ≤ maxSize) :
    fromBytes r data = .ok p ↔ ∃ body, Bencode.decode data = .ok (.list (.int p.cls.num :: body)) ∧ p.cls ∈ classes ∧
      p.cls.attrs.length ≤ body.length ∧ p.vals = body.take p.cls.attrs.length ∧ Typed p.cls.attrs p.vals := by
  constructor
  · intro h
    unfold fromBytes at h
    split at h <;> try (simp at h; done)
    rename_i n body hd
    split at h
    · simp at h
    · rename_i c hc
      split at h
      · rename_i p' hp
        simp only [FB.ok.injEq] at h
        subst h
        obtain ⟨hm, hn⟩ := (lookupClass_iff n c).1 hc
        have hcl := decode_list_clean hl hd
        have hb : NoText body := by cases hcl with | cons _ _ h3 => exact clean_noText h3
        obtain ⟨rfl, h2, h3, h4⟩ := (fromBody_ok r c body p' (classes_attrs_nodup c hm) hb).1 hp
        exact ⟨body, by rw [hn]; exact hd, hm, h2, h3, h4⟩
      · simp at h
  · rintro ⟨body, hd, hm, h2, h3, h4⟩
    have hc := (lookupClass_iff p.cls.num p.cls).2 ⟨hm, rfl⟩
    have hcl := decode_list_clean hl hd
    have hb : NoText body := by cases hcl with | cons _ _ h3 => exact clean_noText h3
    have := (fromBody_ok r p.cls body p (classes_attrs_nodup _ hm) hb).2 ⟨rfl, h2, h3, h4⟩
    simp only [fromBytes, hd, hc, this]

/-! ### Sorting by name does not look at values -/

/-- Same names, and same values except under `password`. -/
def EqExcept (l m : List (String × PyVal)) : Prop :=
  l.map (fun kv => (kv.1, if kv.1 = "password" then PyVal.none else kv.2)) = m.map (fun kv => (kv.1, if kv.1 = "password" then PyVal.none else kv.2))

theorem insertNamed_except {x y : String × PyVal} {l m}
    (hx : EqExcept [x] [y]) (h : EqExcept l m) : EqExcept (insertNamed x l) (insertNamed y m) := by
  simp only [EqExcept, List.map_cons, List.map_nil, List.cons.injEq, Prod.mk.injEq, and_true] at hx
  induction l generalizing m with
  | nil => cases m with
    | nil => simpa [EqExcept, insertNamed] using hx
    | cons => simp [EqExcept] at h
  | cons a l ih => cases m with
    | nil => simp [EqExcept] at h
    | cons b m =>
      simp only [EqExcept, List.map_cons, List.cons.injEq, Prod.mk.injEq] at h
      simp only [insertNamed]
      rw [hx.1, h.1.1]
      split
      · simp only [EqExcept, List.map_cons, List.cons.injEq, Prod.mk.injEq]
        exact ⟨hx, ⟨h.1, h.2⟩⟩
      · have := ih (m := m) h.2
        simp only [EqExcept, List.map_cons, List.cons.injEq, Prod.mk.injEq]
        exact ⟨h.1, this⟩

theorem sortNamed_except {l m} (h : EqExcept l m) : EqExcept (sortNamed l) (sortNamed m) := by
  induction l generalizing m with
  | nil => cases m with
    | nil => rfl
    | cons => simp [EqExcept] at h
  | cons a l ih => cases m with
    | nil => simp [EqExcept] at h
    | cons b m =>
      simp only [EqExcept, List.map_cons, List.cons.injEq] at h
      exact insertNamed_except (by simp [EqExcept, h.1]) (ih h.2)

theorem reprData_except (r c) {l m} (h : EqExcept l m) : reprData r c l = reprData r c m := by
  have hs := sortNamed_except h
  simp only [reprData]
  congr 3
  generalize sortNamed l = l' at hs
  generalize sortNamed m = m' at hs
  induction l' generalizing m' with
  | nil => cases m' with
    | nil => rfl
    | cons => simp [EqExcept] at hs
  | cons a l ih => cases m' with
    | nil => simp [EqExcept] at hs
    | cons b m =>
      simp only [EqExcept, List.map_cons, List.cons.injEq, Prod.mk.injEq] at hs
      simp only [List.map_cons, List.cons.injEq]
      refine ⟨?_, ih m hs.2⟩
      obtain ⟨⟨h1, h2⟩, _⟩ := hs
      by_cases hp : b.1 = "password"
      · simp [summarize, h1, hp]
      · rw [h1] at h2
        simp only [hp, if_false] at h2
        rw [h1, h2]

/-- Same names, and what is shown of the values is the same. -/
def EqShown (r : PyVal → String) (l m : List (String × PyVal)) : Prop :=
  l.map (fun kv => (kv.1, summarize r kv.1 kv.2)) = m.map (fun kv => (kv.1, summarize r kv.1 kv.2))

theorem insertNamed_eqShown {r : PyVal → String} {x y : String × PyVal} {l m}
    (hx : EqShown r [x] [y]) (h : EqShown r l m) : EqShown r (insertNamed x l) (insertNamed y m) := by
  simp only [EqShown, List.map_cons, List.map_nil, List.cons.injEq, Prod.mk.injEq, and_true] at hx
  induction l generalizing m with
  | nil => cases m with
    | nil => simpa [EqShown, insertNamed] using hx
    | cons => simp [EqShown] at h
  | cons a l ih => cases m with
    | nil => simp [EqShown] at h
    | cons b m =>
      simp only [EqShown, List.map_cons, List.cons.injEq, Prod.mk.injEq] at h
      simp only [insertNamed]
      rw [hx.1, h.1.1]
      split
      · simp only [EqShown, List.map_cons, List.cons.injEq, Prod.mk.injEq]
        exact ⟨hx, ⟨h.1, h.2⟩⟩
      · have := ih (m := m) h.2
        simp only [EqShown, List.map_cons, List.cons.injEq, Prod.mk.injEq]
        exact ⟨h.1, this⟩

theorem sortNamed_eqShown {r : PyVal → String} {l m} (h : EqShown r l m) : EqShown r (sortNamed l) (sortNamed m) := by
  induction l generalizing m with
  | nil => cases m with
    | nil => rfl
    | cons => simp [EqShown] at h
  | cons a l ih => cases m with
    | nil => simp [EqShown] at h
    | cons b m =>
      simp only [EqShown, List.map_cons, List.cons.injEq] at h
      exact insertNamed_eqShown (by simp only [EqShown, List.map_cons, List.map_nil, h.1]) (ih h.2)

theorem reprData_eqShown (r c) {l m} (h : EqShown r l m) : reprData r c l = reprData r c m := by
  have hs := congrArg (List.map fun kv : String × String => kv.1 ++ "=" ++ kv.2) (sortNamed_eqShown h)
  simp only [List.map_map] at hs
  simp only [reprData]
  congr 3

theorem checkAttrs_shown (r c) (params params' : List (String × PyVal))
    (h : ∀ n, n ≠ "password" → getParam n params = getParam n params')
    (hp : (getParam "password" params).map typeName = (getParam "password" params').map typeName)
    (hty : ∀ v v' (t : AType), typeName v = typeName v' → t.has v = t.has v')
    (set set' attrs) (hset : EqExcept set set') :
    (∃ vs vs', checkAttrs r c params set attrs = .ok vs ∧ checkAttrs r c params' set' attrs = .ok vs' ∧
      EqExcept (set ++ (attrs.map (·.1)).zip vs) (set' ++ (attrs.map (·.1)).zip vs')) ∨
    (∃ e, checkAttrs r c params set attrs = .error e ∧ checkAttrs r c params' set' attrs = .error e) := by
  induction attrs generalizing set set' with
  | nil => exact .inl ⟨[], [], rfl, rfl, by simpa using hset⟩
  | cons a attrs ih =>
    obtain ⟨n, t⟩ := a
    have key : (getParam n params = none ∧ getParam n params' = none) ∨
        ∃ v v', getParam n params = some v ∧ getParam n params' = some v' ∧ typeName v = typeName v' ∧ EqExcept [(n, v)] [(n, v')] := by
      by_cases hn : n = "password"
      · subst hn
        cases h1 : getParam "password" params <;> cases h2 : getParam "password" params' <;> rw [h1, h2] at hp
        · exact .inl ⟨rfl, rfl⟩
        · simp at hp
        · simp at hp
        · exact .inr ⟨_, _, rfl, rfl, Option.some.inj hp, by simp [EqExcept]⟩
      · have := h n hn
        cases h1 : getParam n params with
        | none => exact .inl ⟨rfl, by rw [← this, h1]⟩
        | some v => exact .inr ⟨v, v, rfl, by rw [← this, h1], rfl, rfl⟩
    simp only [checkAttrs]
    rcases key with ⟨h1, h2⟩ | ⟨v, v', h1, h2, h3, h4⟩
    · rw [h1, h2]
      exact .inr ⟨_, rfl, by rw [reprData_except r c hset]⟩
    · rw [h1, h2]
      simp only [hty v v' t h3]
      split
      · have hset' : EqExcept (set ++ [(n, v)]) (set' ++ [(n, v')]) := by
          simp only [EqExcept, List.map_append] at *
          rw [hset, h4]
        rcases ih (set ++ [(n, v)]) (set' ++ [(n, v')]) hset' with ⟨vs, vs', g1, g2, g3⟩ | ⟨e, g1, g2⟩
        · rw [g1, g2]
          exact .inl ⟨v :: vs, v' :: vs', rfl, rfl, by simpa using g3⟩
        · rw [g1, g2]
          exact .inr ⟨e, rfl, rfl⟩
      · exact .inr ⟨_, rfl, by rw [reprData_except r c hset, h3]⟩

theorem has_of_typeName (v v' : PyVal) (t : AType) (h : typeName v = typeName v') : t.has v = t.has v' := by
  cases v <;> cases v' <;> first | (cases t <;> rfl) | (exfalso; revert h; simp [typeName])

theorem flat_same {vals vals' : List PyVal} (hflat : ∀ v ∈ vals, (∃ i, v = .int i) ∨ ∃ b, v = .bytes b)
    (h : SameList vals vals') : vals' = vals := by
  induction vals generalizing vals' with
  | nil => cases h; rfl
  | cons v vs ih =>
    cases h with
    | cons h1 h2 =>
      rw [ih (fun x hx => hflat x (by simp [hx])) h2]
      rcases hflat v (by simp) with ⟨i, rfl⟩ | ⟨b, rfl⟩ <;> cases h1 <;> rfl

theorem flat_supported {vals : List PyVal} (hflat : ∀ v ∈ vals, (∃ i, v = .int i) ∨ ∃ b, v = .bytes b) :
    SupportedList vals := by
  induction vals with
  | nil => exact .nil
  | cons v vs ih =>
    refine .cons ?_ (ih (fun x hx => hflat x (by simp [hx])))
    rcases hflat v (by simp) with ⟨i, rfl⟩ | ⟨b, rfl⟩
    · exact .int _
    · exact .bytes _

end Verif.Packets
