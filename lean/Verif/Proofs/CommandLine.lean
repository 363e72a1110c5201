import Verif.Spec.CommandLine
/-! Lemmas for C160-C162. -/
namespace Verif.CommandLine
open Verif

/-! ### The table -/

theorem lookup_mem : ∀ x ∈ table, lookup table x.1 = some x.2 := by decide +kernel

theorem mem_of_lookup {t : List (Text × Opt)} {a : Text} {o : Opt} (h : lookup t a = some o) : (a, o) ∈ t := by
  simp only [lookup, Option.map_eq_some_iff] at h
  obtain ⟨x, hx, rfl⟩ := h
  have h1 := List.mem_of_find?_eq_some hx
  have h2 := List.find?_some hx
  simp only [beq_iff_eq] at h2
  rw [← h2]; exact h1

theorem lookup_iff {a : Text} {o : Opt} : lookup table a = some o ↔ (a, o) ∈ table :=
  ⟨mem_of_lookup, fun h => lookup_mem _ h⟩

def checkEntry (x : Text × Opt) : Bool := x.1 == x.2.long || (match x.1 with | [a, c] => a == '-' && letter c == some x.2 | _ => false)

theorem entry_forms : ∀ x ∈ table, checkEntry x = true := by decide +kernel

theorem long_mem (o : Opt) : (o.long, o) ∈ table := by cases o <;> decide +kernel

theorem letter_mem {c : Char} {o : Opt} (h : letter c = some o) : (['-', c], o) ∈ table := by
  unfold letter at h
  split at h <;> first | (injection h with h; subst h; decide +kernel) | exact nomatch h

theorem mem_table {a : Text} {o : Opt} : (a, o) ∈ table ↔ a = o.long ∨ ∃ c, a = ['-', c] ∧ letter c = some o := by
  constructor
  · intro h
    have := entry_forms _ h
    simp only [checkEntry, Bool.or_eq_true, beq_iff_eq] at this
    rcases this with h | h
    · exact .inl h
    · right
      split at h
      · simp only [Bool.and_eq_true, beq_iff_eq] at h
        exact ⟨_, by rw [h.1], h.2⟩
      · exact nomatch h
  · rintro (rfl | ⟨c, rfl, h⟩)
    · exact long_mem o
    · exact letter_mem h

theorem long_dashes (o : Opt) : ['-', '-'] <+: o.long := by cases o <;> exact ⟨_, rfl⟩

theorem long_noeq (o : Opt) : '=' ∉ o.long := by cases o <;> decide +kernel

theorem long_length (o : Opt) : 5 < o.long.length := by cases o <;> decide +kernel

theorem long_prefix {a b : Opt} (h : a.long <+: b.long) : a = b := by
  have := List.isPrefixOf_iff_prefix.2 h
  revert this
  cases a <;> cases b <;> decide +kernel

theorem letter_dash : letter '-' = none := by decide +kernel
theorem letter_eq : letter '=' = none := by decide +kernel

theorem lookup_letter (c : Char) : lookup table ['-', c] = letter c := by
  cases h : lookup table ['-', c] with
  | some o =>
    rcases mem_table.1 (lookup_iff.1 h) with h1 | ⟨c', h1, h2⟩
    · have := long_length o
      rw [← h1] at this
      simp at this
    · injection h1 with _ h1
      injection h1 with h1
      rw [h1]; exact h2.symm
  | none =>
    cases hl : letter c with
    | none => rfl
    | some o => rw [lookup_iff.2 (letter_mem hl)] at h; exact nomatch h

theorem takes_iff (o : Opt) : o.takes = false ↔ o.IsFlag := by
  cases o <;> simp [Opt.takes, Opt.IsFlag]

theorem takes_iff' (o : Opt) : o.takes = true ↔ ¬ o.IsFlag := by
  rw [← takes_iff]; cases o.takes <;> simp

/-! ### Strings with one dash -/

/-- What follows a letter. -/
def tail : Text → Bool × Option Text
  | [] => (false, none)
  | '=' :: v => (true, some v)
  | e => (false, some e)

theorem tail_other {x : Char} {e : Text} (h : x ≠ '=') : tail (x :: e) = (false, some (x :: e)) := by
  unfold tail
  split
  · exact nomatch ‹_ :: _ = []›
  · rename_i heq; injection heq with h1; exact absurd h1 h
  · rfl

theorem partitionEq_fst (a : Text) : '=' ∉ (partitionEq a).1 := by
  induction a with
  | nil => simp [partitionEq]
  | cons c cs ih =>
    simp only [partitionEq]
    split
    · simp
    · rename_i h
      simp only [List.mem_cons, not_or]
      exact ⟨fun h' => h h'.symm, ih⟩

theorem partitionEq_eq (a : Text) : a = (partitionEq a).1 ++ (match (partitionEq a).2 with | some v => '=' :: v | none => []) := by
  induction a with
  | nil => rfl
  | cons c cs ih =>
    simp only [partitionEq]
    split
    · rename_i h; rw [h]; rfl
    · simp only [List.cons_append]
      rw [← ih]

theorem partitionEq_noeq {p : Text} (h : '=' ∉ p) : partitionEq p = (p, none) := by
  induction p with
  | nil => rfl
  | cons c cs ih =>
    simp only [List.mem_cons, not_or] at h
    have h1 : ¬ c = '=' := fun h' => h.1 h'.symm
    simp only [partitionEq, if_neg h1, ih h.2]

theorem partitionEq_append {p v : Text} (h : '=' ∉ p) : partitionEq (p ++ '=' :: v) = (p, some v) := by
  induction p with
  | nil => simp [partitionEq]
  | cons c cs ih =>
    simp only [List.mem_cons, not_or] at h
    have h1 : ¬ c = '=' := fun h' => h.1 h'.symm
    simp only [List.cons_append, partitionEq, if_neg h1, ih h.2]

theorem beforeEq_iff {a p : Text} : BeforeEq a p ↔ p = (partitionEq a).1 := by
  constructor
  · rintro ⟨hp, rfl | ⟨w, rfl⟩⟩
    · rw [partitionEq_noeq hp]
    · rw [partitionEq_append hp]
  · rintro rfl
    refine ⟨partitionEq_fst a, ?_⟩
    have := partitionEq_eq a
    cases h : (partitionEq a).2 with
    | none => rw [h] at this; left; simpa using this
    | some v => rw [h] at this; exact .inr ⟨v, this⟩

/-- What `parseOptional` gives for a string that is no option. -/
def noOption (digit : Char → Bool) (a : Text) : Except Unit (Option Found) :=
  if negative digit a then .ok none else if a.contains ' ' then .ok none else .ok (some ⟨none, false, false, none⟩)

theorem filterMap_congr' {α β : Type} {f g : α → Option β} {l : List α} (h : ∀ x ∈ l, f x = g x) : l.filterMap f = l.filterMap g := by
  induction l with
  | nil => rfl
  | cons x l ih => simp only [List.filterMap_cons, h x (by simp), ih (fun y hy => h y (by simp [hy]))]

theorem readings_single (c : Char) (e : Text) (hc : c ≠ '-') (he : e ≠ []) :
    readings table ('-' :: c :: e) = match letter c with | some o => [⟨some o, true, false, some e⟩] | none => [] := by
  have h1 : ('-' :: c :: e : Text)[1]? ≠ some '-' := by simpa using hc
  simp only [readings, if_neg h1]
  have hkeys : (table.map (·.1)).Nodup := by decide +kernel
  -- the test on each entry
  have htest : ∀ x ∈ table, (if x.1 = List.take 2 ('-' :: c :: e) then
        (some ⟨some x.2, decide (x.1[1]? ≠ some '-'), false, some (List.drop 2 ('-' :: c :: e))⟩ : Option Found)
      else if List.isPrefixOf ('-' :: c :: e) x.1 = true then some ⟨some x.2, decide (x.1[1]? ≠ some '-'), false, none⟩ else none) =
      if x.1 = ['-', c] then some ⟨some x.2, true, false, some e⟩ else none := by
    intro x hx
    simp only [List.take_succ_cons, List.take_zero, List.drop_succ_cons, List.drop_zero]
    split
    · rename_i h
      rw [h]
      simp [hc]
    · rename_i h
      split
      · rename_i hp
        exfalso
        rw [List.isPrefixOf_iff_prefix] at hp
        rcases mem_table.1 hx with hl | ⟨c', hl, _⟩
        · rw [hl] at hp
          obtain ⟨t1, ht1⟩ := hp
          obtain ⟨t2, ht2⟩ := long_dashes x.2
          rw [← ht1] at ht2
          simp at ht2
          exact hc ht2.1.symm
        · rw [hl] at hp
          have := hp.length_le
          cases e with
          | nil => exact he rfl
          | cons _ _ => simp at this
      · rfl
  rw [filterMap_congr' htest]
  clear htest
  rw [← lookup_letter]
  generalize table = t at hkeys
  induction t with
  | nil => rfl
  | cons x t ih =>
    simp only [List.map_cons, List.nodup_cons] at hkeys
    by_cases hx : x.1 = ['-', c]
    · have : t.filterMap (fun x => if x.1 = ['-', c] then some (⟨some x.2, true, false, some e⟩ : Found) else none) = [] := by
        rw [List.filterMap_eq_nil_iff]
        intro y hy
        rw [if_neg]
        intro h
        exact hkeys.1 (by rw [hx, ← h]; exact List.mem_map_of_mem hy)
      simp only [List.filterMap_cons, if_pos hx, this, lookup, List.find?_cons, hx, beq_self_eq_true, Option.map_some, if_true]
    · have hb : (x.1 == ['-', c]) = false := by simpa using hx
      have := ih hkeys.2
      simp only [lookup] at this
      simp only [List.filterMap_cons, if_neg hx, lookup, List.find?_cons, hb]
      exact this

theorem parse_single (digit : Char → Bool) (c : Char) (e : Text) (hc : c ≠ '-') :
    parseOptional digit table ('-' :: c :: e) = match letter c with
      | some o => .ok (some ⟨some o, true, (tail e).1, (tail e).2⟩)
      | none => noOption digit ('-' :: c :: e) := by
  have hs : decide (('-' :: c :: e : Text)[1]? ≠ some '-') = true := by simpa using hc
  unfold parseOptional
  rw [if_neg (by simp)]
  by_cases he : e = []
  · subst he
    rw [lookup_letter]
    cases hl : letter c with
    | some o => simp only [hs]; rfl
    | none =>
      rw [if_neg (by simp)]
      have hr : readings table ['-', c] = [] := by
        have hc1 : (['-', c] : Text)[1]? ≠ some '-' := by simpa using hc
        simp only [readings, if_neg hc1, List.filterMap_eq_nil_iff]
        intro x hx
        have hne : x.1 ≠ ['-', c] := by
          intro h
          have := lookup_mem x hx
          rw [h, lookup_letter, hl] at this
          exact nomatch this
        rw [if_neg (by simpa using hne), if_neg]
        intro hp
        rw [List.isPrefixOf_iff_prefix] at hp
        rcases mem_table.1 (show (x.1, x.2) ∈ table from hx) with h | ⟨c', h, _⟩
        · rw [h] at hp
          obtain ⟨t1, ht1⟩ := hp
          obtain ⟨t2, ht2⟩ := long_dashes x.2
          rw [← ht1] at ht2
          simp at ht2
          exact hc ht2.1.symm
        · rw [h] at hp
          simp at hp
          exact hne (by rw [h, hp])
      have hpe : ∀ o v, ¬ ((partitionEq ['-', c]).2 = some v ∧ lookup table (partitionEq ['-', c]).1 = some o) := by
        rintro o v ⟨h1, h2⟩
        by_cases hceq : c = '='
        · subst hceq
          have : (partitionEq ['-', '=']).1 = ['-'] := by decide
          rw [this] at h2
          rw [show lookup table ['-'] = none by decide +kernel] at h2
          exact nomatch h2
        · rw [partitionEq_noeq (by simp; exact fun h => hceq h.symm)] at h1
          exact nomatch h1
      simp only [noOption]
      split
      · rename_i h1 h2
        exact absurd ⟨h1, h2⟩ (hpe _ _)
      · rw [hr]
  · have hno : lookup table ('-' :: c :: e) = none := by
      cases h : lookup table ('-' :: c :: e) with
      | none => rfl
      | some o =>
        exfalso
        rcases mem_table.1 (lookup_iff.1 h) with h1 | ⟨c', h1, _⟩
        · obtain ⟨t2, ht2⟩ := long_dashes o
          rw [← h1] at ht2
          simp at ht2
          exact hc ht2.1.symm
        · injection h1 with _ h1
          injection h1 with _ h1
          exact he h1
    rw [hno]
    simp only []
    rw [if_neg (by simp)]
    rw [readings_single c e hc he]
    have h0 : ∀ q, partitionEq ('-' :: q) = ('-' :: (partitionEq q).1, (partitionEq q).2) := by
      intro q; simp [partitionEq]
    by_cases hceq : c = '='
    · subst hceq
      have : partitionEq ('-' :: '=' :: e) = (['-'], some e) := by rw [h0]; simp [partitionEq]
      rw [this, letter_eq]
      have h2 : lookup table ['-'] = none := by decide +kernel
      simp only [h2]
      rfl
    · have h1 : partitionEq ('-' :: c :: e) = ('-' :: c :: (partitionEq e).1, (partitionEq e).2) := by
        rw [h0]; simp [partitionEq, hceq]
      rw [h1]
      cases e with
      | nil => exact absurd rfl he
      | cons x e' =>
        by_cases hx : x = '='
        · subst hx
          have h3 : partitionEq ('=' :: e') = ([], some e') := by simp [partitionEq]
          rw [h3]
          simp only [lookup_letter]
          cases hl : letter c with
          | some o => simp [tail, hc]
          | none => simp only [noOption]
        · have h3 : partitionEq (x :: e') = (x :: (partitionEq e').1, (partitionEq e').2) := by simp [partitionEq, hx]
          rw [h3]
          have h4 : lookup table ('-' :: c :: x :: (partitionEq e').1) = none := by
            cases h : lookup table ('-' :: c :: x :: (partitionEq e').1) with
            | none => rfl
            | some o =>
              exfalso
              rcases mem_table.1 (lookup_iff.1 h) with h1 | ⟨c', h1, _⟩
              · obtain ⟨t2, ht2⟩ := long_dashes o
                rw [← h1] at ht2
                simp at ht2
                exact hc ht2.1.symm
              · simp at h1
          simp only [h4]
          rw [tail_other hx]
          cases letter c <;> simp [noOption]

/-! ### Strings with two dashes -/

theorem prefix_long {p : Text} {x : Text × Opt} (hp : ['-', '-'] <+: p) (hx : x ∈ table) (h : p <+: x.1) : x = (x.2.long, x.2) := by
  rcases mem_table.1 (show (x.1, x.2) ∈ table from hx) with h1 | ⟨c, h1, h2⟩
  · exact Prod.ext h1 rfl
  · exfalso
    rw [h1] at h
    obtain ⟨t, ht⟩ := hp.trans h
    simp at ht
    rw [← ht.1, letter_dash] at h2
    exact nomatch h2

/-- The options whose long names begin with `p`, as `readings` finds them. -/
theorem readings_double (p : Text) (e : Option Text) (a : Text) (ha : ['-', '-'] <+: a) (hpe : partitionEq a = (p, e)) :
    readings table a = (table.filter (fun x => p.isPrefixOf x.1)).map (fun x => ⟨some x.2, x.1[1]? ≠ some '-', e.isSome, e⟩) := by
  obtain ⟨t, rfl⟩ := ha
  simp only [readings]
  rw [if_pos (by simp)]
  rw [hpe]

theorem partition_dashes {a : Text} (ha : ['-', '-'] <+: a) : ['-', '-'] <+: (partitionEq a).1 := by
  obtain ⟨t, rfl⟩ := ha
  exact ⟨(partitionEq t).1, by simp [partitionEq]⟩

theorem table_nodup : table.Nodup := by decide +kernel

/-- The three cases. -/
theorem filter_cases (p : Text) (hp : ['-', '-'] <+: p) :
    (∃ o, Names p o ∧ table.filter (fun x => p.isPrefixOf x.1) = [(o.long, o)]) ∨
    ((∀ o : Opt, ¬ p <+: o.long) ∧ table.filter (fun x => p.isPrefixOf x.1) = []) ∨
    ((∀ o, ¬ Names p o) ∧ (∃ o : Opt, p <+: o.long) ∧ ∃ x y l, table.filter (fun x => p.isPrefixOf x.1) = x :: y :: l) := by
  have hmem : ∀ x, x ∈ table.filter (fun x => p.isPrefixOf x.1) ↔ ∃ o : Opt, p <+: o.long ∧ x = (o.long, o) := by
    intro x
    simp only [List.mem_filter, List.isPrefixOf_iff_prefix]
    constructor
    · rintro ⟨h1, h2⟩
      have := prefix_long hp h1 h2
      refine ⟨x.2, ?_, this⟩
      rw [this] at h2; exact h2
    · rintro ⟨o, h1, rfl⟩
      exact ⟨long_mem o, h1⟩
  have hnd : (table.filter (fun x => p.isPrefixOf x.1)).Nodup := table_nodup.sublist List.filter_sublist
  generalize table.filter (fun x => p.isPrefixOf x.1) = l at hmem hnd
  match l with
  | [] =>
    right; left
    exact ⟨fun o ho => (nomatch (hmem _).2 ⟨o, ho, rfl⟩), rfl⟩
  | [x] =>
    left
    obtain ⟨o, ho, rfl⟩ := (hmem x).1 (by simp)
    refine ⟨o, ⟨hp, ho, ?_⟩, rfl⟩
    intro o' ho'
    have := (hmem _).2 ⟨o', ho', rfl⟩
    simp only [List.mem_singleton] at this
    exact congrArg Prod.snd this
  | x :: y :: l =>
    right; right
    obtain ⟨o1, h1, rfl⟩ := (hmem x).1 (by simp)
    obtain ⟨o2, h2, rfl⟩ := (hmem y).1 (by simp)
    refine ⟨?_, ⟨o1, h1⟩, _, _, _, rfl⟩
    rintro o ⟨_, _, hu⟩
    have e1 := hu o1 h1
    have e2 := hu o2 h2
    subst e1; subst e2
    simp at hnd

theorem names_exact (o : Opt) : Names o.long o :=
  ⟨long_dashes o, List.prefix_refl _, fun _ h => (long_prefix h).symm⟩

theorem names_noeq {p : Text} {o : Opt} (h : Names p o) : '=' ∉ p := fun hm => long_noeq o (h.2.1.subset hm)

theorem parse_double (digit : Char → Bool) (a : Text) (ha : ['-', '-'] <+: a) (hne : a ≠ ['-', '-']) :
    (∃ o, Names (partitionEq a).1 o ∧
      parseOptional digit table a = .ok (some ⟨some o, false, (partitionEq a).2.isSome, (partitionEq a).2⟩)) ∨
    ((∀ o : Opt, ¬ (partitionEq a).1 <+: o.long) ∧ parseOptional digit table a = noOption digit a) ∨
    ((∀ o, ¬ Names (partitionEq a).1 o) ∧ (∃ o : Opt, (partitionEq a).1 <+: o.long) ∧ parseOptional digit table a = .error ()) := by
  have hd := partition_dashes ha
  have hr := readings_double (partitionEq a).1 (partitionEq a).2 a ha rfl
  have hhead : a.head? = some '-' := by obtain ⟨t, rfl⟩ := ha; rfl
  have h1 : ∀ o : Opt, decide (o.long[1]? ≠ some '-') = false := by intro o; cases o <;> decide +kernel
  have hlen : a.length ≠ 1 := by obtain ⟨t, rfl⟩ := ha; simp
  have hlook : ∀ {q : Text} {o}, ['-', '-'] <+: q → lookup table q = some o → q = o.long := by
    intro q o hq h
    exact congrArg Prod.fst (prefix_long hq (lookup_iff.1 h) (List.prefix_refl _))
  unfold parseOptional
  rw [if_neg (by simp [hhead])]
  cases hl : lookup table a with
  | some o =>
    left
    have hao := hlook ha hl
    subst hao
    rw [partitionEq_noeq (long_noeq o)]
    exact ⟨o, names_exact o, by simp only [h1]; rfl⟩
  | none =>
    simp only [if_neg hlen]
    cases he : (partitionEq a).2 with
    | none =>
      simp only []
      rw [hr, he]
      rcases filter_cases _ hd with ⟨o, hN, hf⟩ | ⟨hno, hf⟩ | ⟨hno, hex, x, y, l, hf⟩
      · left
        rw [hf]
        exact ⟨o, hN, by simp only [List.map_cons, List.map_nil, h1]⟩
      · right; left
        rw [hf]
        exact ⟨hno, rfl⟩
      · right; right
        rw [hf]
        exact ⟨hno, hex, rfl⟩
    | some v =>
      cases hp : lookup table (partitionEq a).1 with
      | some o =>
        left
        have hao := hlook hd hp
        simp only []
        rw [hao]
        exact ⟨o, names_exact o, by simp only [h1]; rfl⟩
      | none =>
        simp only []
        rw [hr, he]
        rcases filter_cases _ hd with ⟨o, hN, hf⟩ | ⟨hno, hf⟩ | ⟨hno, hex, x, y, l, hf⟩
        · left
          rw [hf]
          exact ⟨o, hN, by simp only [List.map_cons, List.map_nil, h1]⟩
        · right; left
          rw [hf]
          exact ⟨hno, rfl⟩
        · right; right
          rw [hf]
          exact ⟨hno, hex, rfl⟩

/-! ### Values -/

theorem dropWhile_nil_iff {p : Char → Bool} {s : Text} : s.dropWhile p = [] ↔ ∀ c ∈ s, p c = true := by
  induction s with
  | nil => simp
  | cons c s ih =>
    simp only [List.dropWhile_cons]
    split
    · rename_i h; rw [ih]; simp [h]
    · rename_i h; simp [h]

theorem dropWhile_split (p : Char → Bool) (s : Text) : ∃ a, s = a ++ s.dropWhile p ∧ ∀ c ∈ a, p c = true := by
  refine ⟨s.takeWhile p, (List.takeWhile_append_dropWhile).symm, ?_⟩
  intro c hc
  induction s with
  | nil => simp at hc
  | cons d s ih =>
    simp only [List.takeWhile_cons] at hc
    split at hc
    · rcases List.mem_cons.1 hc with rfl | hc
      · assumption
      · exact ih hc
    · simp at hc

/-- The part of `negative` after the dash and without a line feed at the end. -/
def numeral (digit : Char → Bool) (w : Text) : Prop :=
  (w ≠ [] ∧ ∀ c ∈ w, digit c = true) ∨ ∃ a b, w = a ++ '.' :: b ∧ (∀ c ∈ a, digit c = true) ∧ b ≠ [] ∧ ∀ c ∈ b, digit c = true

theorem numeral_iff {digit : Char → Bool} (hd : Digits digit) (w : Text) :
    isNumeral digit w = true ↔ numeral digit w := by
  unfold isNumeral
  have hsplit : ∀ a b : Text, (∀ c ∈ a, digit c = true) → (a ++ '.' :: b).dropWhile digit = '.' :: b := by
    intro a b ha
    induction a with
    | nil => simp [hd.point]
    | cons c a ih => simp [ha c (by simp), ih (fun x hx => ha x (by simp [hx]))]
  constructor
  · intro h
    split at h
    · rename_i hr
      left
      refine ⟨by intro h0; rw [h0] at h; simp at h, dropWhile_nil_iff.1 hr⟩
    · rename_i f hr
      right
      obtain ⟨a, h1, h2⟩ := dropWhile_split digit w
      rw [hr] at h1
      simp only [Bool.and_eq_true, Bool.not_eq_true', List.isEmpty_eq_false_iff, List.all_eq_true] at h
      exact ⟨a, f, h1, h2, h.1, h.2⟩
    · exact nomatch h
  · rintro (⟨h1, h2⟩ | ⟨a, b, rfl, h1, h2, h3⟩)
    · rw [dropWhile_nil_iff.2 h2]
      cases w with
      | nil => exact absurd rfl h1
      | cons _ _ => rfl
    · rw [hsplit a b h1]
      simp only [Bool.and_eq_true, Bool.not_eq_true', List.isEmpty_eq_false_iff, List.all_eq_true]
      exact ⟨h2, h3⟩

theorem numeral_last {digit : Char → Bool} (hd : Digits digit) {w : Text} (h : numeral digit w) : w.getLast? ≠ some '\n' := by
  intro hl
  obtain ⟨ys, hw⟩ := List.getLast?_eq_some_iff.1 hl
  rcases h with ⟨_, h2⟩ | ⟨a, b, h1, _, h3, h4⟩
  · have := h2 '\n' (by rw [hw]; simp)
    rw [hd.newline] at this
    exact nomatch this
  · have hb : b.getLast? = some '\n' := by
      rw [h1, List.getLast?_append] at hl
      cases b with
      | nil => exact absurd rfl h3
      | cons x b => simpa [List.getLast?_cons] using hl
    obtain ⟨zs, hz⟩ := List.getLast?_eq_some_iff.1 hb
    have := h4 '\n' (by rw [hz]; simp)
    rw [hd.newline] at this
    exact nomatch this

theorem negative_iff {digit : Char → Bool} (hd : Digits digit) (v : Text) : negative digit v = true ↔ Number digit v := by
  unfold negative
  split
  · rename_i s
    by_cases hn : s.getLast? = some '\n'
    · simp only [if_pos hn]
      obtain ⟨w, rfl⟩ := List.getLast?_eq_some_iff.1 hn
      rw [List.dropLast_concat]
      rw [numeral_iff hd]
      constructor
      · intro h; exact ⟨w, .inr rfl, h⟩
      · rintro ⟨w', h1 | h1, h2⟩
        · injection h1 with _ h1
          rw [← h1] at h2
          exact absurd hn (numeral_last hd h2)
        · injection h1 with _ h1
          rw [List.append_cancel_right h1]; exact h2
    · simp only [if_neg hn]
      rw [numeral_iff hd]
      constructor
      · intro h; exact ⟨s, .inl rfl, h⟩
      · rintro ⟨w', h1 | h1, h2⟩
        · injection h1 with _ h1
          rw [h1]; exact h2
        · injection h1 with _ h1
          rw [h1] at hn
          simp at hn
  · rename_i hno
    constructor
    · intro h; exact nomatch h
    · rintro ⟨w, h1 | h1, _⟩
      · exact absurd h1 (hno _)
      · exact absurd h1 (hno _)

theorem noOption_none {digit : Char → Bool} (hd : Digits digit) (v : Text) : noOption digit v = .ok none ↔ Number digit v ∨ ' ' ∈ v := by
  rw [← negative_iff hd]
  unfold noOption
  split
  · rename_i h; simp [h]
  · rename_i h
    split
    · rename_i h'; simp at h'; simp [h']
    · rename_i h'
      simp at h'
      simp [h, h']

/-- Every string that `argparse` does not take for an option can stand alone as a value. -/
theorem value_iff {digit : Char → Bool} (hd : Digits digit) (v : Text) (hne : v ≠ ['-', '-']) :
    parseOptional digit table v = .ok none ↔ Value digit v := by
  by_cases hh : v.head? = some '-'
  · obtain ⟨v', rfl⟩ : ∃ v', v = '-' :: v' := by
      cases v with
      | nil => exact nomatch hh
      | cons x v => injection hh with hh; exact ⟨v, by rw [hh]⟩
    match v' with
    | [] =>
      have : parseOptional digit table ['-'] = .ok none := by
        unfold parseOptional
        rw [if_neg (by simp), show lookup table ['-'] = none by decide +kernel]
        rfl
      simp [this, Value]
    | c :: e =>
      by_cases hc : c = '-'
      · subst hc
        have hpre : ['-', '-'] <+: '-' :: '-' :: e := ⟨e, rfl⟩
        have hV : Value digit ('-' :: '-' :: e) ↔ (∀ o : Opt, ¬ (partitionEq ('-' :: '-' :: e)).1 <+: o.long) ∧ (Number digit ('-' :: '-' :: e) ∨ ' ' ∈ '-' :: '-' :: e) := by
          constructor
          · rintro (h | h | ⟨⟨_, h1⟩, h2⟩)
            · simp at h
            · simp at h
            · exact ⟨h1 _ (beforeEq_iff.2 rfl) (partition_dashes hpre), h2⟩
          · rintro ⟨h1, h2⟩
            refine .inr (.inr ⟨⟨?_, ?_⟩, h2⟩)
            · intro c w hcw
              injection hcw with _ hcw
              injection hcw with hcw
              rw [← hcw]; exact letter_dash
            · intro p hp _ o
              rw [beforeEq_iff.1 hp]; exact h1 o
        rw [hV]
        rcases parse_double digit _ hpre hne with ⟨o, hN, h⟩ | ⟨hno, h⟩ | ⟨_, ⟨o, ho⟩, h⟩
        · rw [h]
          constructor
          · intro h'; injection h' with h'; exact nomatch h'
          · rintro ⟨h1, _⟩; exact absurd hN.2.1 (h1 o)
        · rw [h, noOption_none hd]
          exact ⟨fun h => ⟨hno, h⟩, fun h => h.2⟩
        · rw [h]
          constructor
          · intro h'; exact nomatch h'
          · rintro ⟨h1, _⟩; exact absurd ho (h1 o)
      · have hV : Value digit ('-' :: c :: e) ↔ letter c = none ∧ (Number digit ('-' :: c :: e) ∨ ' ' ∈ '-' :: c :: e) := by
          constructor
          · rintro (h | h | ⟨⟨h1, _⟩, h2⟩)
            · simp at h
            · simp at h
            · exact ⟨h1 c e rfl, h2⟩
          · rintro ⟨h1, h2⟩
            refine .inr (.inr ⟨⟨?_, ?_⟩, h2⟩)
            · intro c' w hcw
              injection hcw with _ hcw
              injection hcw with hcw
              rw [← hcw]; exact h1
            · intro p hp hpd o ho
              have hb := beforeEq_iff.1 hp
              obtain ⟨t, rfl⟩ := hpd
              by_cases hceq : c = '='
              · subst hceq; simp [partitionEq] at hb
              · simp [partitionEq, hceq] at hb
                exact hc hb.1.symm
        rw [hV, parse_single digit c e hc]
        cases hl : letter c with
        | some o =>
          simp only [reduceCtorEq, false_and, iff_false]
          intro h'; injection h' with h'; exact nomatch h'
        | none =>
          simp only [noOption_none hd, true_and]
  · have : parseOptional digit table v = .ok none := by
      unfold parseOptional
      rw [if_pos hh]
    simp [this, Value, hh]

theorem dashes_no_value {digit : Char → Bool} : ¬ Value digit ['-', '-'] := by
  rintro (h | h | ⟨⟨_, h⟩, _⟩)
  · simp at h
  · simp at h
  · exact h ['-', '-'] ⟨by decide, .inl rfl⟩ (List.prefix_refl _) .debug (long_dashes _)

/-! ### Groups of letters -/

theorem tail_cases (e : Text) : e = [] ∨ (∃ v, e = '=' :: v) ∨ ∃ x v, e = x :: v ∧ x ≠ '=' := by
  match e with
  | [] => exact .inl rfl
  | x :: v =>
    by_cases h : x = '='
    · exact .inr (.inl ⟨v, by rw [h]⟩)
    · exact .inr (.inr ⟨x, v, rfl, h⟩)

theorem unpack_value {o : Opt} (h : o.takes = true) (single sep : Bool) (v : Text) : unpack table o single sep (some v) = ([], .value o v) := by
  match v with
  | [] => simp [unpack, letters, h]
  | [_] => simp [unpack, letters, h]
  | _ :: _ :: _ => simp [unpack, letters, h]

theorem unpack_flag_bad {o : Opt} (h : o.takes = false) (single : Bool) (v : Text) : unpack table o single true (some v) = ([], .bad) := by
  match v with
  | [] => simp [unpack, letters, h]
  | [_] => simp [unpack, letters, h]
  | _ :: _ :: _ => simp [unpack, letters, h]

theorem unpack_double_bad {o : Opt} (h : o.takes = false) (sep : Bool) (v : Text) : unpack table o false sep (some v) = ([], .bad) := by
  match v with
  | [] => simp [unpack, letters, h]
  | [_] => simp [unpack, letters, h]
  | _ :: _ :: _ => simp [unpack, letters, h]

theorem unpack_more {o o' : Opt} (h : o.takes = false) {c : Char} (e : Text) (hc : letter c = some o') :
    unpack table o true (tail (c :: e)).1 (tail (c :: e)).2 =
      (o :: (unpack table o' true (tail e).1 (tail e).2).1, (unpack table o' true (tail e).1 (tail e).2).2) := by
  have hceq : c ≠ '=' := by rintro rfl; rw [letter_eq] at hc; exact nomatch hc
  have hcd : (c == '-') = false := by
    rw [beq_eq_false_iff_ne]; rintro rfl; rw [letter_dash] at hc; exact nomatch hc
  rw [tail_other hceq]
  rcases tail_cases e with rfl | ⟨v, rfl⟩ | ⟨x, v, rfl, hx⟩
  · simp [unpack, letters, h, hcd, lookup_letter, hc, tail]
  · simp [unpack, letters, h, hcd, lookup_letter, hc, tail]
  · rw [tail_other hx]
    simp only [unpack]
    conv => lhs; rw [letters]
    simp only [h, Bool.false_eq_true, if_false, Bool.not_true, Bool.false_or, hcd, lookup_letter, hc, if_neg hx]

theorem unpack_unknown {o : Opt} (h : o.takes = false) {c : Char} (e : Text) (hc : letter c = none) :
    (unpack table o true (tail (c :: e)).1 (tail (c :: e)).2).2 = .bad ∨ (unpack table o true (tail (c :: e)).1 (tail (c :: e)).2).2 = .extra := by
  by_cases hceq : c = '='
  · subst hceq
    left
    show (unpack table o true true (some e)).2 = _
    rw [unpack_flag_bad h]
  · rw [tail_other hceq]
    cases e with
    | nil =>
      simp only [unpack, letters, h, Bool.false_eq_true, if_false, Bool.not_true, Bool.false_or, lookup_letter, hc]
      split
      · exact .inl rfl
      · exact .inr rfl
    | cons x e =>
      simp only [unpack, letters, h, Bool.false_eq_true, if_false, Bool.not_true, Bool.false_or, lookup_letter, hc]
      split
      · exact .inl rfl
      · exact .inr rfl

/-- What the options of one string set. -/
def reads : List Opt × Last → List Setting → Option Opt → Prop
  | (fs, .flag o), ss, none => ss = (fs ++ [o]).map (·, none)
  | (fs, .value o v), ss, none => ss = fs.map (·, none) ++ [(o, some v)]
  | (fs, .next o), ss, some o' => o' = o ∧ ss = fs.map (·, none)
  | _, _, _ => False

theorem reads_cons {o : Opt} {r : List Opt × Last} {ss : List Setting} {w : Option Opt} :
    reads (o :: r.1, r.2) ss w ↔ ∃ ss', ss = (o, none) :: ss' ∧ reads r ss' w := by
  obtain ⟨fs, l⟩ := r
  cases l <;> cases w <;> simp [reads]
  exact and_comm

theorem group_iff (c : Char) (e : Text) (ss : List Setting) (w : Option Opt) :
    Group (c :: e) ss w ↔ ∃ o, letter c = some o ∧ reads (unpack table o true (tail e).1 (tail e).2) ss w := by
  induction e generalizing c ss w with
  | nil =>
    constructor
    · intro h
      generalize hs : [c] = s at h
      cases h with
      | flag h1 h2 =>
        injection hs with hs; subst hs
        exact ⟨_, h1, by simp [tail, unpack, (takes_iff _).2 h2, reads]⟩
      | more h1 h2 h3 =>
        injection hs with _ hs; subst hs
        cases h3
      | value h1 h2 h3 =>
        injection hs with _ hs; exact absurd hs.symm h3
      | equals => injection hs with _ hs; exact nomatch hs
      | wait h1 h2 =>
        injection hs with hs; subst hs
        exact ⟨_, h1, by simp [tail, unpack, (takes_iff' _).2 h2, reads]⟩
    · rintro ⟨o, h1, h2⟩
      by_cases ht : o.takes = true
      · simp only [tail, unpack, ht, if_true] at h2
        cases w with
        | none => exact absurd h2 (by simp [reads])
        | some o' =>
          obtain ⟨rfl, rfl⟩ := h2
          exact .wait h1 ((takes_iff' _).1 ht)
      · have ht' : o.takes = false := by simpa using ht
        simp only [tail, unpack, ht', Bool.false_eq_true, if_false] at h2
        cases w with
        | none =>
          have : ss = [(o, none)] := h2
          subst this
          exact .flag h1 ((takes_iff _).1 ht')
        | some o' => exact absurd h2 (by simp [reads])
  | cons x e ih =>
    constructor
    · intro h
      generalize hs : c :: x :: e = s at h
      cases h with
      | flag => injection hs with _ hs; exact nomatch hs
      | wait => injection hs with _ hs; exact nomatch hs
      | @more c' o e' ss' w' h1 h2 h3 =>
        injection hs with hs1 hs; subst hs1; subst hs
        obtain ⟨o', h4, h5⟩ := (ih x ss' w).1 h3
        refine ⟨o, h1, ?_⟩
        rw [unpack_more ((takes_iff _).2 h2) e h4, reads_cons]
        exact ⟨ss', rfl, h5⟩
      | @value c' o v h1 h2 h3 h4 =>
        injection hs with hs1 hs; subst hs1; subst hs
        refine ⟨o, h1, ?_⟩
        rw [tail_other (by intro hx; exact h4 (by rw [hx]; rfl)), unpack_value ((takes_iff' _).2 h2)]
        exact rfl
      | @equals c' o v h1 h2 =>
        injection hs with hs1 hs; injection hs with hs2 hs
        subst hs1; subst hs2; subst hs
        refine ⟨o, h1, ?_⟩
        show reads (unpack table o true true (some e)) _ _
        rw [unpack_value ((takes_iff' _).2 h2)]
        exact rfl
    · rintro ⟨o, h1, h2⟩
      by_cases ht : o.takes = true
      · by_cases hx : x = '='
        · subst hx
          replace h2 : reads (unpack table o true true (some e)) ss w := h2
          rw [unpack_value ht] at h2
          cases w with
          | none =>
            have : ss = [(o, some e)] := h2
            subst this
            exact .equals h1 ((takes_iff' _).1 ht)
          | some _ => exact absurd h2 (by simp [reads])
        · rw [tail_other hx, unpack_value ht] at h2
          cases w with
          | none =>
            have : ss = [(o, some (x :: e))] := h2
            subst this
            exact .value h1 ((takes_iff' _).1 ht) (by simp) (by simpa using hx)
          | some _ => exact absurd h2 (by simp [reads])
      · have ht' : o.takes = false := by simpa using ht
        cases hl : letter x with
        | none =>
          exfalso
          rcases unpack_unknown ht' e hl with hb | hb
          all_goals
            generalize unpack table o true (tail (x :: e)).1 (tail (x :: e)).2 = r at h2 hb
            obtain ⟨fs, l⟩ := r
            subst hb
            cases w <;> exact h2
        | some o' =>
          rw [unpack_more ht' e hl, reads_cons] at h2
          obtain ⟨ss', rfl, h3⟩ := h2
          exact .more h1 ((takes_iff _).1 ht') ((ih x ss' w).2 ⟨o', hl, h3⟩)

/-! ### Items -/

theorem names_partition {p : Text} {o : Opt} (h : Names p o) : partitionEq p = (p, none) := partitionEq_noeq (names_noeq h)

theorem names_ne {p : Text} {o : Opt} (h : Names p o) : p ≠ ['-', '-'] := by
  rintro rfl
  have h1 := h.2.2 .debug (long_dashes _)
  have h2 := h.2.2 .quiet (long_dashes _)
  rw [← h1] at h2
  exact nomatch h2

/-- Every reading of a string as one with two dashes. -/
theorem double_names (digit : Char → Bool) {a p : Text} {o : Opt} (ha : ['-', '-'] <+: a) (hne : a ≠ ['-', '-']) (hp : (partitionEq a).1 = p)
    (h : Names p o) : parseOptional digit table a = .ok (some ⟨some o, false, (partitionEq a).2.isSome, (partitionEq a).2⟩) := by
  subst hp
  rcases parse_double digit a ha hne with ⟨o', hN, h'⟩ | ⟨hno, _⟩ | ⟨hno, _⟩
  · rw [h.2.2 o' hN.2.1] at h'; exact h'
  · exact absurd h.2.1 (hno o)
  · exact absurd h (hno o)

/-- What a setting does. -/
def apply (n : Ns) (s : Setting) : Ns := match s.2 with
  | none => (setFlag n s.1).getD n
  | some v => setValue n s.1 v

theorem group_form {e : Text} {ss : List Setting} {w : Option Opt} (h : Group e ss w) : ∀ s ∈ ss, s.2 = none ↔ s.1.IsFlag := by
  induction h with
  | flag h1 h2 => intro s hs; simp only [List.mem_singleton] at hs; subst hs; exact ⟨fun _ => h2, fun _ => rfl⟩
  | more h1 h2 _ ih =>
    intro s hs
    rcases List.mem_cons.1 hs with rfl | hs
    · exact ⟨fun _ => h2, fun _ => rfl⟩
    · exact ih s hs
  | value h1 h2 => intro s hs; simp only [List.mem_singleton] at hs; subst hs; exact ⟨fun h => (nomatch h), fun h => absurd h h2⟩
  | equals h1 h2 => intro s hs; simp only [List.mem_singleton] at hs; subst hs; exact ⟨fun h => (nomatch h), fun h => absurd h h2⟩
  | wait => intro s hs; exact nomatch hs

theorem group_wait {e : Text} {ss : List Setting} {w : Option Opt} (h : Group e ss w) : ∀ o, w = some o → ¬ o.IsFlag := by
  induction h with
  | flag => intro o h; exact nomatch h
  | more _ _ _ ih => exact ih
  | value => intro o h; exact nomatch h
  | equals => intro o h; exact nomatch h
  | wait _ h2 => intro o h; injection h with h; rw [← h]; exact h2

theorem item_form {digit : Char → Bool} {a : List Text} {ss : List Setting} (h : Item digit a ss) : ∀ s ∈ ss, s.2 = none ↔ s.1.IsFlag := by
  cases h with
  | group h => exact group_form h
  | groupValue h _ =>
    intro s hs
    rcases List.mem_append.1 hs with hs | hs
    · exact group_form h s hs
    · simp only [List.mem_singleton] at hs; subst hs
      exact ⟨fun h' => (nomatch h'), fun h' => absurd h' (group_wait h _ rfl)⟩
  | long _ h2 => intro s hs; simp only [List.mem_singleton] at hs; subst hs; exact ⟨fun _ => h2, fun _ => rfl⟩
  | equals _ h2 => intro s hs; simp only [List.mem_singleton] at hs; subst hs; exact ⟨fun h => (nomatch h), fun h => absurd h h2⟩
  | longValue _ h2 _ => intro s hs; simp only [List.mem_singleton] at hs; subst hs; exact ⟨fun h => (nomatch h), fun h => absurd h h2⟩

theorem line_form {digit : Char → Bool} {a : List Text} {ss : List Setting} {c : Option App.Cmd} (h : Line digit a ss c) :
    ∀ s ∈ ss, s.2 = none ↔ s.1.IsFlag := by
  induction h with
  | nil => intro s hs; exact nomatch hs
  | run => intro s hs; exact nomatch hs
  | version => intro s hs; exact nomatch hs
  | item hi _ ih =>
    intro s hs
    rcases List.mem_append.1 hs with hs | hs
    · exact item_form hi s hs
    · exact ih s hs

theorem setFlags_plain (fs : List Opt) (n : Ns) (h1 : ∀ o ∈ fs, o.IsFlag) (h2 : Plain (fs.map (·, none))) :
    setFlags n fs = some ((fs.map (·, none)).foldl apply n) := by
  induction fs generalizing n with
  | nil => rfl
  | cons o fs ih =>
    have hp := h2 (o, none) (by simp)
    have ho := h1 o (by simp)
    have hrest := fun n => ih n (fun x hx => h1 x (by simp [hx])) (fun s hs => h2 s (by simp at hs ⊢; exact .inr hs))
    rcases ho with rfl | rfl | rfl | rfl
    · exact absurd rfl hp.1
    · exact absurd rfl hp.2
    · simp only [setFlags, setFlag, List.map_cons, List.foldl_cons, apply, Option.getD_some]; exact hrest _
    · simp only [setFlags, setFlag, List.map_cons, List.foldl_cons, apply, Option.getD_some]; exact hrest _

/-- If the flags were set, neither `--help` nor `--version` is among them. -/
theorem setFlags_some {fs : List Opt} {n m : Ns} (h : setFlags n fs = some m) :
    Plain (fs.map (·, none)) ∧ m = (fs.map (·, none)).foldl apply n := by
  induction fs generalizing n with
  | nil => injection h with h; exact ⟨fun s hs => (nomatch hs), h.symm⟩
  | cons o fs ih =>
    simp only [setFlags] at h
    split at h
    · rename_i n' hn'
      obtain ⟨h1, h2⟩ := ih h
      have ho : o ≠ .help ∧ o ≠ .version := by
        constructor
        all_goals
          rintro rfl
          exact nomatch hn'
      refine ⟨?_, ?_⟩
      · intro s hs
        simp only [List.map_cons, List.mem_cons] at hs
        rcases hs with rfl | hs
        · exact ho
        · exact h1 s hs
      · simp only [List.map_cons, List.foldl_cons, apply, hn', Option.getD_some]; exact h2
    · exact nomatch h

theorem classify_opt {digit : Char → Bool} {t : List (Text × Opt)} {a : Text} {f : Found} (hne : a ≠ ['-', '-'])
    (h : parseOptional digit t a = .ok (some f)) (l : List Text) :
    classify digit t (a :: l) = (classify digit t l).map ((a, .opt f) :: ·) := by
  simp only [classify, if_neg hne, h]

theorem classify_arg {digit : Char → Bool} {t : List (Text × Opt)} {a : Text} (hne : a ≠ ['-', '-'])
    (h : parseOptional digit t a = .ok none) (l : List Text) :
    classify digit t (a :: l) = (classify digit t l).map ((a, .arg) :: ·) := by
  simp only [classify, if_neg hne, h]

theorem value_classify {digit : Char → Bool} (hd : Digits digit) {v : Text} (h : Value digit v) (l : List Text) :
    classify digit table (v :: l) = (classify digit table l).map ((v, .arg) :: ·) := by
  have hne : v ≠ ['-', '-'] := by rintro rfl; exact dashes_no_value h
  exact classify_arg hne ((value_iff hd v hne).2 h) l

theorem walk_flag {t : List (Text × Opt)} {r : Option (Ns → Bool → List (Text × Kind) → Out)} {a : Text} {o o' : Opt} {sg sp : Bool}
    {ex : Option Text} {fs : List Opt} (h : unpack t o sg sp ex = (fs, .flag o')) (l : List (Text × Kind)) (n : Ns) (x : Bool) :
    walk t r ((a, .opt ⟨some o, sg, sp, ex⟩) :: l) n x = match setFlags n (fs ++ [o']) with
      | none => .exit 0
      | some n => walk t r l n x := by
  simp only [walk, h]
  cases setFlags n (fs ++ [o']) <;> rfl

theorem walk_value {t : List (Text × Opt)} {r : Option (Ns → Bool → List (Text × Kind) → Out)} {a : Text} {o o' : Opt} {sg sp : Bool}
    {ex : Option Text} {fs : List Opt} {v : Text} (h : unpack t o sg sp ex = (fs, .value o' v)) (l : List (Text × Kind)) (n : Ns) (x : Bool) :
    walk t r ((a, .opt ⟨some o, sg, sp, ex⟩) :: l) n x = match setFlags n fs with
      | none => .exit 0
      | some n => walk t r l (setValue n o' v) x := by
  simp only [walk, h]
  cases setFlags n fs <;> rfl

theorem walk_next {t : List (Text × Opt)} {r : Option (Ns → Bool → List (Text × Kind) → Out)} {a : Text} {o o' : Opt} {sg sp : Bool}
    {ex : Option Text} {fs : List Opt} (h : unpack t o sg sp ex = (fs, .next o')) (v : Text) (l : List (Text × Kind)) (n : Ns) (x : Bool) :
    walk t r ((a, .opt ⟨some o, sg, sp, ex⟩) :: (v, .arg) :: l) n x = match setFlags n fs with
      | none => .exit 0
      | some n => walk t r l (setValue n o' v) x := by
  simp only [walk, h]
  cases setFlags n fs <;> rfl

/-- Whatever can be read of one string of options: it is classified as an option, and it does what its settings say. -/
theorem item_walk {digit : Char → Bool} (hd : Digits digit) {a : List Text} {ss : List Setting} (h : Item digit a ss) (hp : Plain ss) :
    ∃ k, (∀ l, classify digit table (a ++ l) = (classify digit table l).map (k ++ ·)) ∧
      ∀ r l n x, walk table r (k ++ l) n x = walk table r l (ss.foldl apply n) x := by
  cases h with
  | @group e _ hg =>
    cases e with
    | nil => cases hg
    | cons c e =>
      obtain ⟨o, h1, h2⟩ := (group_iff c e ss none).1 hg
      have hc : c ≠ '-' := by rintro rfl; rw [letter_dash] at h1; exact nomatch h1
      have hpo := parse_single digit c e hc
      rw [h1] at hpo
      refine ⟨[('-' :: c :: e, .opt ⟨some o, true, (tail e).1, (tail e).2⟩)], ?_, ?_⟩
      · intro l
        exact classify_opt (by intro h; injection h with _ h; injection h with h; exact hc h) hpo l
      · intro r l n x
        have hform := group_form hg
        cases hu : unpack table o true (tail e).1 (tail e).2 with
        | mk fs last =>
          rw [hu] at h2
          cases last with
          | flag o' =>
            have hss : ss = (fs ++ [o']).map (·, none) := h2
            subst hss
            rw [List.singleton_append, walk_flag hu, setFlags_plain _ _ (fun o ho => ?_) hp]
            exact (hform (o, none) (List.mem_map_of_mem ho)).1 rfl
          | value o' v =>
            have hss : ss = fs.map (·, none) ++ [(o', some v)] := h2
            subst hss
            rw [List.singleton_append, walk_value hu, setFlags_plain _ _ (fun o ho => ?_) (fun s hs => hp s (by simp at hs ⊢; exact .inl hs))]
            · simp only [List.foldl_append, List.foldl_cons, List.foldl_nil, apply]
            · exact (hform (o, none) (by simp; exact ho)).1 rfl
          | next => exact h2.elim
          | extra => exact h2.elim
          | bad => exact h2.elim
  | @groupValue e ss' ow v hg hv =>
    cases e with
    | nil => cases hg
    | cons c e =>
      obtain ⟨o, h1, h2⟩ := (group_iff c e ss' (some ow)).1 hg
      have hc : c ≠ '-' := by rintro rfl; rw [letter_dash] at h1; exact nomatch h1
      have hpo := parse_single digit c e hc
      rw [h1] at hpo
      refine ⟨[('-' :: c :: e, .opt ⟨some o, true, (tail e).1, (tail e).2⟩), (v, .arg)], ?_, ?_⟩
      · intro l
        show classify digit table (('-' :: c :: e) :: v :: l) = _
        rw [classify_opt (by intro h; injection h with _ h; injection h with h; exact hc h) hpo, value_classify hd hv, Option.map_map]
        rfl
      · intro r l n x
        have hform := group_form hg
        cases hu : unpack table o true (tail e).1 (tail e).2 with
        | mk fs last =>
          rw [hu] at h2
          cases last with
          | next o' =>
            obtain ⟨rfl, rfl⟩ := h2
            show walk table r (_ :: _ :: l) n x = _
            rw [walk_next hu, setFlags_plain _ _ (fun o ho => ?_) (fun s hs => hp s (by simp at hs ⊢; exact .inl hs))]
            · simp only [List.foldl_append, List.foldl_cons, List.foldl_nil, apply]
            · exact (hform (o, none) (by simp; exact ho)).1 rfl
          | flag => exact h2.elim
          | value => exact h2.elim
          | extra => exact h2.elim
          | bad => exact h2.elim
  | @long p o hN hf =>
    have hpo := double_names digit hN.1 (names_ne hN) (by rw [names_partition hN]) hN
    rw [names_partition hN] at hpo
    refine ⟨[(p, .opt ⟨some o, false, false, none⟩)], fun l => classify_opt (names_ne hN) hpo l, ?_⟩
    intro r l n x
    have hu : unpack table o false false none = ([], .flag o) := by simp [unpack, (takes_iff o).2 hf]
    rw [List.singleton_append, walk_flag hu, setFlags_plain ([] ++ [o]) _ (by intro x hx; rw [List.mem_singleton.1 hx]; exact hf) (fun s hs => hp s (by simpa using hs))]
    rfl
  | @equals p o v hN hf =>
    have hpe : partitionEq (p ++ '=' :: v) = (p, some v) := partitionEq_append (names_noeq hN)
    have hne : p ++ '=' :: v ≠ ['-', '-'] := by
      intro h
      have : '=' ∈ (['-', '-'] : Text) := by rw [← h]; simp
      exact absurd this (by decide)
    have hpo := double_names digit (hN.1.trans (List.prefix_append _ _)) hne (by rw [hpe]) hN
    rw [hpe] at hpo
    refine ⟨[(p ++ '=' :: v, .opt ⟨some o, false, true, some v⟩)], fun l => classify_opt hne hpo l, ?_⟩
    intro r l n x
    rw [List.singleton_append, walk_value (unpack_value ((takes_iff' o).2 hf) _ _ _)]
    rfl
  | @longValue p o v hN hf hv =>
    have hpo := double_names digit hN.1 (names_ne hN) (by rw [names_partition hN]) hN
    rw [names_partition hN] at hpo
    refine ⟨[(p, .opt ⟨some o, false, false, none⟩), (v, .arg)], ?_, ?_⟩
    · intro l
      show classify digit table (p :: v :: l) = _
      rw [classify_opt (names_ne hN) hpo, value_classify hd hv, Option.map_map]
      rfl
    · intro r l n x
      have hu : unpack table o false false none = ([], .next o) := by simp [unpack, (takes_iff' o).2 hf]
      show walk table r (_ :: _ :: l) n x = _
      rw [walk_next hu]
      rfl

/-- The subcommand. -/
def withCmd (n : Ns) : Option App.Cmd → Ns
  | none => n
  | some c => { n with cmd := some c }

theorem plain_append {a b : List Setting} : Plain (a ++ b) ↔ Plain a ∧ Plain b := by
  simp only [Plain, List.mem_append]
  exact ⟨fun h => ⟨fun s hs => h s (.inl hs), fun s hs => h s (.inr hs)⟩, fun h s hs => hs.elim (h.1 s) (h.2 s)⟩

theorem line_walk {digit : Char → Bool} (hd : Digits digit) {argv : List Text} {ss : List Setting} {c : Option App.Cmd}
    (h : Line digit argv ss c) (hp : Plain ss) :
    ∃ l, classify digit table argv = some l ∧
      ∀ n, walk table (some (subcommand digit)) l n false = .done (withCmd (ss.foldl apply n) c) false := by
  induction h with
  | nil => exact ⟨[], rfl, fun n => by simp only [walk]; rfl⟩
  | run =>
    refine ⟨[("run".toList, .arg)], ?_, ?_⟩
    · rw [value_classify hd (.inl (by decide))]; rfl
    · intro n; rfl
  | version =>
    refine ⟨[("version".toList, .arg)], ?_, ?_⟩
    · rw [value_classify hd (.inl (by decide))]; rfl
    · intro n; rfl
  | item hi _ ih =>
    obtain ⟨hp1, hp2⟩ := plain_append.1 hp
    obtain ⟨k, h1, h2⟩ := item_walk hd hi hp1
    obtain ⟨l, h3, h4⟩ := ih hp2
    refine ⟨k ++ l, by rw [h1, h3]; rfl, fun n => ?_⟩
    rw [h2, h4, List.foldl_append]

/-! ### What was read is a line -/

theorem readings_mem {t : List (Text × Opt)} {a : Text} {f : Found} {o : Opt} (h : f ∈ readings t a) (ho : f.opt = some o) : ∃ x ∈ t, x.2 = o := by
  unfold readings at h
  split at h
  · obtain ⟨x, hx, rfl⟩ := List.mem_map.1 h
    injection ho with ho
    exact ⟨x, (List.mem_filter.1 hx).1, ho⟩
  · obtain ⟨x, hx, hf⟩ := List.mem_filterMap.1 h
    refine ⟨x, hx, ?_⟩
    split at hf
    · injection hf with hf; rw [← hf] at ho; injection ho
    · split at hf
      · injection hf with hf; rw [← hf] at ho; injection ho
      · exact nomatch hf

theorem parseOptional_mem {digit : Char → Bool} {t : List (Text × Opt)} {a : Text} {f : Found} {o : Opt}
    (h : parseOptional digit t a = .ok (some f)) (ho : f.opt = some o) : ∃ x ∈ t, x.2 = o := by
  unfold parseOptional at h
  split at h
  · injection h with h; exact nomatch h
  · split at h
    · rename_i o' hl
      injection h with h; injection h with h
      rw [← h] at ho; injection ho with ho; subst ho
      exact ⟨_, mem_of_lookup hl, rfl⟩
    · split at h
      · injection h with h; exact nomatch h
      · split at h
        split at h
        · rename_i hl _
          injection h with h; injection h with h
          rw [← h] at ho; injection ho with ho; subst ho
          exact ⟨_, mem_of_lookup hl, rfl⟩
        · split at h
          · exact nomatch h
          · rename_i hr
            injection h with h; injection h with h
            subst h
            exact readings_mem (t := t) (a := a) (by rw [hr]; simp) ho
          · split at h
            · injection h with h; exact nomatch h
            · split at h
              · injection h with h; exact nomatch h
              · injection h with h; injection h with h
                rw [← h] at ho; exact nomatch ho

theorem sub_help : ∀ x ∈ subTable, x.2 = .help := by decide +kernel

/-- `--help` among the letters of one string ends the process. -/
theorem unpack_help (t : List (Text × Opt)) (sg sp : Bool) (ex : Option Text) :
    (unpack t .help sg sp ex).2 = .bad ∨ (∃ fs, (unpack t .help sg sp ex).1 = .help :: fs) ∨ unpack t .help sg sp ex = ([], .flag .help) := by
  match ex with
  | none => exact .inr (.inr (by simp [unpack, Opt.takes]))
  | some [] => exact .inl (by simp [unpack, letters, Opt.takes])
  | some [c] =>
    rw [unpack, letters]
    split
    · exact nomatch ‹Opt.takes .help = true›
    · split
      · exact .inl rfl
      · split
        · exact .inr (.inl ⟨_, rfl⟩)
        · exact .inr (.inl ⟨_, rfl⟩)
  | some (c :: x :: e) =>
    rw [unpack, letters]
    split
    · exact nomatch ‹Opt.takes .help = true›
    · split
      · exact .inl rfl
      · split
        · exact .inr (.inl ⟨_, rfl⟩)
        · exact .inr (.inl ⟨_, rfl⟩)

theorem walk_help (t : List (Text × Opt)) (r : Option (Ns → Bool → List (Text × Kind) → Out)) (a : Text) (sg sp : Bool) (ex : Option Text)
    (l : List (Text × Kind)) (n : Ns) (x : Bool) : ∃ c, (c = 0 ∨ c = 2) ∧ walk t r ((a, .opt ⟨some .help, sg, sp, ex⟩) :: l) n x = .exit c := by
  have key := unpack_help t sg sp ex
  cases hu : unpack t .help sg sp ex with
  | mk fs last =>
    rw [hu] at key
    rcases key with h | ⟨fs', h⟩ | h
    · replace h : last = .bad := h
      subst h
      exact ⟨2, .inr rfl, by simp only [walk, hu]⟩
    · replace h : fs = .help :: fs' := h
      subst h
      cases last with
      | bad => exact ⟨2, .inr rfl, by simp only [walk, hu]⟩
      | extra => exact ⟨0, .inl rfl, by simp only [walk, hu]; rfl⟩
      | flag => exact ⟨0, .inl rfl, by rw [walk_flag hu]; rfl⟩
      | value => exact ⟨0, .inl rfl, by rw [walk_value hu]; rfl⟩
      | next =>
        by_cases hl : ∃ v l', l = (v, Kind.arg) :: l'
        · obtain ⟨v, l', rfl⟩ := hl
          exact ⟨0, .inl rfl, by rw [walk_next hu]; rfl⟩
        · refine ⟨2, .inr rfl, ?_⟩
          simp only [walk, hu]
          split
          · exact absurd ⟨_, _, rfl⟩ hl
          · rfl
    · injection h with h1 h2
      subst h1; subst h2
      exact ⟨0, .inl rfl, by rw [walk_flag hu]; rfl⟩

/-- After the name of the subcommand there is nothing. -/
theorem sub_walk {digit : Char → Bool} (argv : List Text) (l : List (Text × Kind)) (n m : Ns) (x : Bool)
    (hc : classify digit subTable argv = some l) (h : walk subTable none l n x = .done m false) : argv = [] ∧ m = n ∧ x = false := by
  have args : ∀ (as : List Text) n m x, walk subTable none (as.map (·, .arg)) n x = .done m false → x = false ∧ m = n ∧ as = [] := by
    intro as
    induction as with
    | nil => intro n m x h; simp only [List.map_nil, walk] at h; injection h with h1 h2; exact ⟨h2, h1.symm, rfl⟩
    | cons a as ih =>
      intro n m x h
      simp only [List.map_cons, walk] at h
      exact nomatch (ih _ _ _ h).1
  induction argv generalizing l n m x with
  | nil =>
    injection hc with hc
    subst hc
    simp only [walk] at h; injection h with h1 h2
    exact ⟨rfl, h1.symm, h2⟩
  | cons a as ih =>
    simp only [classify] at hc
    split at hc
    · injection hc with hc
      subst hc
      simp only [walk] at h
      exact nomatch (args _ _ _ _ h).1
    · split at hc
      · exact nomatch hc
      · rename_i o ho
        obtain ⟨l', hl', rfl⟩ := Option.map_eq_some_iff.1 hc
        cases o with
        | none =>
          simp only [walk] at h
          exact nomatch (ih _ _ _ _ hl' h).2.2
        | some f =>
          obtain ⟨fo, sg, sp, ex⟩ := f
          cases fo with
          | none =>
            simp only [walk] at h
            exact nomatch (ih _ _ _ _ hl' h).2.2
          | some o =>
            obtain ⟨y, hy, hyo⟩ := parseOptional_mem ho rfl
            rw [sub_help y hy] at hyo
            subst hyo
            obtain ⟨c, _, hw⟩ := walk_help subTable none a sg sp ex l' n x
            simp only at h
            rw [hw] at h
            exact nomatch h

/-- A string that is classified as an argument of its own. -/
theorem classify_head {digit : Char → Bool} (hd : Digits digit) {as : List Text} {v : Text} {l : List (Text × Kind)}
    (h : classify digit table as = some ((v, .arg) :: l)) : ∃ as', as = v :: as' ∧ Value digit v ∧ classify digit table as' = some l := by
  cases as with
  | nil => exact nomatch h
  | cons a as =>
    simp only [classify] at h
    split at h
    · injection h with h; injection h with h; injection h with _ h; exact nomatch h
    · rename_i hne
      split at h
      · exact nomatch h
      · rename_i o ho
        obtain ⟨l', hl', he⟩ := Option.map_eq_some_iff.1 h
        injection he with he1 he2
        injection he1 with he1 he3
        subst he1; subst he2
        cases o with
        | some f => exact nomatch he3
        | none => exact ⟨as, rfl, (value_iff hd a hne).1 ho, hl'⟩

theorem commands_find {a : Text} {x : Text × App.Cmd} (h : commands.find? (fun y => y.1 == a) = some x) :
    (a = "run".toList ∧ x.2 = .run) ∨ (a = "version".toList ∧ x.2 = .version) := by
  have h1 := List.mem_of_find?_eq_some h
  have h2 := List.find?_some h
  simp only [beq_iff_eq] at h2
  rw [← h2]
  simp only [commands, List.mem_cons, List.not_mem_nil, or_false] at h1
  rcases h1 with rfl | rfl
  · exact .inl ⟨rfl, rfl⟩
  · exact .inr ⟨rfl, rfl⟩

/-- The options that can be found. -/
theorem found_cases (digit : Char → Bool) {a : Text} {f : Found} {o : Opt} (hne : a ≠ ['-', '-'])
    (h : parseOptional digit table a = .ok (some f)) (ho : f.opt = some o) :
    (∃ c e, a = '-' :: c :: e ∧ letter c = some o ∧ f = ⟨some o, true, (tail e).1, (tail e).2⟩) ∨
      (Names (partitionEq a).1 o ∧ f = ⟨some o, false, (partitionEq a).2.isSome, (partitionEq a).2⟩) := by
  have hnone : ∀ b : Text, noOption digit b = .ok (some f) → False := by
    intro b hb
    unfold noOption at hb
    split at hb
    · injection hb with hb; exact nomatch hb
    · split at hb
      · injection hb with hb; exact nomatch hb
      · injection hb with hb; injection hb with hb
        rw [← hb] at ho; exact nomatch ho
  match a, hne, h with
  | [], _, h => injection h with h; exact nomatch h
  | [c], _, h =>
    exfalso
    unfold parseOptional at h
    split at h
    · injection h with h; exact nomatch h
    · split at h
      · rename_i o' hl
        rcases mem_table.1 (lookup_iff.1 hl) with h1 | ⟨_, h1, _⟩
        · have := long_length o'
          rw [← h1] at this
          simp at this
        · simp at h1
      · simp at h
  | d :: c :: e, hne, h =>
    by_cases hdd : d = '-'
    · subst hdd
      by_cases hc : c = '-'
      · subst hc
        right
        rcases parse_double digit _ (show ['-', '-'] <+: '-' :: '-' :: e from ⟨e, rfl⟩) hne with ⟨o', hN, h'⟩ | ⟨_, h'⟩ | ⟨_, _, h'⟩
        · rw [h] at h'
          injection h' with h'; injection h' with h'
          subst h'
          injection ho with ho
          subst ho
          exact ⟨hN, rfl⟩
        · rw [h] at h'
          exact (hnone _ h'.symm).elim
        · rw [h] at h'; exact nomatch h'
      · left
        rw [parse_single digit c e hc] at h
        cases hl : letter c with
        | none => rw [hl] at h; exact (hnone _ h).elim
        | some o' =>
          rw [hl] at h
          injection h with h; injection h with h
          subst h
          injection ho with ho
          subst ho
          exact ⟨c, e, rfl, hl, rfl⟩
    · exfalso
      unfold parseOptional at h
      rw [if_pos (by simpa using hdd)] at h
      injection h with h; exact nomatch h

theorem not_flag_plain {o : Opt} (h : ¬ o.IsFlag) : o ≠ .help ∧ o ≠ .version :=
  ⟨fun e => h (.inl e), fun e => h (.inr (.inl e))⟩

theorem plain_value {fs : List Opt} {o : Opt} {v : Option Text} (h : Plain (fs.map (·, none))) (ho : ¬ o.IsFlag) : Plain (fs.map (·, none) ++ [(o, v)]) := by
  rw [plain_append]
  refine ⟨h, fun s hs => ?_⟩
  rw [List.mem_singleton.1 hs]
  exact not_flag_plain ho

/-- What a string with an option sets. -/
theorem found_item (digit : Char → Bool) {a : Text} {f : Found} {o : Opt} (hne : a ≠ ['-', '-'])
    (h : parseOptional digit table a = .ok (some f)) (ho : f.opt = some o) :
    (∀ ss, reads (unpack table o f.single f.sep f.explicit) ss none → Item digit [a] ss) ∧
      (∀ ss o', reads (unpack table o f.single f.sep f.explicit) ss (some o') → ∀ v, Value digit v → Item digit [a, v] (ss ++ [(o', some v)])) := by
  rcases found_cases digit hne h ho with ⟨c, e, rfl, hl, rfl⟩ | ⟨hN, rfl⟩
  · exact ⟨fun ss hs => .group ((group_iff c e ss none).2 ⟨o, hl, hs⟩),
      fun ss o' hs v hv => .groupValue ((group_iff c e ss (some o')).2 ⟨o, hl, hs⟩) hv⟩
  · have ha := partitionEq_eq a
    cases hp : (partitionEq a).2 with
    | none =>
      rw [hp] at ha
      replace ha : a = (partitionEq a).1 := by simpa using ha
      rw [← ha] at hN
      simp only [unpack]
      by_cases hf : o.takes = true
      · simp only [if_pos hf]
        refine ⟨fun ss hs => hs.elim, fun ss o' hs v hv => ?_⟩
        obtain ⟨rfl, rfl⟩ := hs
        exact .longValue hN ((takes_iff' _).1 hf) hv
      · simp only [if_neg hf]
        refine ⟨fun ss hs => ?_, fun ss o' hs => hs.elim⟩
        replace hs : ss = [(o, none)] := hs
        rw [hs]
        exact .long hN ((takes_iff _).1 (by simpa using hf))
    | some v =>
      rw [hp] at ha
      replace ha : a = (partitionEq a).1 ++ '=' :: v := ha
      by_cases hf : o.takes = true
      · simp only [unpack_value hf]
        refine ⟨fun ss hs => ?_, fun ss o' hs => hs.elim⟩
        replace hs : ss = [(o, some v)] := hs
        rw [hs]
        have goal : Item digit [(partitionEq a).1 ++ '=' :: v] [(o, some v)] := .equals hN ((takes_iff' _).1 hf)
        rwa [← ha] at goal
      · simp only [unpack_double_bad (by simpa using hf)]
        exact ⟨fun ss hs => hs.elim, fun ss o' hs => hs.elim⟩

theorem walk_line {digit : Char → Bool} (hd : Digits digit) (k : Nat) : ∀ (argv : List Text), argv.length ≤ k →
    ∀ (l : List (Text × Kind)) (n m : Ns) (x : Bool), classify digit table argv = some l →
      walk table (some (subcommand digit)) l n x = .done m false →
      x = false ∧ ∃ ss c, Line digit argv ss c ∧ Plain ss ∧ m = withCmd (ss.foldl apply n) c := by
  induction k with
  | zero =>
    intro argv hk l n m x hc h
    have : argv = [] := List.length_eq_zero_iff.1 (by omega)
    subst this
    injection hc with hc
    subst hc
    simp only [walk] at h; injection h with h1 h2
    exact ⟨h2, [], none, .nil, fun s hs => (nomatch hs), h1.symm⟩
  | succ k ih =>
    intro argv hk l n m x hc h
    cases argv with
    | nil =>
      injection hc with hc
      subst hc
      simp only [walk] at h; injection h with h1 h2
      exact ⟨h2, [], none, .nil, fun s hs => (nomatch hs), h1.symm⟩
    | cons a as =>
      have hk' : as.length ≤ k := by simp at hk; exact hk
      simp only [classify] at hc
      split at hc
      · rename_i ha
        injection hc with hc
        subst hc
        subst ha
        exfalso
        simp only [walk, subcommand] at h
        split at h
        · injection h with _ h; exact nomatch h
        · have hn : commands.find? (fun y => y.1 == ['-', '-']) = none := by decide +kernel
          rw [hn] at h
          exact nomatch h
      · rename_i hne
        split at hc
        · exact nomatch hc
        · rename_i fo ho
          obtain ⟨l', hl', rfl⟩ := Option.map_eq_some_iff.1 hc
          cases fo with
          | none =>
            simp only [walk, subcommand] at h
            rw [if_neg (by rintro ⟨h, _⟩; exact nomatch h)] at h
            cases hcmd : commands.find? (fun y => y.1 == a) with
            | none => rw [hcmd] at h; exact nomatch h
            | some y =>
              rw [hcmd] at h
              obtain ⟨y1, c⟩ := y
              simp only at h
              cases hsub : classify digit subTable (l'.map (·.1)) with
              | none => rw [hsub] at h; exact nomatch h
              | some l'' =>
                rw [hsub] at h
                obtain ⟨h1, h2, h3⟩ := sub_walk _ _ _ _ _ hsub h
                have hl0 : l' = [] := by simpa using h1
                subst hl0
                have has : as = [] := by
                  cases as with
                  | nil => rfl
                  | cons b bs =>
                    exfalso
                    simp only [classify] at hl'
                    split at hl'
                    · injection hl' with hl'; exact nomatch hl'
                    · split at hl'
                      · exact nomatch hl'
                      · obtain ⟨_, _, he⟩ := Option.map_eq_some_iff.1 hl'
                        exact nomatch he
                subst has
                refine ⟨h3, [], some c, ?_, fun s hs => (nomatch hs), h2⟩
                rcases commands_find hcmd with ⟨rfl, hcc⟩ | ⟨rfl, hcc⟩
                · replace hcc : c = .run := hcc
                  rw [hcc]; exact .run
                · replace hcc : c = .version := hcc
                  rw [hcc]; exact .version
          | some f =>
            obtain ⟨fopt, sg, sp, ex⟩ := f
            cases fopt with
            | none =>
              simp only [walk] at h
              exact nomatch (ih as hk' _ _ _ _ hl' h).1
            | some o =>
              obtain ⟨hi1, hi2⟩ := found_item digit hne ho rfl
              simp only at hi1 hi2
              cases hu : unpack table o sg sp ex with
              | mk fs last =>
                rw [hu] at hi1 hi2
                cases last with
                | bad => simp only [walk, hu] at h; exact nomatch h
                | extra =>
                  simp only [walk, hu] at h
                  split at h
                  · exact nomatch h
                  · exact nomatch (ih as hk' _ _ _ _ hl' h).1
                | flag o' =>
                  simp only at h
                  rw [walk_flag hu] at h
                  split at h
                  · exact nomatch h
                  · rename_i n' hn'
                    obtain ⟨hp1, hn1⟩ := setFlags_some hn'
                    obtain ⟨hx, ss, c, hl, hp2, hm⟩ := ih as hk' _ _ _ _ hl' h
                    refine ⟨hx, _ ++ ss, c, .item (a := [a]) (hi1 _ rfl) hl, plain_append.2 ⟨hp1, hp2⟩, ?_⟩
                    rw [List.foldl_append, ← hn1]; exact hm
                | value o' v =>
                  simp only at h
                  rw [walk_value hu] at h
                  split at h
                  · exact nomatch h
                  · rename_i n' hn'
                    obtain ⟨hp1, hn1⟩ := setFlags_some hn'
                    obtain ⟨hx, ss, c, hl, hp2, hm⟩ := ih as hk' _ _ _ _ hl' h
                    have hit := hi1 _ rfl
                    have hnf : ¬ o'.IsFlag := fun hf => (nomatch (item_form hit (o', some v) (by simp)).2 hf)
                    refine ⟨hx, _ ++ ss, c, .item (a := [a]) hit hl, plain_append.2 ⟨plain_value hp1 hnf, hp2⟩, ?_⟩
                    rw [List.foldl_append, List.foldl_append, ← hn1]; exact hm
                | next o' =>
                  simp only at h
                  by_cases hlf : ∃ v l'', l' = (v, Kind.arg) :: l''
                  · obtain ⟨v, l'', rfl⟩ := hlf
                    rw [walk_next hu] at h
                    split at h
                    · exact nomatch h
                    · rename_i n' hn'
                      obtain ⟨hp1, hn1⟩ := setFlags_some hn'
                      obtain ⟨as', rfl, hv, hcl⟩ := classify_head hd hl'
                      obtain ⟨hx, ss, c, hl, hp2, hm⟩ := ih as' (by simp at hk'; omega) _ _ _ _ hcl h
                      have hit := hi2 _ o' ⟨rfl, rfl⟩ v hv
                      have hnf : ¬ o'.IsFlag := fun hf => (nomatch (item_form hit (o', some v) (by simp)).2 hf)
                      refine ⟨hx, _ ++ ss, c, .item (a := [a, v]) hit hl, plain_append.2 ⟨plain_value hp1 hnf, hp2⟩, ?_⟩
                      rw [List.foldl_append, List.foldl_append, ← hn1]; exact hm
                  · exfalso
                    simp only [walk, hu] at h
                    split at h
                    · exact hlf ⟨_, _, rfl⟩
                    · exact nomatch h

/-! ### What the settings mean -/

theorem getLast?_cons_or {α : Type} (x : α) (l : List α) : (x :: l).getLast? = l.getLast?.or (some x) := by
  cases l with
  | nil => rfl
  | cons y l => rw [List.getLast?_cons_cons]; cases h : (y :: l).getLast? with
    | none => simp at h
    | some z => rfl

theorem given_cons (o : Opt) (s : Setting) (ss : List Setting) : given o (s :: ss) = (given o ss).or (if s.1 = o then s.2 else none) := by
  unfold given
  rw [List.filterMap_cons]
  cases h : (if s.1 = o then s.2 else none) with
  | none => simp
  | some v => simp only; rw [getLast?_cons_or]

theorem opt_beq (a b : Opt) : (a == b) = decide (a = b) := rfl

theorem getD_or {α : Type} (a b : Option α) (d : α) : (a.or b).getD d = a.getD (b.getD d) := by cases a <;> rfl

/-- The settings one after the other. -/
theorem foldl_apply (ss : List Setting) (h : ∀ s ∈ ss, s.2 = none ↔ s.1.IsFlag) (n : Ns) : ss.foldl apply n =
    { logLevel := (given .logLevel ss).getD n.logLevel
      logFile := (given .logFile ss).or n.logFile
      debug := ss.any (·.1 == .debug) || n.debug
      serverUrl := (given .serverUrl ss).or n.serverUrl
      m2mUrl := (given .m2mUrl ss).or n.m2mUrl
      quiet := ss.any (·.1 == .quiet) || n.quiet
      serial := (given .serial ss).or n.serial
      auth := (given .auth ss).or n.auth
      remoteDir := (given .remoteDir ss).or n.remoteDir
      cmd := n.cmd } := by
  induction ss generalizing n with
  | nil => simp [given]
  | cons s ss ih =>
    rw [List.foldl_cons, ih (fun s hs => h s (by simp [hs]))]
    have hs := h s (by simp)
    obtain ⟨o, v⟩ := s
    simp only [given_cons, List.any_cons, opt_beq]
    generalize ss.any (fun x => decide (x.1 = .debug)) = b1
    generalize ss.any (fun x => decide (x.1 = .quiet)) = b2
    cases v with
    | none =>
      rcases hs.1 rfl with h | h | h | h
      all_goals
        replace h : o = _ := h
        subst h
        cases b1 <;> cases b2 <;> simp [apply, setFlag]
    | some v =>
      have hnf : ¬ o.IsFlag := fun hf => (nomatch hs.2 hf)
      cases o
      case help => exact absurd (.inl rfl) hnf
      case version => exact absurd (.inr (.inl rfl)) hnf
      case debug => exact absurd (.inr (.inr (.inl rfl))) hnf
      case quiet => exact absurd (.inr (.inr (.inr rfl))) hnf
      all_goals cases b1 <;> cases b2 <;> simp [apply, setValue, getD_or, Option.or_assoc]

theorem meaning_eq {digit : Char → Bool} {argv : List Text} {ss : List Setting} {c : Option App.Cmd} (h : Line digit argv ss c) :
    withCmd (ss.foldl apply {}) c = meaning ss c := by
  rw [foldl_apply ss (line_form h)]
  cases c <;> simp [withCmd, meaning]

/-- The ways to end. -/
theorem walk_exit (r : Ns → Bool → List (Text × Kind) → Out) (t : List (Text × Opt)) (hr : ∀ n x l c, r n x l = .exit c → c = 0 ∨ c = 2)
    (ro : Option (Ns → Bool → List (Text × Kind) → Out)) (hro : ro = none ∨ ro = some r) (k : Nat) :
    ∀ l : List (Text × Kind), l.length ≤ k → ∀ n x c, walk t ro l n x = .exit c → c = 0 ∨ c = 2 := by
  induction k with
  | zero =>
    intro l hl n x c h
    have : l = [] := List.length_eq_zero_iff.1 (by omega)
    subst this
    simp only [walk] at h; exact nomatch h
  | succ k ih =>
    intro l hl n x c h
    match l, hl, h with
    | [], _, h => simp only [walk] at h; exact nomatch h
    | (a, .opt f) :: l, hl, h =>
      have hl' : l.length ≤ k := by simp at hl; exact hl
      simp only [walk] at h
      split at h
      · exact ih _ hl' _ _ _ h
      · split at h
        · injection h with h; exact .inr h.symm
        · split at h
          · injection h with h; exact .inl h.symm
          · exact ih _ hl' _ _ _ h
        · split at h
          · injection h with h; exact .inl h.symm
          · exact ih _ hl' _ _ _ h
        · split at h
          · injection h with h; exact .inl h.symm
          · exact ih _ hl' _ _ _ h
        · split at h
          · split at h
            · injection h with h; exact .inl h.symm
            · exact ih _ (by simp at hl'; omega) _ _ _ h
          · injection h with h; exact .inr h.symm
    | (a, .arg) :: l, hl, h =>
      have hl' : l.length ≤ k := by simp at hl; exact hl
      rcases hro with rfl | rfl
      · simp only [walk] at h; exact ih _ hl' _ _ _ h
      · simp only [walk] at h; exact hr _ _ _ _ h
    | (a, .dashes) :: l, hl, h =>
      have hl' : l.length ≤ k := by simp at hl; exact hl
      rcases hro with rfl | rfl
      · simp only [walk] at h; exact ih _ hl' _ _ _ h
      · simp only [walk] at h; exact hr _ _ _ _ h

theorem sub_exit (digit : Char → Bool) (n : Ns) (x : Bool) (l : List (Text × Kind)) (c : Nat) (h : subcommand digit n x l = .exit c) : c = 0 ∨ c = 2 := by
  unfold subcommand at h
  split at h
  · exact nomatch h
  · split at h
    · exact nomatch h
    · split at h
      · injection h with h; exact .inr h.symm
      · split at h
        · injection h with h; exact .inr h.symm
        · exact walk_exit (fun n x _ => .done n x) subTable (fun _ _ _ _ h => (nomatch h)) none (.inl rfl) _ _ (Nat.le_refl _) _ _ _ h

end Verif.CommandLine
