import Verif.Spec.Grammar
import Verif.Proofs.Bencode2
/-!
Lemmas for C130.
-/
namespace Verif.Grammar
open Verif
open Verif.Bencode (decodeF listLoop dictLoop readInt readN sizeLoop)

theorem digit_iff (b : UInt8) : isDigitB b = true ↔ Digit b := by simp [isDigitB, Digit]
theorem white_iff (b : UInt8) : isSpaceB b = true ↔ White b := by simp [isSpaceB, White]

/-! ### `int()` -/

/-- What has been read when `parseDigits` goes on with `acc`. -/
def Sofar (p : Bytes) (acc : Nat) (last : Bool) : Prop :=
  if last then Digits p acc else (p = [] ∧ acc = 0) ∨ ∃ q, p = q ++ [95] ∧ Digits q acc

theorem parseDigits_sound {bs : Bytes} : ∀ {p acc last n}, Sofar p acc last → parseDigits acc last bs = some n → Digits (p ++ bs) n := by
  induction bs with
  | nil =>
    intro p acc last n hs h
    cases last with
    | false => simp [parseDigits] at h
    | true => simp [parseDigits] at h; subst h; simpa [Sofar] using hs
  | cons b bs ih =>
    intro p acc last n hs h
    simp only [parseDigits] at h
    split at h
    · rename_i hd
      have hd := (digit_iff b).1 hd
      have : Digits (p ++ [b]) (acc * 10 + (b.toNat - 48)) := by
        rw [Nat.mul_comm]
        cases last with
        | true => exact .more (by simpa [Sofar] using hs) hd
        | false =>
          rcases (by simpa [Sofar] using hs : (p = [] ∧ acc = 0) ∨ ∃ q, p = q ++ [95] ∧ Digits q acc) with ⟨h1, h2⟩ | ⟨q, h1, h2⟩
          · subst h1 h2; simpa using Digits.one hd
          · subst h1; simpa using Digits.underscore h2 hd
      have := ih (p := p ++ [b]) (last := true) (by simpa [Sofar] using this) h
      simpa using this
    · split at h
      · rename_i hu
        simp only [Bool.and_eq_true, beq_iff_eq] at hu
        obtain ⟨hu, hl⟩ := hu
        subst hl
        have hb : b = 95 := UInt8.toNat_inj.1 (by simpa using hu)
        subst hb
        have := ih (p := p ++ [95]) (last := false) (acc := acc) (by
          simp only [Sofar, Bool.false_eq_true, if_false]; exact .inr ⟨p, rfl, by simpa [Sofar] using hs⟩) h
        simpa using this
      · simp at h

theorem parseDigits_complete {bs n} (h : Digits bs n) : ∀ r, parseDigits 0 false (bs ++ r) = parseDigits n true r := by
  induction h with
  | one hd => intro r; simp [parseDigits, (digit_iff _).2 hd]
  | more _ hd ih =>
    intro r; rw [List.append_assoc, ih]
    simp [parseDigits, (digit_iff _).2 hd, Nat.mul_comm]
  | underscore _ hd ih =>
    intro r; rw [List.append_assoc, ih]
    have : isDigitB 95 = false := by decide
    simp [parseDigits, (digit_iff _).2 hd, Nat.mul_comm, this]

theorem parseDigits_iff (bs : Bytes) (n : Nat) : parseDigits 0 false bs = some n ↔ Digits bs n := by
  constructor
  · intro h; simpa using parseDigits_sound (p := []) (by simp [Sofar]) h
  · intro h; simpa [parseDigits] using parseDigits_complete h []

theorem digits_ends {bs n} (h : Digits bs n) : (∃ d r, bs = d :: r ∧ Digit d) ∧ ∃ q d, bs = q ++ [d] ∧ Digit d := by
  induction h with
  | @one d hd => exact ⟨⟨d, [], rfl, hd⟩, [], d, rfl, hd⟩
  | @more bs n d _ hd ih => obtain ⟨⟨a, r, h1, h2⟩, _⟩ := ih; exact ⟨⟨a, r ++ [d], by simp [h1], h2⟩, bs, d, rfl, hd⟩
  | @underscore bs n d _ hd ih =>
    obtain ⟨⟨a, r, h1, h2⟩, _⟩ := ih; exact ⟨⟨a, r ++ [95, d], by simp [h1], h2⟩, bs ++ [95], d, by simp, hd⟩

theorem stripRight_split (bs : Bytes) : ∃ r, bs = stripRight bs ++ r ∧ ∀ b ∈ r, White b := by
  induction bs with
  | nil => exact ⟨[], rfl, by simp⟩
  | cons b bs ih =>
    obtain ⟨r, h1, h2⟩ := ih
    simp only [stripRight]
    split
    · rename_i hn
      rw [hn] at h1
      split
      · rename_i hb
        refine ⟨b :: r, by simp at h1 ⊢; exact h1, ?_⟩
        intro x hx
        rcases List.mem_cons.1 hx with hx | hx
        · subst hx; exact (white_iff _).1 hb
        · exact h2 x hx
      · exact ⟨r, by simp at h1 ⊢; exact h1, h2⟩
    · exact ⟨r, by rw [List.cons_append, ← h1], h2⟩

theorem stripRight_white {r : Bytes} (h : ∀ b ∈ r, White b) : stripRight r = [] := by
  induction r with
  | nil => rfl
  | cons b r ih =>
    simp only [stripRight, ih fun x hx => h x (List.mem_cons_of_mem _ hx), (white_iff b).2 (h b (by simp)), if_true]

theorem stripRight_append {q r : Bytes} {d : UInt8} (hd : ¬ White d) (h : ∀ b ∈ r, White b) : stripRight (q ++ [d] ++ r) = q ++ [d] := by
  induction q with
  | nil =>
    have : isSpaceB d = false := by rw [← Bool.not_eq_true, white_iff]; exact hd
    simp [stripRight, stripRight_white h, this]
  | cons b q ih =>
    simp only [List.cons_append, stripRight]
    rw [List.append_assoc] at ih
    simp only [List.cons_append, List.nil_append] at ih
    simp only [List.append_assoc, List.cons_append, List.nil_append]
    rw [ih]
    cases hq : q ++ [d] with
    | nil => simp at hq
    | cons _ _ => rfl

theorem dropWhile_split (bs : Bytes) : ∃ l, bs = l ++ bs.dropWhile isSpaceB ∧ ∀ b ∈ l, White b := by
  induction bs with
  | nil => exact ⟨[], rfl, by simp⟩
  | cons b bs ih =>
    obtain ⟨l, h1, h2⟩ := ih
    simp only [List.dropWhile_cons]
    split
    · rename_i hb
      refine ⟨b :: l, by rw [List.cons_append, ← h1], ?_⟩
      intro x hx
      rcases List.mem_cons.1 hx with hx | hx
      · subst hx; exact (white_iff _).1 hb
      · exact h2 x hx
    · exact ⟨[], rfl, by simp⟩

theorem dropWhile_append {l r : Bytes} {d : UInt8} (hd : ¬ White d) (h : ∀ b ∈ l, White b) : (l ++ d :: r).dropWhile isSpaceB = d :: r := by
  induction l with
  | nil =>
    have : isSpaceB d = false := by rw [← Bool.not_eq_true, white_iff]; exact hd
    simp [this]
  | cons b l ih =>
    simp only [List.cons_append, List.dropWhile_cons, (white_iff b).2 (h b (by simp)), if_true]
    exact ih fun x hx => h x (List.mem_cons_of_mem _ hx)

theorem digit_not_white {d : UInt8} (h : Digit d) : ¬ White d := by simp only [Digit, White] at *; omega

theorem pyInt_iff (bs : Bytes) (i : Int) : pyInt bs = some i ↔ IntText bs i := by
  constructor
  · intro h
    obtain ⟨r, h1, h2⟩ := stripRight_split bs
    obtain ⟨l, h3, h4⟩ := dropWhile_split (stripRight bs)
    simp only [pyInt] at h
    rw [h1, h3]
    split at h
    · rename_i ds hd
      rw [hd]
      obtain ⟨n, hn, hi⟩ := Option.map_eq_some_iff.1 h
      subst hi
      have := IntText.plus h4 ((parseDigits_iff _ _).1 hn) h2
      simpa using this
    · rename_i ds hd
      rw [hd]
      obtain ⟨n, hn, hi⟩ := Option.map_eq_some_iff.1 h
      subst hi
      have := IntText.minus h4 ((parseDigits_iff _ _).1 hn) h2
      simpa using this
    · obtain ⟨n, hn, hi⟩ := Option.map_eq_some_iff.1 h
      subst hi
      exact .plain h4 ((parseDigits_iff _ _).1 hn) h2
  · intro h
    have key : ∀ (l s ds r : Bytes) (n : Nat), (∀ b ∈ l, White b) → Digits ds n → (∀ b ∈ r, White b) → (s = [] ∨ s = [43] ∨ s = [45]) →
        (stripRight (l ++ s ++ ds ++ r)).dropWhile isSpaceB = s ++ ds := by
      intro l s ds r n hl hd hr hs
      obtain ⟨⟨a, t, h1, h2⟩, q, d, h3, h4⟩ := digits_ends hd
      have e : l ++ s ++ ds ++ r = (l ++ s ++ q) ++ [d] ++ r := by simp [h3]
      rw [e, stripRight_append (digit_not_white h4) hr]
      have e2 : l ++ s ++ q ++ [d] = l ++ (s ++ ds) := by simp [h3]
      rw [e2]
      rcases hs with hs | hs | hs
      · subst hs; rw [List.nil_append, h1]; exact dropWhile_append (digit_not_white h2) hl
      · subst hs; exact dropWhile_append (by simp [White]) hl
      · subst hs; exact dropWhile_append (by simp [White]) hl
    cases h with
    | @plain l ds r n hl hd hr =>
      have := key l [] ds r n hl hd hr (.inl rfl)
      simp only [List.append_nil, List.nil_append] at this
      have hp := (parseDigits_iff _ _).2 hd
      obtain ⟨⟨a, t, h1, h2⟩, hq⟩ := digits_ends hd; clear hq
      simp only [pyInt, this]
      split
      · injection h1 with e _; subst e; simp [Digit] at h2
      · injection h1 with e _; subst e; simp [Digit] at h2
      · simp [hp]
    | @plus l ds r n hl hd hr =>
      have := key l [43] ds r n hl hd hr (.inr (.inl rfl))
      have hp := (parseDigits_iff _ _).2 hd
      simp only [pyInt, this, List.cons_append, List.nil_append, hp]; simp
    | @minus l ds r n hl hd hr =>
      have := key l [45] ds r n hl hd hr (.inr (.inr rfl))
      have hp := (parseDigits_iff _ _).2 hd
      simp only [pyInt, this, List.cons_append, List.nil_append, hp]; simp

theorem pyInt_none (bs : Bytes) : pyInt bs = none ↔ ∀ i, ¬ IntText bs i := by
  constructor
  · intro h i hi; rw [(pyInt_iff bs i).2 hi] at h; simp at h
  · intro h
    cases hp : pyInt bs with
    | none => rfl
    | some i => exact absurd ((pyInt_iff bs i).1 hp) (h i)

/-! ### Dicts -/

theorem mem_firsts (ks : List PyVal) (k : PyVal) : k ∈ firsts ks ↔ k ∈ ks := by
  induction ks with
  | nil => simp [firsts]
  | cons a ks ih =>
    simp only [firsts, List.mem_cons, List.mem_filter, ih, decide_eq_true_eq]
    by_cases h : k = a <;> simp [h]

theorem firsts_nodup (ks : List PyVal) : (firsts ks).Nodup := by
  induction ks with
  | nil => simp [firsts]
  | cons a ks ih =>
    simp only [firsts, List.nodup_cons, List.mem_filter, decide_eq_true_eq, ne_eq, not_true, and_false, not_false_eq_true, true_and]
    exact ih.filter _

theorem firsts_snoc (ks : List PyVal) (k : PyVal) : firsts (ks ++ [k]) = if k ∈ ks then firsts ks else firsts ks ++ [k] := by
  induction ks with
  | nil => simp [firsts]
  | cons a ks ih =>
    simp only [List.cons_append, firsts, ih, List.mem_cons]
    by_cases h : k ∈ ks
    · simp [h]
    · by_cases ha : k = a
      · subst ha; simp [h, List.filter_append]
      · simp [h, ha, List.filter_append]

theorem keyEq_iff {k : PyVal} (hk : Key k) (x : PyVal) : Bencode.keyEq k x = true ↔ k = x := by
  constructor
  · exact Bencode.keyEq_eq
  · rintro rfl
    rcases hk with ⟨b, rfl⟩ | ⟨i, rfl⟩ <;> simp [Bencode.keyEq]

theorem dictSet_keys' {k : PyVal} (hk : Key k) (v : PyVal) (d : List (PyVal × PyVal)) :
    (Bencode.dictSet k v d).map (·.1) = if k ∈ d.map (·.1) then d.map (·.1) else d.map (·.1) ++ [k] := by
  induction d with
  | nil => simp [Bencode.dictSet]
  | cons x d ih =>
    obtain ⟨k', v'⟩ := x
    simp only [Bencode.dictSet]
    by_cases h : Bencode.keyEq k k' = true
    · have := (keyEq_iff hk k').1 h
      subst this
      simp [h]
    · have hne : k ≠ k' := fun he => h ((keyEq_iff hk k').2 he)
      rw [if_neg h]
      simp only [List.map_cons, ih, List.mem_cons]
      by_cases hm : k ∈ d.map (·.1)
      · simp [hm]
      · simp [hm, hne]

theorem dictSet_mem {k : PyVal} (hk : Key k) {v : PyVal} {d : List (PyVal × PyVal)} (hn : (d.map (·.1)).Nodup) {x : PyVal × PyVal}
    (hx : x ∈ Bencode.dictSet k v d) : x = (k, v) ∨ (x ∈ d ∧ x.1 ≠ k) := by
  induction d with
  | nil => simp [Bencode.dictSet] at hx; exact .inl hx
  | cons y d ih =>
    obtain ⟨k', v'⟩ := y
    simp only [List.map_cons, List.nodup_cons] at hn
    simp only [Bencode.dictSet] at hx
    by_cases h : Bencode.keyEq k k' = true
    · have := (keyEq_iff hk k').1 h
      subst this
      rw [if_pos h] at hx
      rcases List.mem_cons.1 hx with hx | hx
      · exact .inl hx
      · exact .inr ⟨List.mem_cons_of_mem _ hx, fun he => hn.1 (he ▸ List.mem_map_of_mem (f := (·.1)) hx)⟩
    · rw [if_neg h] at hx
      rcases List.mem_cons.1 hx with hx | hx
      · subst hx
        exact .inr ⟨by simp, fun he => h ((keyEq_iff hk _).2 he.symm)⟩
      · rcases ih hn.2 hx with h1 | ⟨h1, h2⟩
        · exact .inl h1
        · exact .inr ⟨List.mem_cons_of_mem _ h1, h2⟩

theorem dictOf_snoc {pre d : List (PyVal × PyVal)} {k v : PyVal} (hk : Key k) (h : DictOf pre d) :
    DictOf (pre ++ [(k, v)]) (Bencode.dictSet k v d) := by
  obtain ⟨h1, h2⟩ := h
  refine ⟨?_, ?_⟩
  · rw [dictSet_keys' hk, h1, List.map_append]
    simp only [List.map_cons, List.map_nil, firsts_snoc, mem_firsts]
  · intro x hx
    simp only [List.reverse_append, List.reverse_cons, List.reverse_nil, List.nil_append, List.singleton_append, List.find?_cons]
    rcases dictSet_mem hk (by rw [h1]; exact firsts_nodup _) hx with rfl | ⟨h3, h4⟩
    · simp
    · rw [decide_eq_false (fun he => h4 he.symm)]
      exact h2 x h3

theorem dictOf_fold {kv : List (PyVal × PyVal)} (hk : ∀ x ∈ kv, Key x.1) : ∀ {pre d}, DictOf pre d →
    DictOf (pre ++ kv) (kv.foldl (fun d p => Bencode.dictSet p.1 p.2 d) d) := by
  induction kv with
  | nil => intro pre d h; simpa using h
  | cons x kv ih =>
    intro pre d h
    have := ih (fun y hy => hk y (List.mem_cons_of_mem _ hy)) (dictOf_snoc (v := x.2) (hk x (by simp)) h)
    simpa using this

theorem determined {f : PyVal → Option (PyVal × PyVal)} : ∀ {d d' : List (PyVal × PyVal)}, d.map (·.1) = d'.map (·.1) →
    (∀ x ∈ d, f x.1 = some x) → (∀ x ∈ d', f x.1 = some x) → d = d' := by
  intro d
  induction d with
  | nil => intro d' h _ _; cases d' <;> simp_all
  | cons x d ih =>
    intro d' h h1 h2
    cases d' with
    | nil => simp at h
    | cons y d' =>
      simp only [List.map_cons, List.cons.injEq] at h
      have hx := h1 x (by simp)
      have hy := h2 y (by simp)
      rw [h.1, hy] at hx
      injection hx with hx
      rw [hx, ih h.2 (fun z hz => h1 z (List.mem_cons_of_mem _ hz)) fun z hz => h2 z (List.mem_cons_of_mem _ hz)]

theorem dictOf_unique {kv d d' : List (PyVal × PyVal)} (h : DictOf kv d) (h' : DictOf kv d') : d = d' :=
  determined (f := fun k => kv.reverse.find? (fun y => y.1 = k)) (h.1.trans h'.1.symm) h.2 h'.2

theorem key_hashable {k : PyVal} (h : Key k) : Bencode.hashable k = true := by
  rcases h with ⟨b, rfl⟩ | ⟨i, rfl⟩ <;> rfl

theorem mkDict_iff {kv d : List (PyVal × PyVal)} (hk : ∀ x ∈ kv, Key x.1) : Bencode.mkDict kv = some d ↔ DictOf kv d := by
  have hall : kv.all (fun p => Bencode.hashable p.1) = true := by
    rw [List.all_eq_true]; intro x hx; exact key_hashable (hk x hx)
  have hd : DictOf kv (kv.foldl (fun d p => Bencode.dictSet p.1 p.2 d) []) := by
    simpa using dictOf_fold hk (pre := []) (d := []) (by simp [DictOf, firsts])
  simp only [Bencode.mkDict, hall, if_true]
  constructor
  · intro h; injection h with h; exact h ▸ hd
  · intro h; rw [dictOf_unique h hd]

/-! ### The reader without fuel -/

/-- The reader (`_decode`) with fuel that is always enough. -/
def D (inp : Bytes) : Bencode.DRes := decodeF (2 * inp.length + 1) inp
def L (acc : List PyVal) (inp : Bytes) : Bencode.DRes := listLoop (2 * inp.length + 2) acc inp
def K (acc : List (PyVal × PyVal)) (inp : Bytes) : Bencode.DRes := dictLoop (2 * inp.length + 2) acc inp

theorem D_of {m inp} (h : 2 * inp.length + 1 ≤ m) : decodeF m inp = D inp := by
  by_cases ho : D inp = .out
  · by_cases hm : decodeF m inp = .out
    · rw [hm, ho]
    · exact absurd (((Bencode.fuel m).1 inp _ hm (Nat.le_refl _)).symm.trans ho) hm
  · exact (Bencode.fuel _).1 inp m ho h

theorem L_of {m acc inp} (h : 2 * inp.length + 2 ≤ m) : listLoop m acc inp = L acc inp := by
  by_cases ho : L acc inp = .out
  · by_cases hm : listLoop m acc inp = .out
    · rw [hm, ho]
    · exact absurd (((Bencode.fuel m).2.1 acc inp _ hm (Nat.le_refl _)).symm.trans ho) hm
  · exact (Bencode.fuel _).2.1 acc inp m ho h

theorem K_of {m acc inp} (h : 2 * inp.length + 2 ≤ m) : dictLoop m acc inp = K acc inp := by
  by_cases ho : K acc inp = .out
  · by_cases hm : dictLoop m acc inp = .out
    · rw [hm, ho]
    · exact absurd (((Bencode.fuel m).2.2 acc inp _ hm (Nat.le_refl _)).symm.trans ho) hm
  · exact (Bencode.fuel _).2.2 acc inp m ho h

theorem D_shorter {inp v r} (h : D inp = .ok v r) : r.length < inp.length := (Bencode.consumes _).1 _ _ _ h

theorem L_step (acc inp) : L acc inp = match D inp with
    | .ok v r => if Bencode.isNone v then .ok (.list acc) r else L (acc ++ [v]) r
    | .raise e => .raise e
    | .out => .out := by
  show listLoop (2 * inp.length + 1 + 1) acc inp = _
  rw [listLoop, D_of (Nat.le_refl _)]
  cases hd : D inp with
  | ok v r =>
    have := D_shorter hd
    have : listLoop (2 * inp.length + 1) (acc ++ [v]) r = L (acc ++ [v]) r := L_of (by omega)
    simp only [this]
  | raise e => rfl
  | out => rfl

theorem K_step (acc inp) : K acc inp = match D inp with
    | .ok k r => if Bencode.isNone k then (match Bencode.mkDict acc with
        | some d => .ok (.dict d) r
        | none => .raise .unhashable)
      else match D r with
        | .ok v r' => K (acc ++ [(k, v)]) r'
        | .raise e => .raise e
        | .out => .out
    | .raise e => .raise e
    | .out => .out := by
  show dictLoop (2 * inp.length + 1 + 1) acc inp = _
  rw [dictLoop, D_of (Nat.le_refl _)]
  cases hd : D inp with
  | ok k r =>
    have h1 := D_shorter hd
    have h2 : decodeF (2 * inp.length + 1) r = D r := D_of (by omega)
    simp only [h2]
    cases hd2 : D r with
    | ok v r' =>
      have h3 := D_shorter hd2
      have : dictLoop (2 * inp.length + 1) (acc ++ [(k, v)]) r' = K (acc ++ [(k, v)]) r' := K_of (by omega)
      simp only [this]
      rfl
    | raise e => rfl
    | out => rfl
  | raise e => rfl
  | out => rfl

theorem D_nil : D [] = .raise .decode := rfl
theorem D_none (r) : D (101 :: r) = .ok .none r := by simp [D, decodeF]
theorem D_int (r) : D (105 :: r) = readInt [] r := by simp [D, decodeF]
theorem D_list (r) : D (108 :: r) = L [] r := by
  show decodeF (2 * r.length + 2 + 1) (108 :: r) = _
  simp [decodeF, L]
theorem D_dict (r) : D (100 :: r) = K [] r := by
  show decodeF (2 * r.length + 2 + 1) (100 :: r) = _
  simp [decodeF, K]
theorem D_length {t : UInt8} (h : t ≠ 101 ∧ t ≠ 105 ∧ t ≠ 108 ∧ t ≠ 100) (r) : D (t :: r) = sizeLoop (2 * r.length + 2) [t] r := by
  show decodeF (2 * r.length + 2 + 1) (t :: r) = _
  simp [decodeF, h.1, h.2.1, h.2.2.1, h.2.2.2]

theorem decode_eq (data : Bytes) : Bencode.decode data = match D data with
    | .ok v _ => .ok v
    | .raise e => .raise e
    | .out => .hang := by
  simp only [Bencode.decode]
  rw [D_of (by simp only [Bencode.enough]; omega)]
  cases D data <;> rfl

/-! ### Integers and lengths -/

theorem intByte_iff (c : UInt8) : (!isDigitB c && c != 45) = true ↔ ¬ Digit c ∧ c ≠ 45 := by
  simp [← digit_iff]

theorem int_split (inp : Bytes) : IntBytes inp ∨ ∃ ds c r, inp = ds ++ c :: r ∧ IntBytes ds ∧ ¬ Digit c ∧ c ≠ 45 := by
  induction inp with
  | nil => exact .inl (by simp [IntBytes])
  | cons b inp ih =>
    by_cases hb : Digit b ∨ b = 45
    · rcases ih with h | ⟨ds, c, r, h1, h2, h3, h4⟩
      · exact .inl fun x hx => (List.mem_cons.1 hx).elim (fun e => e ▸ hb) (h x)
      · exact .inr ⟨b :: ds, c, r, by simp [h1], fun x hx => (List.mem_cons.1 hx).elim (fun e => e ▸ hb) (h2 x), h3, h4⟩
    · exact .inr ⟨[], b, inp, rfl, by simp [IntBytes], fun h => hb (.inl h), fun h => hb (.inr h)⟩

theorem readInt_end {ds : Bytes} (h : IntBytes ds) : ∀ acc, readInt acc ds = .raise .decode := by
  induction ds with
  | nil => intro acc; rfl
  | cons b ds ih =>
    intro acc
    have hb : ¬ (!isDigitB b && b != 45) = true := by
      rw [intByte_iff]; rintro ⟨h1, h2⟩; exact (h b (by simp)).elim h1 h2
    simp only [readInt, if_neg hb]
    exact ih (fun x hx => h x (List.mem_cons_of_mem _ hx)) _

theorem readInt_stop {ds : Bytes} {c : UInt8} (r : Bytes) (h : IntBytes ds) (h1 : ¬ Digit c) (h2 : c ≠ 45) : ∀ acc,
    readInt acc (ds ++ c :: r) = if c = 101 then (match pyInt (acc ++ ds) with
      | some i => .ok (.int i) r
      | none => .raise .value) else .raise .decode := by
  induction ds with
  | nil =>
    intro acc
    have hc := (intByte_iff c).2 ⟨h1, h2⟩
    simp only [List.nil_append, readInt, if_pos hc, List.append_nil]
    by_cases he : c = 101
    · simp [he]; cases pyInt acc <;> rfl
    · simp [he]
  | cons b ds ih =>
    intro acc
    have hb : ¬ (!isDigitB b && b != 45) = true := by
      rw [intByte_iff]; rintro ⟨h1, h2⟩; exact (h b (by simp)).elim h1 h2
    simp only [List.cons_append, readInt, if_neg hb]
    rw [ih (fun x hx => h x (List.mem_cons_of_mem _ hx))]
    simp

theorem colon_split (inp : Bytes) : 58 ∉ inp ∨ ∃ ds r, inp = ds ++ 58 :: r ∧ 58 ∉ ds := by
  induction inp with
  | nil => exact .inl (by simp)
  | cons b inp ih =>
    by_cases hb : b = 58
    · subst hb; exact .inr ⟨[], inp, rfl, by simp⟩
    · rcases ih with h | ⟨ds, r, h1, h2⟩
      · exact .inl (by simp [h]; exact fun e => hb e.symm)
      · exact .inr ⟨b :: ds, r, by simp [h1], by simp [h2]; exact fun e => hb e.symm⟩

theorem D_no_colon {ds : Bytes} (h : LengthBytes ds) : D ds = .out := by
  obtain ⟨t, r, rfl, h1, h2, h3, h4, h5⟩ := h
  rw [D_length ⟨h1, h2, h3, h4⟩, Bencode.sizeLoop_no_colon h5]

theorem D_colon {ds : Bytes} (h : LengthBytes ds) (r : Bytes) : D (ds ++ 58 :: r) = match pyInt ds with
    | some size => readN size r
    | none => .raise .value := by
  obtain ⟨t, q, rfl, h1, h2, h3, h4, h5⟩ := h
  rw [List.cons_append, D_length ⟨h1, h2, h3, h4⟩]
  obtain ⟨m, hm⟩ : ∃ m, 2 * (q ++ 58 :: r).length + 2 = m + 1 + q.length := ⟨2 * (q ++ 58 :: r).length + 1 - q.length, by simp; omega⟩
  rw [hm, Bencode.sizeLoop_append _ _ _ _ (fun b hb e => h5 (e ▸ hb))]
  simp [sizeLoop]
  cases pyInt (t :: q) <;> rfl

/-! ### The grammar is what is read -/

theorem reads_none {inp r} (h : Reads inp .none r) : inp = 101 :: r := by cases h; rfl

theorem reads_shape {inp v r} (h : Reads inp v r) : v = .none ∨ Key v ∨ (∃ xs, v = .list xs) ∨ ∃ d, v = .dict d := by
  cases h with
  | none => exact .inl rfl
  | int => exact .inr (.inl (.inr ⟨_, rfl⟩))
  | bytes => exact .inr (.inl (.inl ⟨_, rfl⟩))
  | all => exact .inr (.inl (.inl ⟨_, rfl⟩))
  | list => exact .inr (.inr (.inl ⟨_, rfl⟩))
  | dict => exact .inr (.inr (.inr ⟨_, rfl⟩))

theorem key_iff_hashable {inp v r} (h : Reads inp v r) (hn : v ≠ .none) : Bencode.hashable v = true ↔ Key v := by
  refine ⟨fun hh => ?_, key_hashable⟩
  rcases reads_shape h with rfl | hk | ⟨xs, rfl⟩ | ⟨d, rfl⟩
  · exact absurd rfl hn
  · exact hk
  · simp [Bencode.hashable] at hh
  · simp [Bencode.hashable] at hh

theorem pairs_keys {inp kv r} (h : Pairs inp kv r) : ∀ x ∈ kv, (Bencode.hashable x.1 = true ↔ Key x.1) := by
  induction kv generalizing inp with
  | nil => simp
  | cons y kv ih =>
    cases h with
    | cons h1 h2 h3 h4 =>
      intro x hx
      rcases List.mem_cons.1 hx with rfl | hx
      · exact key_iff_hashable h1 h2
      · exact ih h4 x hx

theorem not_none_iff {v : PyVal} : Bencode.isNone v = false ↔ v ≠ .none := by cases v <;> simp [Bencode.isNone]

theorem mkDict_none {kv : List (PyVal × PyVal)} (h : ∃ x ∈ kv, Bencode.hashable x.1 = false) : Bencode.mkDict kv = none := by
  obtain ⟨x, hx, hh⟩ := h
  have : ¬ kv.all (fun p => Bencode.hashable p.1) = true := by
    rw [List.all_eq_true]; intro ha; have := ha x hx; simp [hh] at this
  simp only [Bencode.mkDict, if_neg this]

theorem step_int {ds i r} (h1 : IntBytes ds) (h2 : IntText ds i) : D (105 :: ds ++ 101 :: r) = .ok (.int i) r := by
  rw [List.cons_append, D_int, readInt_stop _ h1 (by simp [Digit]) (by decide), if_pos rfl, List.nil_append, (pyInt_iff _ _).2 h2]

theorem step_bytes {ds r} {n : Nat} (h1 : LengthBytes ds) (h2 : IntText ds n) (h3 : n ≤ maxSize) :
    D (ds ++ 58 :: r) = .ok (.bytes (r.take n)) (r.drop n) := by
  rw [D_colon h1, (pyInt_iff _ _).2 h2]
  simp only [readN]
  rw [if_neg (by simp; omega), if_neg (by omega)]
  simp

theorem step_all {ds r} {n : Nat} (h1 : LengthBytes ds) (h2 : IntText ds (-(n : Int))) (h3 : 0 < n) (h4 : n ≤ maxSize + 1) :
    D (ds ++ 58 :: r) = .ok (.bytes r) [] := by
  rw [D_colon h1, (pyInt_iff _ _).2 h2]
  simp only [readN]
  rw [if_neg (by simp; omega), if_pos (by omega)]

theorem step_list {inp xs r} (h : ∀ acc, L acc inp = L (acc ++ xs) (101 :: r)) : D (108 :: inp) = .ok (.list xs) r := by
  rw [D_list, h, List.nil_append, L_step, D_none]; rfl

theorem step_dict {inp kv d r} (h : ∀ acc, K acc inp = K (acc ++ kv) (101 :: r)) (h2 : ∀ x ∈ kv, Key x.1) (h3 : DictOf kv d) :
    D (100 :: inp) = .ok (.dict d) r := by
  rw [D_dict, h, List.nil_append, K_step, D_none]
  simp [Bencode.isNone, (mkDict_iff h2).2 h3]

theorem step_elem {inp x r xs r'} (h1 : D inp = .ok x r) (h2 : x ≠ .none) (h3 : ∀ acc, L acc r = L (acc ++ xs) r') :
    ∀ acc, L acc inp = L (acc ++ x :: xs) r' := by
  intro acc
  rw [L_step, h1]
  simp only [not_none_iff.2 h2, Bool.false_eq_true, if_false]
  rw [h3]; simp

theorem step_pair {inp k r v r' kv r''} (h1 : D inp = .ok k r) (h2 : k ≠ .none) (h3 : D r = .ok v r')
    (h4 : ∀ acc, K acc r' = K (acc ++ kv) r'') : ∀ acc, K acc inp = K (acc ++ (k, v) :: kv) r'' := by
  intro acc
  rw [K_step, h1]
  simp only [not_none_iff.2 h2, Bool.false_eq_true, if_false]
  rw [h3]
  simp only
  rw [h4]; simp

theorem reads_complete {inp v r} (h : Reads inp v r) : D inp = .ok v r :=
  Reads.rec (motive_1 := fun inp v r _ => D inp = .ok v r) (motive_2 := fun inp xs r _ => ∀ acc, L acc inp = L (acc ++ xs) r)
    (motive_3 := fun inp kv r _ => ∀ acc, K acc inp = K (acc ++ kv) r)
    (D_none _) step_int step_bytes step_all (fun _ ih => step_list ih) (fun _ h2 h3 ih => step_dict ih h2 h3)
    (fun acc => by simp) (fun _ h2 _ ih1 ih2 => step_elem ih1 h2 ih2) (fun acc => by simp)
    (fun _ h2 _ _ ih1 ih2 ih3 => step_pair ih1 h2 ih2 ih3) h

theorem elems_complete {inp xs r} (h : Elems inp xs r) : ∀ acc, L acc inp = L (acc ++ xs) r := by
  induction xs generalizing inp with
  | nil => cases h; simp
  | cons x xs ih => cases h with | cons h1 h2 h3 => exact step_elem (reads_complete h1) h2 (ih h3)

theorem pairs_complete {inp kv r} (h : Pairs inp kv r) : ∀ acc, K acc inp = K (acc ++ kv) r := by
  induction kv generalizing inp with
  | nil => cases h; simp
  | cons x kv ih => cases h with | cons h1 h2 h3 h4 => exact step_pair (reads_complete h1) h2 (reads_complete h3) (ih h4)

theorem fails_complete {inp e} (h : Fails inp e) : D inp = .raise e := by
  induction h with
  | nothing => rfl
  | intEnd h => rw [D_int, readInt_end h]
  | intByte h1 h2 h3 h4 => rw [List.cons_append, D_int, readInt_stop _ h1 h2 h3, if_neg h4]
  | int h1 h2 =>
    rw [List.cons_append, D_int, readInt_stop _ h1 (by simp [Digit]) (by decide), if_pos rfl, List.nil_append, (pyInt_none _).2 h2]
  | length h1 h2 => rw [D_colon h1, (pyInt_none _).2 h2]
  | range h1 h2 h3 =>
    rw [D_colon h1, (pyInt_iff _ _).2 h2]
    simp only [readN]
    rw [if_pos (by simp; omega)]
  | list h1 _ ih => rw [D_list, elems_complete h1, L_step, ih]
  | key h1 _ ih => rw [D_dict, pairs_complete h1, K_step, ih]
  | item h1 h2 h3 _ ih =>
    rw [D_dict, pairs_complete h1, K_step, reads_complete h2]
    simp [not_none_iff.2 h3, ih]
  | dict h1 h2 =>
    rw [D_dict, pairs_complete h1, List.nil_append, K_step, D_none]
    obtain ⟨x, hx, hk⟩ := h2
    have : Bencode.hashable x.1 = false := by
      rw [← Bool.not_eq_true, pairs_keys h1 x hx]; exact hk
    simp [Bencode.isNone, mkDict_none ⟨x, hx, this⟩]

theorem endless_complete {inp} (h : Endless inp) : D inp = .out := by
  induction h with
  | length h => exact D_no_colon h
  | list h1 _ ih => rw [D_list, elems_complete h1, L_step, ih]
  | key h1 _ ih => rw [D_dict, pairs_complete h1, K_step, ih]
  | item h1 h2 h3 _ ih =>
    rw [D_dict, pairs_complete h1, K_step, reads_complete h2]
    simp [not_none_iff.2 h3, ih]

/-- What the reader does with an input, in terms of the grammar. -/
def Explained (inp : Bytes) : Prop := (∃ v r, Reads inp v r) ∨ (∃ e, Fails inp e) ∨ Endless inp

/-- A list: its end, or a value that can not be read. -/
theorem list_explained {n : Nat} (ih : ∀ inp : Bytes, inp.length < n → Explained inp) : ∀ inp : Bytes, inp.length < n →
    ∃ xs r, Elems inp xs r ∧ ((∃ r', r = 101 :: r') ∨ (∃ e, Fails r e) ∨ Endless r) := by
  intro inp
  induction hl : inp.length using Nat.strongRecOn generalizing inp with
  | ind l ihl =>
    intro hlt
    subst hl
    rcases ih inp hlt with ⟨v, r, hr⟩ | hf | he
    · by_cases hn : v = .none
      · subst hn; exact ⟨[], inp, .nil, .inl ⟨r, reads_none hr⟩⟩
      · have hs := D_shorter (reads_complete hr)
        obtain ⟨xs, r', h1, h2⟩ := ihl r.length hs r rfl (by omega)
        exact ⟨v :: xs, r', .cons hr hn h1, h2⟩
    · exact ⟨[], inp, .nil, .inr (.inl hf)⟩
    · exact ⟨[], inp, .nil, .inr (.inr he)⟩

/-- A dict: its end, or a key or a value that can not be read. -/
theorem dict_explained {n : Nat} (ih : ∀ inp : Bytes, inp.length < n → Explained inp) : ∀ inp : Bytes, inp.length < n →
    ∃ kv r, Pairs inp kv r ∧ ((∃ r', r = 101 :: r') ∨ (∃ e, Fails r e) ∨ Endless r ∨
      ∃ k r', Reads r k r' ∧ k ≠ .none ∧ ((∃ e, Fails r' e) ∨ Endless r')) := by
  intro inp
  induction hl : inp.length using Nat.strongRecOn generalizing inp with
  | ind l ihl =>
    intro hlt
    subst hl
    rcases ih inp hlt with ⟨k, r, hr⟩ | hf | he
    · by_cases hn : k = .none
      · subst hn; exact ⟨[], inp, .nil, .inl ⟨r, reads_none hr⟩⟩
      · have hs := D_shorter (reads_complete hr)
        rcases ih r (by omega) with ⟨v, r', hr'⟩ | hf | he
        · have hs' := D_shorter (reads_complete hr')
          obtain ⟨kv, r'', h1, h2⟩ := ihl r'.length (by omega) r' rfl (by omega)
          exact ⟨(k, v) :: kv, r'', .cons hr hn hr' h1, h2⟩
        · exact ⟨[], inp, .nil, .inr (.inr (.inr ⟨k, r, hr, hn, .inl hf⟩))⟩
        · exact ⟨[], inp, .nil, .inr (.inr (.inr ⟨k, r, hr, hn, .inr he⟩))⟩
    · exact ⟨[], inp, .nil, .inr (.inl hf)⟩
    · exact ⟨[], inp, .nil, .inr (.inr (.inl he))⟩

theorem explained (inp : Bytes) : Explained inp := by
  induction hl : inp.length using Nat.strongRecOn generalizing inp with
  | ind l ihl =>
    subst hl
    cases inp with
    | nil => exact .inr (.inl ⟨_, .nothing⟩)
    | cons t inp =>
      have ih : ∀ q : Bytes, q.length < inp.length + 1 → Explained q := fun q hq => ihl q.length (by simpa using hq) q rfl
      by_cases h1 : t = 101
      · subst h1; exact .inl ⟨_, _, .none⟩
      by_cases h2 : t = 105
      · subst h2
        rcases int_split inp with h | ⟨ds, c, r, rfl, h3, h4, h5⟩
        · exact .inr (.inl ⟨_, .intEnd h⟩)
        · by_cases hc : c = 101
          · subst hc
            by_cases hi : ∃ i, IntText ds i
            · obtain ⟨i, hi⟩ := hi
              exact .inl ⟨_, _, .int h3 hi⟩
            · exact .inr (.inl ⟨_, .int h3 fun i h => hi ⟨i, h⟩⟩)
          · exact .inr (.inl ⟨_, .intByte h3 h4 h5 hc⟩)
      by_cases h3 : t = 108
      · subst h3
        obtain ⟨xs, r, he, ⟨r', rfl⟩ | ⟨e, hf⟩ | hs⟩ := list_explained ih inp (by omega)
        · exact .inl ⟨_, _, .list he⟩
        · exact .inr (.inl ⟨_, .list he hf⟩)
        · exact .inr (.inr (.list he hs))
      by_cases h4 : t = 100
      · subst h4
        obtain ⟨kv, r, hp, ⟨r', rfl⟩ | ⟨e, hf⟩ | hs | ⟨k, r', hk, hn, ⟨e, hf⟩ | hs⟩⟩ := dict_explained ih inp (by omega)
        · by_cases hk : ∀ x ∈ kv, Key x.1
          · have hd : ∃ d, DictOf kv d := ⟨_, by
              simpa using dictOf_fold hk (pre := []) (d := []) (by simp [DictOf, firsts])⟩
            obtain ⟨d, hd⟩ := hd
            exact .inl ⟨_, _, .dict hp hk hd⟩
          · refine .inr (.inl ⟨_, .dict hp ?_⟩)
            apply Classical.byContradiction
            intro hc
            exact hk fun x hx => Classical.byContradiction fun hkx => hc ⟨x, hx, hkx⟩
        · exact .inr (.inl ⟨_, .key hp hf⟩)
        · exact .inr (.inr (.key hp hs))
        · exact .inr (.inl ⟨_, .item hp hk hn hf⟩)
        · exact .inr (.inr (.item hp hk hn hs))
      rcases colon_split inp with h | ⟨ds, r, rfl, h5⟩
      · exact .inr (.inr (.length ⟨t, inp, rfl, h1, h2, h3, h4, h⟩))
      · have hb : LengthBytes (t :: ds) := ⟨t, ds, rfl, h1, h2, h3, h4, h5⟩
        by_cases hi : ∃ i, IntText (t :: ds) i
        · obtain ⟨i, hi⟩ := hi
          by_cases ho : i > maxSize ∨ i < - (maxSize : Int) - 1
          · exact .inr (.inl ⟨_, .range hb hi ho⟩)
          · by_cases hneg : i < 0
            · refine .inl ⟨_, _, .all (n := i.natAbs) hb ?_ (by omega) (by omega)⟩
              rwa [show -(i.natAbs : Int) = i by omega]
            · refine .inl ⟨_, _, .bytes (n := i.toNat) hb ?_ (by omega)⟩
              rwa [show (i.toNat : Int) = i by omega]
        · exact .inr (.inl ⟨_, .length hb fun i h => hi ⟨i, h⟩⟩)

theorem D_ok_iff {inp v r} : D inp = .ok v r ↔ Reads inp v r := by
  refine ⟨fun h => ?_, reads_complete⟩
  rcases explained inp with ⟨v', r', hr⟩ | ⟨e, hf⟩ | he
  · rw [reads_complete hr] at h; injection h with h1 h2; rw [← h1, ← h2]; exact hr
  · rw [fails_complete hf] at h; exact (nomatch h)
  · rw [endless_complete he] at h; exact (nomatch h)

theorem D_raise_iff {inp e} : D inp = .raise e ↔ Fails inp e := by
  refine ⟨fun h => ?_, fails_complete⟩
  rcases explained inp with ⟨v', r', hr⟩ | ⟨e', hf⟩ | he
  · rw [reads_complete hr] at h; exact (nomatch h)
  · rw [fails_complete hf] at h; injection h with h; exact h ▸ hf
  · rw [endless_complete he] at h; exact (nomatch h)

theorem D_out_iff {inp} : D inp = .out ↔ Endless inp := by
  refine ⟨fun h => ?_, endless_complete⟩
  rcases explained inp with ⟨v', r', hr⟩ | ⟨e', hf⟩ | he
  · rw [reads_complete hr] at h; exact (nomatch h)
  · rw [fails_complete hf] at h; exact (nomatch h)
  · exact he

end Verif.Grammar
