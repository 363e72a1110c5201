import Verif.Py.Text
/-!
Lemmas on `Verif.Py.Text`.
-/
namespace Verif

theorem utf8Decode_cons (a : UInt8) (r : Bytes) :
    utf8Decode (a :: r) = (firstChar (a :: r)).bind (fun x => (utf8Decode (r.drop x.2)).map (x.1 :: ·)) := by
  rw [utf8Decode.eq_def]
  simp only [firstChar]
  by_cases h1 : a.toNat < 128
  · simp only [if_pos h1]
    cases scalar? 0 a.toNat with
    | none => rfl
    | some c => simp; cases utf8Decode r <;> rfl
  · simp only [if_neg h1]
    by_cases h2 : a.toNat / 32 = 6
    · simp only [if_pos h2]
      match r with
      | [] => rfl
      | b :: r =>
        simp only
        cases cont? b with
        | none => rfl
        | some x =>
          simp only [Option.bind_eq_bind, Option.bind_some]
          cases scalar? 128 (a.toNat % 32 * 64 + x) with
          | none => rfl
          | some c => simp; cases utf8Decode r <;> rfl
    · simp only [if_neg h2]
      by_cases h3 : a.toNat / 16 = 14
      · simp only [if_pos h3]
        match r with
        | [] => rfl
        | [_] => rfl
        | b :: b' :: r =>
          simp only
          cases cont? b with
          | none => rfl
          | some x =>
            cases cont? b' with
            | none => rfl
            | some y =>
              simp only [Option.bind_eq_bind, Option.bind_some]
              cases scalar? 2048 (a.toNat % 16 * 4096 + x * 64 + y) with
              | none => rfl
              | some c => simp; cases utf8Decode r <;> rfl
      · simp only [if_neg h3]
        by_cases h4 : a.toNat / 8 = 30
        · simp only [if_pos h4]
          match r with
          | [] => rfl
          | [_] => rfl
          | [_, _] => rfl
          | b :: b' :: b'' :: r =>
            simp only
            cases cont? b with
            | none => rfl
            | some x =>
              cases cont? b' with
              | none => rfl
              | some y =>
                cases cont? b'' with
                | none => rfl
                | some z =>
                  simp only [Option.bind_eq_bind, Option.bind_some]
                  cases scalar? 65536 (a.toNat % 8 * 262144 + x * 4096 + y * 64 + z) with
                  | none => rfl
                  | some c => simp; cases utf8Decode r <;> rfl
        · simp only [if_neg h4]
          rfl

theorem decodeIgnoreF_drop (n : Nat) (bs : Bytes) : decodeIgnoreF n bs = decodeIgnoreF 0 (bs.drop n) := by
  induction n generalizing bs with
  | zero => rfl
  | succ n ih =>
    cases bs with
    | nil => rfl
    | cons a r => exact ih r

/-- Valid data is decoded as without `ignore`. -/
theorem utf8DecodeIgnore_of_valid {bs : Bytes} {t : Text} (h : utf8Decode bs = some t) : utf8DecodeIgnore bs = t := by
  have key : ∀ (n : Nat) (bs : Bytes) (t : Text), bs.length ≤ n → utf8Decode bs = some t → decodeIgnoreF 0 bs = t := by
    intro n
    induction n with
    | zero =>
      intro bs t hn h
      cases bs with
      | nil => simp only [utf8Decode, Option.some.injEq] at h; subst h; rfl
      | cons a r => simp at hn
    | succ n ih =>
      intro bs t hn h
      cases bs with
      | nil => simp only [utf8Decode, Option.some.injEq] at h; subst h; rfl
      | cons a r =>
        rw [utf8Decode_cons] at h
        cases hf : firstChar (a :: r) with
        | none => rw [hf] at h; exact nomatch h
        | some x =>
          obtain ⟨c, k⟩ := x
          rw [hf] at h
          simp only [Option.bind_some, Option.map_eq_some_iff] at h
          obtain ⟨t', h1, h2⟩ := h
          subst h2
          simp only [decodeIgnoreF, hf]
          rw [decodeIgnoreF_drop, ih _ t' ?_ h1]
          simp only [List.length_drop, List.length_cons] at hn ⊢
          omega
  exact key bs.length bs t (Nat.le_refl _) h

/-! ### Splitting -/

theorem splitP_ne_nil (p : Char → Bool) (s : Text) : splitP p s ≠ [] := by
  cases s with
  | nil => simp [splitP]
  | cons c s =>
    simp only [splitP]
    split
    · simp
    · split <;> simp

theorem splitP_word (p : Char → Bool) (w : Text) (h : ∀ c ∈ w, p c = false) : splitP p w = [w] := by
  induction w with
  | nil => rfl
  | cons c w ih =>
    rw [List.forall_mem_cons] at h
    simp only [splitP, h.1, Bool.false_eq_true, if_false, ih h.2]

theorem splitP_append (p : Char → Bool) (w : Text) (c : Char) (t : Text) (h : ∀ c ∈ w, p c = false) (hc : p c = true) :
    splitP p (w ++ c :: t) = w :: splitP p t := by
  induction w with
  | nil => simp [splitP, hc]
  | cons x w ih =>
    rw [List.forall_mem_cons] at h
    simp only [List.cons_append, splitP, h.1, Bool.false_eq_true, if_false, ih h.2]

/-! ### Stripping -/

theorem dropWhile_none {α : Type} (p : α → Bool) (s : List α) (h : ∀ x, s.head? = some x → p x = false) : s.dropWhile p = s := by
  cases s with
  | nil => rfl
  | cons x s => simp [List.dropWhile_cons, h x rfl]

theorem dropWhile_all {α : Type} (p : α → Bool) (a s : List α) (h : ∀ x ∈ a, p x = true) : (a ++ s).dropWhile p = s.dropWhile p := by
  induction a with
  | nil => rfl
  | cons x a ih =>
    rw [List.forall_mem_cons] at h
    simp only [List.cons_append, List.dropWhile_cons, h.1, if_true, ih h.2]

theorem stripWith_eq {α : Type} (p : α → Bool) {a t b : List α} (ha : ∀ x ∈ a, p x = true) (hb : ∀ x ∈ b, p x = true)
    (h1 : ∀ x, t.head? = some x → p x = false) (h2 : ∀ x, t.getLast? = some x → p x = false) : stripWith p (a ++ t ++ b) = t := by
  unfold stripWith
  rw [List.append_assoc, dropWhile_all p a _ ha]
  have hb' : ∀ x ∈ b.reverse, p x = true := fun x hx => hb x (List.mem_reverse.1 hx)
  cases t with
  | nil =>
    simp only [List.nil_append]
    have : b.dropWhile p = [] := by
      have := dropWhile_all p b [] hb
      simpa using this
    rw [this]; rfl
  | cons x t =>
    rw [dropWhile_none p (x :: t ++ b) (fun y hy => h1 y (by simpa using hy)), List.reverse_append, dropWhile_all p _ _ hb',
      dropWhile_none p _ (fun y hy => h2 y (by rwa [List.head?_reverse] at hy)), List.reverse_reverse]

/-- Each list is made of what is stripped and the rest. -/
theorem stripWith_parts {α : Type} (p : α → Bool) (s : List α) : ∃ a b, s = a ++ stripWith p s ++ b ∧ (∀ x ∈ a, p x = true) ∧
    (∀ x ∈ b, p x = true) ∧ (∀ x, (stripWith p s).head? = some x → p x = false) ∧ ∀ x, (stripWith p s).getLast? = some x → p x = false := by
  have hd : ∀ l : List α, ∀ x ∈ l.takeWhile p, p x = true := by
    intro l x hx
    have := List.all_takeWhile (p := p) (l := l)
    exact List.all_eq_true.1 this x hx
  have hh : ∀ l : List α, ∀ x, (l.dropWhile p).head? = some x → p x = false := by
    intro l
    induction l with
    | nil => intro x hx; simp at hx
    | cons y l ih =>
      intro x hx
      simp only [List.dropWhile_cons] at hx
      split at hx
      · exact ih x hx
      · rename_i hy
        simp only [List.head?_cons, Option.some.injEq] at hx
        subst hx
        simpa using hy
  have e1 : s = s.takeWhile p ++ s.dropWhile p := List.takeWhile_append_dropWhile.symm
  have e2 : s.dropWhile p = stripWith p s ++ ((s.dropWhile p).reverse.takeWhile p).reverse := by
    unfold stripWith
    rw [← List.reverse_append, List.takeWhile_append_dropWhile, List.reverse_reverse]
  refine ⟨s.takeWhile p, ((s.dropWhile p).reverse.takeWhile p).reverse, ?_, hd s, ?_, ?_, ?_⟩
  · rw [List.append_assoc, ← e2, ← e1]
  · intro x hx
    exact hd _ x (List.mem_reverse.1 hx)
  · intro x hx
    refine hh s x ?_
    rw [e2]
    cases hs : stripWith p s with
    | nil => rw [hs] at hx; simp at hx
    | cons y t => rw [hs] at hx; simpa using hx
  · intro x hx
    refine hh (s.dropWhile p).reverse x ?_
    unfold stripWith at hx
    rwa [List.getLast?_reverse] at hx

end Verif
