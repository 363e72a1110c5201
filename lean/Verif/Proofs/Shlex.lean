import Verif.Spec.Shlex
/-! Lemmas for C150. -/
namespace Verif.Shlex
open Verif

theorem white_iff (c : Char) : isWhite c = true ↔ White c := by
  simp [isWhite, White, or_assoc]

theorem emit_some (tok : Text) (q : Bool) (h : tok ≠ [] ∨ q = true) (r : Except Err (List Text)) :
    emit tok q r = match r with | .error e => .error e | .ok ws => .ok (tok :: ws) := by
  have hn : ¬ (tok.isEmpty && !q) = true := by
    simp only [Bool.and_eq_true, List.isEmpty_iff, Bool.not_eq_true']
    rintro ⟨h1, h2⟩
    rcases h with h | h
    · exact h h1
    · rw [h] at h2; exact (nomatch h2)
  unfold emit
  rw [if_neg hn]
  cases r <;> rfl

theorem white_not {c : Char} (h : White c) : c ≠ '\\' ∧ c ≠ '\'' ∧ c ≠ '"' := by
  simp only [White, List.mem_cons, List.not_mem_nil, or_false] at h
  rcases h with rfl | rfl | rfl | rfl <;> decide

/-- The grammar is read: the inside of single quotes. -/
theorem lex_single {s : Text} (h : '\'' ∉ s) (tok : Text) (q : Bool) (r : Text) :
    lex .single tok q (s ++ '\'' :: r) = lex .word (tok ++ s) true r := by
  induction s generalizing tok q with
  | nil => simp [lex]
  | cons c s ih =>
    have hc : ¬ c = '\'' := fun e => h (by rw [e]; exact .head _)
    rw [List.cons_append, lex]
    simp only [beq_iff_eq, hc, if_false]
    rw [ih (fun e => h (.tail _ e)), List.append_assoc]
    rfl

/-- The inside of double quotes. -/
theorem lex_double {s v : Text} (h : Inside s v) (tok : Text) (q : Bool) (r : Text) :
    lex .double tok q (s ++ '"' :: r) = lex .word (tok ++ v) true r := by
  induction h generalizing tok q with
  | nil => simp [lex]
  | @plain c s v h h' _ ih =>
    rw [List.cons_append, lex]
    simp only [beq_iff_eq, h, h', if_false]
    rw [ih, List.append_assoc]
    rfl
  | @escaped c s v h _ ih =>
    rw [List.cons_append, List.cons_append, lex]
    simp only [beq_iff_eq, show ¬ '\\' = '"' by decide, if_false, if_true]
    rw [lex, if_pos (by rcases h with h | h <;> simp [h]), ih, List.append_assoc]
    rfl
  | @kept c s v h h' _ ih =>
    rw [List.cons_append, List.cons_append, lex]
    simp only [beq_iff_eq, show ¬ '\\' = '"' by decide, if_false, if_true]
    rw [lex, if_neg (by simp [h, h']), ih, List.append_assoc]
    rfl

/-- A piece in a word. -/
theorem lex_piece {s v : Text} (h : Piece s v) (tok : Text) (q : Bool) (r : Text) :
    ∃ q', lex .word tok q (s ++ r) = lex .word (tok ++ v) q' r ∧ (tok ++ v ≠ [] ∨ q' = true) := by
  cases h with
  | @plain c hw h =>
    simp only [List.mem_cons, List.not_mem_nil, or_false, not_or] at h
    refine ⟨q, ?_, .inl (by simp)⟩
    rw [List.cons_append, lex, if_neg (by rwa [white_iff])]
    simp [h]
  | escaped c =>
    refine ⟨q, ?_, .inl (by simp)⟩
    rw [List.cons_append, lex, if_neg (by decide)]
    simp [lex]
  | single h =>
    refine ⟨true, ?_, .inr rfl⟩
    rw [List.cons_append, lex, if_neg (by decide), List.append_assoc]
    exact lex_single h tok q r
  | double h =>
    refine ⟨true, ?_, .inr rfl⟩
    rw [List.cons_append, lex, if_neg (by decide), List.append_assoc]
    exact lex_double h tok q r

/-- A piece at the beginning of a word. -/
theorem lex_first {s v : Text} (h : Piece s v) (r : Text) :
    ∃ q', lex .blank [] false (s ++ r) = lex .word v q' r ∧ (v ≠ [] ∨ q' = true) := by
  cases h with
  | @plain c hw h =>
    simp only [List.mem_cons, List.not_mem_nil, or_false, not_or] at h
    refine ⟨false, ?_, .inl (by simp)⟩
    rw [List.cons_append, lex, if_neg (by rwa [white_iff])]
    simp [h]
  | escaped c =>
    refine ⟨false, ?_, .inl (by simp)⟩
    rw [List.cons_append, lex, if_neg (by decide)]
    simp [lex]
  | single h =>
    refine ⟨true, ?_, .inr rfl⟩
    rw [List.cons_append, lex, if_neg (by decide), List.append_assoc]
    exact lex_single h [] false r
  | double h =>
    refine ⟨true, ?_, .inr rfl⟩
    rw [List.cons_append, lex, if_neg (by decide), List.append_assoc]
    exact lex_double h [] false r

theorem lex_pieces {s v : Text} (h : Pieces s v) (tok : Text) (q : Bool) (ht : tok ≠ [] ∨ q = true) (r : Text) :
    ∃ q', lex .word tok q (s ++ r) = lex .word (tok ++ v) q' r ∧ (tok ++ v ≠ [] ∨ q' = true) := by
  induction h generalizing tok q with
  | nil => exact ⟨q, by simp, by simpa using ht⟩
  | @cons s v t w h _ ih =>
    obtain ⟨q1, h1, h2⟩ := lex_piece h tok q (t ++ r)
    obtain ⟨q2, h3, h4⟩ := ih (tok ++ v) q1 h2
    rw [List.append_assoc] at h3 h4
    exact ⟨q2, by rw [List.append_assoc, h1, h3], h4⟩

theorem lex_white {c : Char} (hc : White c) (tok : Text) (q : Bool) (ht : tok ≠ [] ∨ q = true) (r : Text) :
    lex .word tok q (c :: r) = emit tok q (lex .blank [] false r) := by
  rw [lex, if_pos ((white_iff c).2 hc), if_neg]
  simp only [Bool.and_eq_true, List.isEmpty_iff, Bool.not_eq_true']
  rintro ⟨h1, h2⟩
  rcases ht with h | h
  · exact h h1
  · rw [h] at h2; exact (nomatch h2)

theorem split_line {s : Text} {ws : List Text} (h : Line s ws) : split s = .ok ws := by
  unfold split
  induction h with
  | nil => rfl
  | white hc _ ih =>
    rw [lex, if_pos ((white_iff _).2 hc)]
    exact ih
  | @last s v t w h1 h2 =>
    obtain ⟨q, h3, h4⟩ := lex_first h1 t
    obtain ⟨q', h5, h6⟩ := lex_pieces h2 v q h4 []
    rw [List.append_nil] at h5
    rw [h3, h5, lex, emit_some _ _ h6]
  | @word s v t w c r ws h1 h2 hc _ ih =>
    obtain ⟨q, h3, h4⟩ := lex_first h1 (t ++ c :: r)
    obtain ⟨q', h5, h6⟩ := lex_pieces h2 v q h4 (c :: r)
    rw [h3, h5, lex_white hc _ _ h6, emit_some _ _ h6, ih]

/-- What follows in a word of which `tok` has been read. -/
def Tail (tok cs : Text) (ws : List Text) : Prop :=
  ∃ s v, Pieces s v ∧ ((cs = s ∧ ws = [tok ++ v]) ∨
    ∃ c r ws', White c ∧ cs = s ++ c :: r ∧ ws = (tok ++ v) :: ws' ∧ Line r ws')

theorem Tail.cons {s v tok cs : Text} {ws : List Text} (h : Piece s v) (ht : Tail (tok ++ v) cs ws) : Tail tok (s ++ cs) ws := by
  obtain ⟨t, w, h1, h2⟩ := ht
  refine ⟨s ++ t, v ++ w, .cons h h1, ?_⟩
  rcases h2 with ⟨h2, h3⟩ | ⟨c, r, ws', h2, h3, h4, h5⟩
  · exact .inl ⟨by rw [h2], by rw [h3, List.append_assoc]⟩
  · exact .inr ⟨c, r, ws', h2, by rw [h3, List.append_assoc], by rw [h4, List.append_assoc], h5⟩

theorem Tail.line {s v cs : Text} {ws : List Text} (h : Piece s v) (ht : Tail v cs ws) : Line (s ++ cs) ws := by
  obtain ⟨t, w, h1, h2⟩ := ht
  rcases h2 with ⟨h2, h3⟩ | ⟨c, r, ws', h2, h3, h4, h5⟩
  · rw [h2, h3]; exact .last h h1
  · rw [h3, h4]; exact .word h h1 h2 h5

/-- All that the lexer accepts from each of its states. -/
theorem lex_sound (cs : Text) : ∀ ws,
    (lex .blank [] false cs = .ok ws → Line cs ws) ∧
    (∀ tok q, (tok ≠ [] ∨ q = true) → lex .word tok q cs = .ok ws → Tail tok cs ws) ∧
    (∀ tok q, lex .escape tok q cs = .ok ws → ∃ c r, cs = c :: r ∧ Tail (tok ++ [c]) r ws) ∧
    (∀ tok q, lex .single tok q cs = .ok ws → ∃ s r, cs = s ++ '\'' :: r ∧ '\'' ∉ s ∧ Tail (tok ++ s) r ws) ∧
    (∀ tok q, lex .double tok q cs = .ok ws → ∃ s v r, cs = s ++ '"' :: r ∧ Inside s v ∧ Tail (tok ++ v) r ws) ∧
    (∀ tok, lex .escapeInDouble tok true cs = .ok ws →
      ∃ s v r, '\\' :: cs = s ++ '"' :: r ∧ Inside s v ∧ Tail (tok ++ v) r ws) := by
  induction cs with
  | nil =>
    intro ws
    refine ⟨fun h => ?_, fun tok q ht h => ?_, fun tok q h => (nomatch h), fun tok q h => (nomatch h), fun tok q h => (nomatch h),
      fun tok h => (nomatch h)⟩
    · rw [lex] at h; injection h with h; rw [← h]; exact .nil
    · rw [lex, emit_some _ _ ht] at h
      injection h with h
      exact ⟨[], [], .nil, .inl ⟨rfl, by rw [← h, List.append_nil]⟩⟩
  | cons c cs ih =>
    intro ws
    refine ⟨fun h => ?_, fun tok q ht h => ?_, fun tok q h => ?_, fun tok q h => ?_, fun tok q h => ?_, fun tok h => ?_⟩
    · rw [lex] at h
      by_cases hw : White c
      · rw [if_pos ((white_iff c).2 hw)] at h
        exact .white hw ((ih ws).1 h)
      rw [if_neg (by rwa [white_iff])] at h
      by_cases h1 : c = '\\'
      · subst h1
        rw [if_pos (by decide)] at h
        obtain ⟨d, r, e, ht⟩ := (ih ws).2.2.1 _ _ h
        rw [e]
        exact Tail.line (.escaped d) ht
      rw [if_neg (by simpa using h1)] at h
      by_cases h2 : c = '\''
      · subst h2
        rw [if_pos (by decide)] at h
        obtain ⟨s, r, e, hs, ht⟩ := (ih ws).2.2.2.1 _ _ h
        rw [e, show '\'' :: (s ++ '\'' :: r) = '\'' :: (s ++ ['\'']) ++ r by simp]
        exact Tail.line (.single hs) ht
      rw [if_neg (by simpa using h2)] at h
      by_cases h3 : c = '"'
      · subst h3
        rw [if_pos (by decide)] at h
        obtain ⟨s, v, r, e, hs, ht⟩ := (ih ws).2.2.2.2.1 _ _ h
        rw [e, show '"' :: (s ++ '"' :: r) = '"' :: (s ++ ['"']) ++ r by simp]
        exact Tail.line (.double hs) ht
      rw [if_neg (by simpa using h3)] at h
      exact Tail.line (.plain hw (by simp [h1, h2, h3])) ((ih ws).2.1 [c] false (.inl (by simp)) h)
    · by_cases hw : White c
      · rw [lex_white hw _ _ ht, emit_some _ _ ht] at h
        cases hr : lex .blank [] false cs with
        | error e => rw [hr] at h; exact (nomatch h)
        | ok ws' =>
          rw [hr] at h
          injection h with h
          exact ⟨[], [], .nil, .inr ⟨c, cs, ws', hw, rfl, by rw [← h, List.append_nil], (ih ws').1 hr⟩⟩
      rw [lex, if_neg (by rwa [white_iff])] at h
      by_cases h2 : c = '\''
      · subst h2
        rw [if_pos (by decide)] at h
        obtain ⟨s, r, e, hs, ht⟩ := (ih ws).2.2.2.1 _ _ h
        rw [e, show '\'' :: (s ++ '\'' :: r) = '\'' :: (s ++ ['\'']) ++ r by simp]
        exact Tail.cons (.single hs) ht
      rw [if_neg (by simpa using h2)] at h
      by_cases h3 : c = '"'
      · subst h3
        rw [if_pos (by decide)] at h
        obtain ⟨s, v, r, e, hs, ht⟩ := (ih ws).2.2.2.2.1 _ _ h
        rw [e, show '"' :: (s ++ '"' :: r) = '"' :: (s ++ ['"']) ++ r by simp]
        exact Tail.cons (.double hs) ht
      rw [if_neg (by simpa using h3)] at h
      by_cases h1 : c = '\\'
      · subst h1
        rw [if_pos (by decide)] at h
        obtain ⟨d, r, e, ht⟩ := (ih ws).2.2.1 _ _ h
        rw [e]
        exact Tail.cons (s := ['\\', d]) (.escaped d) ht
      rw [if_neg (by simpa using h1)] at h
      exact Tail.cons (s := [c]) (.plain hw (by simp [h1, h2, h3])) ((ih ws).2.1 (tok ++ [c]) q (.inl (by simp)) h)
    · rw [lex] at h
      exact ⟨c, cs, rfl, (ih ws).2.1 _ _ (.inl (by simp)) h⟩
    · rw [lex] at h
      by_cases h2 : c = '\''
      · subst h2
        rw [if_pos (by decide)] at h
        exact ⟨[], cs, rfl, by simp, by rw [List.append_nil]; exact (ih ws).2.1 _ _ (.inr rfl) h⟩
      · rw [if_neg (by simpa using h2)] at h
        obtain ⟨s, r, e, hs, ht⟩ := (ih ws).2.2.2.1 _ _ h
        refine ⟨c :: s, r, by rw [e]; rfl, ?_, by rw [List.append_assoc] at ht; exact ht⟩
        rw [List.mem_cons, not_or]
        exact ⟨fun e => h2 e.symm, hs⟩
    · rw [lex] at h
      by_cases h2 : c = '"'
      · subst h2
        rw [if_pos (by decide)] at h
        exact ⟨[], [], cs, rfl, .nil, by rw [List.append_nil]; exact (ih ws).2.1 _ _ (.inr rfl) h⟩
      rw [if_neg (by simpa using h2)] at h
      by_cases h1 : c = '\\'
      · subst h1
        rw [if_pos (by decide)] at h
        exact (ih ws).2.2.2.2.2 tok h
      · rw [if_neg (by simpa using h1)] at h
        obtain ⟨s, v, r, e, hs, ht⟩ := (ih ws).2.2.2.2.1 _ _ h
        exact ⟨c :: s, c :: v, r, by rw [e]; rfl, .plain h2 h1 hs, by rw [List.append_assoc] at ht; exact ht⟩
    · rw [lex] at h
      obtain ⟨s, v, r, e, hs, ht⟩ := (ih ws).2.2.2.2.1 _ _ h
      by_cases h2 : c = '\\' ∨ c = '"'
      · rw [if_pos (by rcases h2 with h2 | h2 <;> simp [h2]), List.append_assoc] at ht
        exact ⟨'\\' :: c :: s, c :: v, r, by rw [e]; rfl, .escaped (h2.symm) hs, ht⟩
      · rw [not_or] at h2
        rw [if_neg (by simp [h2.1, h2.2]), List.append_assoc] at ht
        exact ⟨'\\' :: c :: s, '\\' :: c :: v, r, by rw [e]; rfl, .kept h2.2 h2.1 hs, ht⟩

theorem split_iff (s : Text) (ws : List Text) : split s = .ok ws ↔ Line s ws := ⟨((lex_sound s) ws).1, split_line⟩

end Verif.Shlex
