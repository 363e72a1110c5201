import Verif.Spec.Limits
import Verif.Proofs.Bencode
/-! Lemmas for C136 and C137: limits of the interpreter. -/
namespace Verif.Limits
open Verif Bencode

/-- The result without limits. -/
def emb : DRes → LRes
  | .ok v r => .ok v r
  | .raise e => .raise e
  | .out => .out

/-- The limits only refuse. -/
def Rel (a : LRes) (b : DRes) : Prop := a = emb b ∨ a = .recursion ∨ a = .raise .value

theorem intL_cases (lim : Limits) (bs : Bytes) : intL lim bs = pyInt bs ∨ intL lim bs = none := by
  unfold intL; split
  · exact .inr rfl
  · exact .inl rfl

theorem readNL_eq (size : Int) (inp : Bytes) : readNL size inp = emb (readN size inp) := by
  unfold readNL; cases readN size inp <;> rfl

theorem readIntL_rel (lim : Limits) (inp : Bytes) : ∀ acc, Rel (readIntL lim acc inp) (readInt acc inp) := by
  induction inp with
  | nil => intro acc; exact .inl rfl
  | cons c r ih =>
    intro acc
    simp only [readIntL, readInt]
    split
    · split
      · exact .inl rfl
      · rcases intL_cases lim acc with h | h
        · rw [h]; left; cases pyInt acc <;> rfl
        · rw [h]; exact .inr (.inr rfl)
    · exact ih _

theorem sizeLoopL_rel (lim : Limits) (n : Nat) : ∀ acc inp, Rel (sizeLoopL lim n acc inp) (sizeLoop n acc inp) := by
  induction n with
  | zero => intro acc inp; exact .inl rfl
  | succ n ih =>
    intro acc inp
    cases inp with
    | nil => simp only [sizeLoopL, sizeLoop]; exact ih _ _
    | cons c r =>
      simp only [sizeLoopL, sizeLoop]
      split
      · rcases intL_cases lim acc with h | h
        · rw [h]; left; cases pyInt acc with
          | none => rfl
          | some i => exact readNL_eq _ _
        · rw [h]; exact .inr (.inr rfl)
      · exact ih _ _

theorem rel (lim : Limits) (n : Nat) :
    (∀ d inp, Rel (decodeL lim n d inp) (decodeF n inp)) ∧
    (∀ d acc inp, Rel (listLoopL lim n d acc inp) (listLoop n acc inp)) ∧
    (∀ d acc inp, Rel (dictLoopL lim n d acc inp) (dictLoop n acc inp)) := by
  induction n with
  | zero => exact ⟨fun _ _ => .inl rfl, fun _ _ _ => .inl rfl, fun _ _ _ => .inl rfl⟩
  | succ n ih =>
    obtain ⟨ihd, ihl, ihk⟩ := ih
    refine ⟨?_, ?_, ?_⟩
    · intro d inp
      cases d with
      | zero => exact .inr (.inl (by simp only [decodeL]))
      | succ d =>
        cases inp with
        | nil => exact .inl rfl
        | cons t r =>
          simp only [decodeL, decodeF]
          split
          · exact .inl rfl
          split
          · exact readIntL_rel _ _ _
          split
          · exact ihl _ _ _
          split
          · exact ihk _ _ _
          · exact sizeLoopL_rel _ _ _ _
    · intro d acc inp
      simp only [listLoopL, listLoop]
      rcases ihd d inp with h | h | h
      · rw [h]
        cases decodeF n inp with
        | ok v r =>
          simp only [emb]
          split
          · exact .inl rfl
          · exact ihl _ _ _
        | raise e => exact .inl rfl
        | out => exact .inl rfl
      · rw [h]; exact .inr (.inl rfl)
      · rw [h]; exact .inr (.inr rfl)
    · intro d acc inp
      simp only [dictLoopL, dictLoop]
      rcases ihd d inp with h | h | h
      · rw [h]
        cases decodeF n inp with
        | ok k r =>
          simp only [emb]
          split
          · left; cases mkDict acc <;> rfl
          · rcases ihd d r with h | h | h
            · rw [h]
              cases decodeF n r with
              | ok v r' => exact ihk _ _ _
              | raise e => exact .inl rfl
              | out => exact .inl rfl
            · rw [h]; exact .inr (.inl rfl)
            · rw [h]; exact .inr (.inr rfl)
        | raise e => exact .inl rfl
        | out => exact .inl rfl
      · rw [h]; exact .inr (.inl rfl)
      · rw [h]; exact .inr (.inr rfl)

/-! ### Limits that are out of reach -/

theorem intL_short {lim : Limits} {L : Nat} (hL : ∀ k, k ≤ L → tooLong lim k = false) {bs : Bytes} (h : bs.length ≤ L) : intL lim bs = pyInt bs := by
  unfold intL
  rw [hL _ (Nat.le_trans (List.length_filter_le _ _) h)]
  rfl

theorem readIntL_eq {lim : Limits} {L : Nat} (hL : ∀ k, k ≤ L → tooLong lim k = false) (inp : Bytes) : ∀ acc, acc.length + inp.length ≤ L →
    readIntL lim acc inp = emb (readInt acc inp) := by
  induction inp with
  | nil => intro acc _; rfl
  | cons c r ih =>
    intro acc h
    simp only [List.length_cons] at h
    simp only [readIntL, readInt]
    rw [intL_short hL (by omega : acc.length ≤ L), ih _ (by simp only [List.length_append, List.length_cons, List.length_nil]; omega)]
    split
    · split
      · rfl
      · cases pyInt acc <;> rfl
    · rfl

theorem sizeLoopL_eq {lim : Limits} {L : Nat} (hL : ∀ k, k ≤ L → tooLong lim k = false) (n : Nat) : ∀ acc inp, acc.length + inp.length ≤ L →
    sizeLoopL lim n acc inp = emb (sizeLoop n acc inp) := by
  induction n with
  | zero => intro acc inp _; rfl
  | succ n ih =>
    intro acc inp h
    cases inp with
    | nil => simp only [sizeLoopL, sizeLoop]; exact ih _ _ h
    | cons c r =>
      simp only [List.length_cons] at h
      simp only [sizeLoopL, sizeLoop]
      rw [intL_short hL (by omega : acc.length ≤ L), ih _ _ (by simp only [List.length_append, List.length_cons, List.length_nil]; omega)]
      split
      · cases pyInt acc with
        | none => rfl
        | some i => exact readNL_eq _ _
      · rfl

theorem reach {lim : Limits} {L : Nat} (hL : ∀ k, k ≤ L → tooLong lim k = false) (n : Nat) :
    (∀ d inp, inp.length < d → inp.length ≤ L → decodeL lim n d inp = emb (decodeF n inp)) ∧
    (∀ d acc inp, inp.length < d → inp.length ≤ L → listLoopL lim n d acc inp = emb (listLoop n acc inp)) ∧
    (∀ d acc inp, inp.length < d → inp.length ≤ L → dictLoopL lim n d acc inp = emb (dictLoop n acc inp)) := by
  induction n with
  | zero => exact ⟨fun _ _ _ _ => rfl, fun _ _ _ _ _ => rfl, fun _ _ _ _ _ => rfl⟩
  | succ n ih =>
    obtain ⟨ihd, ihl, ihk⟩ := ih
    refine ⟨?_, ?_, ?_⟩
    · intro d inp hd hl
      cases d with
      | zero => omega
      | succ d =>
        cases inp with
        | nil => rfl
        | cons t r =>
          simp only [List.length_cons] at hd hl
          simp only [decodeL, decodeF]
          split
          · rfl
          split
          · exact readIntL_eq hL _ _ (by simp only [List.length_nil]; omega)
          split
          · exact ihl _ _ _ (by omega) (by omega)
          split
          · exact ihk _ _ _ (by omega) (by omega)
          · exact sizeLoopL_eq hL _ _ _ (by simp only [List.length_cons, List.length_nil]; omega)
    · intro d acc inp hd hl
      simp only [listLoopL, listLoop]
      rw [ihd d inp hd hl]
      cases hr : decodeF n inp with
      | ok v r =>
        have := (consumes n).1 _ _ _ hr
        simp only [emb]
        split
        · rfl
        · exact ihl _ _ _ (by omega) (by omega)
      | raise e => rfl
      | out => rfl
    · intro d acc inp hd hl
      simp only [dictLoopL, dictLoop]
      rw [ihd d inp hd hl]
      cases hr : decodeF n inp with
      | ok k r =>
        have h1 := (consumes n).1 _ _ _ hr
        simp only [emb]
        split
        · cases mkDict acc <;> rfl
        · rw [ihd d r (by omega) (by omega)]
          cases hr' : decodeF n r with
          | ok v r' =>
            have h2 := (consumes n).1 _ _ _ hr'
            exact ihk _ _ _ (by omega) (by omega)
          | raise e => rfl
          | out => rfl
      | raise e => rfl
      | out => rfl

theorem decode_rel (lim : Limits) (data : Bytes) :
    decode lim data = free (Bencode.decode data) ∨ decode lim data = .recursion ∨ decode lim data = .raise .value := by
  unfold decode
  cases lim.depth with
  | zero => exact .inr (.inl rfl)
  | succ d =>
    simp only [Bencode.decode]
    rcases (rel lim (enough data)).1 d data with h | h | h
    · rw [h]; left; cases decodeF (enough data) data <;> rfl
    · rw [h]; exact .inr (.inl rfl)
    · rw [h]; exact .inr (.inr rfl)

theorem decode_reach {lim : Limits} {data : Bytes} (hd : data.length + 1 < lim.depth) (hL : ∀ k, k ≤ data.length → tooLong lim k = false) :
    decode lim data = free (Bencode.decode data) := by
  unfold decode
  cases hq : lim.depth with
  | zero => omega
  | succ d =>
    simp only [Bencode.decode]
    rw [(reach hL (enough data)).1 d data (by omega) (Nat.le_refl _)]
    cases decodeF (enough data) data <;> rfl

end Verif.Limits
