import Verif.Proofs.Services
import Verif.Spec.FileChanging
/-!
Lemmas for C181 and C182.
-/
namespace Verif.FileChanging
open Verif Services

theorem sent_nil : sentBytes [] = [] := rfl

theorem sent_write (d : Bytes) (b : Bool) (acts : List Act) : sentBytes (.write d b :: acts) = (if b then d else []) ++ sentBytes acts := by
  cases b <;> simp [sentBytes]

theorem written_write (d : Bytes) (b : Bool) (acts : List Act) : written (.write d b :: acts) = d ++ written acts := by
  simp [written]

theorem sent_append (a b : List Act) : sentBytes (a ++ b) = sentBytes a ++ sentBytes b := by simp [sentBytes]

theorem written_append (a b : List Act) : written (a ++ b) = written a ++ written b := by simp [written]

theorem finish_sent (s : Status) : sentBytes (finish s) = [] ∧ written (finish s) = [] := by
  cases s with
  | running => exact ⟨rfl, rfl⟩
  | ended f =>
    cases f with
    | none => exact ⟨rfl, rfl⟩
    | some f => cases f <;> exact ⟨rfl, rfl⟩

theorem piece_length (env : Env) (k pos : Nat) : (piece env k pos).length ≤ 1048576 := by
  simp only [piece, chunkSize, List.length_take]
  omega

theorem piece_get (env : Env) (k pos j : Nat) (x : UInt8) (h : (piece env k pos)[j]? = some x) : (env.content k)[pos + j]? = some x := by
  simp only [piece] at h
  rw [List.getElem?_take] at h
  split at h
  · rwa [List.getElem?_drop] at h
  · simp at h

/-- One round, by cases. -/
inductive Round (env : Env) (k pos : Nat) (r : List Act × Status) (next : List Act × Status) : Prop where
  | readFails (f) : env.read k = some f → r = ([], .ended (some f)) → Round env k pos r next
  | atEnd : env.read k = none → piece env k pos = [] → r = ([], .ended none) → Round env k pos r next
  | closed : env.read k = none → piece env k pos ≠ [] → env.closed (2 * k) = true → r = ([], .ended none) → Round env k pos r next
  | writeFails (f) : env.read k = none → piece env k pos ≠ [] → env.closed (2 * k) = false → env.write k = some f →
      r = ([.write (piece env k pos) false], .ended (some f)) → Round env k pos r next
  | goes : env.read k = none → piece env k pos ≠ [] → env.closed (2 * k) = false → env.write k = none →
      r = (.write (piece env k pos) (!env.closed (2 * k + 1)) :: next.1, next.2) → Round env k pos r next

theorem round_cases (env : Env) (fuel k pos : Nat) :
    Round env k pos (sendLoop env (fuel + 1) k pos) (sendLoop env fuel (k + 1) (pos + (piece env k pos).length)) := by
  cases hr : env.read k with
  | some f => exact .readFails f hr (by simp only [sendLoop, hr])
  | none =>
    by_cases hp : piece env k pos = []
    · exact .atEnd hr hp (by simp only [sendLoop, hr]; rw [if_pos (by rw [hp]; rfl)])
    · have hp' : ¬ (piece env k pos).isEmpty = true := by simpa using hp
      cases hc : env.closed (2 * k) with
      | true => exact .closed hr hp hc (by simp only [sendLoop, hr]; rw [if_neg hp', if_pos hc])
      | false =>
        have hc' : ¬ env.closed (2 * k) = true := by rw [hc]; simp
        cases hw : env.write k with
        | some f => exact .writeFails f hr hp hc hw (by simp only [sendLoop, hr]; rw [if_neg hp', if_neg hc', hw])
        | none => exact .goes hr hp hc hw (by simp only [sendLoop, hr]; rw [if_neg hp', if_neg hc', hw])

/-- Every byte that is written was at its place in the file when it was read. -/
theorem loop_bytes (env : Env) (fuel k pos : Nat) (j : Nat) (x : UInt8) (h : (written (sendLoop env fuel k pos).1)[j]? = some x) :
    ∃ t, k ≤ t ∧ t < k + fuel ∧ (env.content t)[pos + j]? = some x := by
  induction fuel generalizing k pos j with
  | zero => simp [sendLoop, written] at h
  | succ fuel ih =>
    rcases round_cases env fuel k pos with ⟨f, _, e⟩ | ⟨_, _, e⟩ | ⟨_, _, _, e⟩ | ⟨f, _, _, _, _, e⟩ | ⟨_, _, _, _, e⟩
    · rw [e] at h; simp [written] at h
    · rw [e] at h; simp [written] at h
    · rw [e] at h; simp [written] at h
    · rw [e, written_write] at h
      have h : (piece env k pos)[j]? = some x := by simpa [written] using h
      exact ⟨k, Nat.le_refl _, by omega, piece_get env k pos j x h⟩
    · rw [e, written_write] at h
      by_cases hj : j < (piece env k pos).length
      · rw [List.getElem?_append_left hj] at h
        exact ⟨k, Nat.le_refl _, by omega, piece_get env k pos j x h⟩
      · rw [List.getElem?_append_right (by omega)] at h
        obtain ⟨t, h1, h2, h3⟩ := ih _ _ _ h
        refine ⟨t, by omega, by omega, ?_⟩
        rwa [show pos + (piece env k pos).length + (j - (piece env k pos).length) = pos + j by omega] at h3

theorem appended_le {f : Nat → Bytes} (h : Appended f) {i j : Nat} (hij : i ≤ j) : f i <+: f j := by
  induction hij with
  | refl => exact List.prefix_refl _
  | step _ ih => exact ih.trans (h _)

theorem piece_prefix (env : Env) (k pos : Nat) (done : Bytes) (hl : done.length = pos) (hd : done <+: env.content k) :
    done ++ piece env k pos <+: env.content k := by
  obtain ⟨rest, hr⟩ := hd
  simp only [piece, ← hr, ← hl, List.drop_left]
  exact (List.prefix_append_right_inj done).2 (List.take_prefix _ _)

/-- What is sent of a file that is only appended to. -/
theorem loop_appended (env : Env) (hf : Appended env.content) (hm : Mono env.closed) (fuel k : Nat) (done : Bytes)
    (hd : done <+: env.content k) :
    done ++ sentBytes (sendLoop env fuel k done.length).1 <+: env.content (k + fuel) ∧
    (env.Good → (sendLoop env fuel k done.length).2 ≠ .running → ∃ t, k ≤ t ∧ t < k + fuel ∧
      done ++ sentBytes (sendLoop env fuel k done.length).1 = env.content t) := by
  induction fuel generalizing k done with
  | zero => exact ⟨by simpa [sendLoop, sentBytes] using hd, fun _ h => absurd rfl h⟩
  | succ fuel ih =>
    have hd' : done <+: env.content (k + (fuel + 1)) := hd.trans (appended_le hf (by omega))
    rcases round_cases env fuel k done.length with ⟨f, hr, e⟩ | ⟨hr, hp, e⟩ | ⟨_, _, hc, e⟩ | ⟨f, _, _, _, hw, e⟩ | ⟨hr, hp, hc, hw, e⟩
    · rw [e]
      exact ⟨by simpa [sentBytes] using hd', fun hg => by have := hg.read k; rw [hr] at this; simp at this⟩
    · rw [e]
      refine ⟨by simpa [sentBytes] using hd', fun _ _ => ⟨k, Nat.le_refl _, by omega, ?_⟩⟩
      rw [sent_nil, List.append_nil]
      obtain ⟨rest, hrest⟩ := hd
      have hz : rest = [] := by
        simp only [piece, ← hrest, List.drop_left] at hp
        cases rest with
        | nil => rfl
        | cons x xs => simp [chunkSize] at hp
      rw [← hrest, hz, List.append_nil]
    · rw [e]
      exact ⟨by simpa [sentBytes] using hd', fun hg => by have := hg.open_ (2 * k); rw [hc] at this; simp at this⟩
    · rw [e]
      exact ⟨by simpa [sentBytes] using hd', fun hg => by have := hg.write k; rw [hw] at this; simp at this⟩
    · have hp' := piece_prefix env k done.length done rfl hd
      have hlen : (done ++ piece env k done.length).length = done.length + (piece env k done.length).length := by simp
      obtain ⟨g1, g2⟩ := ih (k + 1) (done ++ piece env k done.length) (hp'.trans (hf k))
      rw [hlen] at g1 g2
      rw [e]
      simp only [sent_write]
      cases ho : env.closed (2 * k + 1) with
      | false =>
        simp only [Bool.not_false, if_true]
        rw [← List.append_assoc]
        refine ⟨by rw [show k + (fuel + 1) = k + 1 + fuel by omega]; exact g1, ?_⟩
        intro hg hn
        obtain ⟨t, h1, h2, h3⟩ := g2 hg hn
        exact ⟨t, by omega, by omega, h3⟩
      | true =>
        refine ⟨?_, fun hg => by have := hg.open_ (2 * k + 1); rw [ho] at this; simp at this⟩
        have hnil : sentBytes (sendLoop env fuel (k + 1) (done.length + (piece env k done.length).length)).1 = [] := by
          cases fuel with
          | zero => rfl
          | succ fuel =>
            have hc2 := hm (2 * k + 1) (2 * (k + 1)) (by omega) ho
            rcases round_cases env fuel (k + 1) (done.length + (piece env k done.length).length) with
              ⟨f, _, e⟩ | ⟨_, _, e⟩ | ⟨_, _, _, e⟩ | ⟨f, _, _, h, _, e⟩ | ⟨_, _, h, _, e⟩
            · rw [e]; rfl
            · rw [e]; rfl
            · rw [e]; rfl
            · rw [hc2] at h; simp at h
            · rw [hc2] at h; simp at h
        rw [hnil]
        simpa using hd'

/-- A file that stays the same: the loop of Model/Services. -/
theorem loop_same (env : FileEnv) (content : Bytes) (fuel k pos : Nat) (hfuel : (content.drop pos).length < fuel) (n : Nat)
    (hn : (content.drop pos).length ≤ n) :
    sendLoop ⟨fun _ => content, env.read, env.write, env.closed⟩ fuel k pos =
      ((fileLoop env k (chunksOf chunkSize n (content.drop pos))).1, .ended (fileLoop env k (chunksOf chunkSize n (content.drop pos))).2) := by
  induction fuel generalizing k pos n with
  | zero => omega
  | succ fuel ih =>
    have hpiece : piece ⟨fun _ => content, env.read, env.write, env.closed⟩ k pos = (content.drop pos).take chunkSize := rfl
    cases n with
    | zero =>
      have hz : content.drop pos = [] := List.length_eq_zero_iff.1 (by omega)
      rcases round_cases ⟨fun _ => content, env.read, env.write, env.closed⟩ fuel k pos with
        ⟨f, hr, e⟩ | ⟨hr, hp, e⟩ | ⟨_, hp, _, e⟩ | ⟨f, _, hp, _, hw, e⟩ | ⟨hr, hp, hc, hw, e⟩
      · rw [e]; simp only [chunksOf, fileLoop]; rw [show env.read k = some f from hr]
      · rw [e]; simp only [chunksOf, fileLoop]; rw [show env.read k = none from hr]
      · exact absurd (by rw [hpiece, hz]; rfl) hp
      · exact absurd (by rw [hpiece, hz]; rfl) hp
      · exact absurd (by rw [hpiece, hz]; rfl) hp
    | succ n =>
      by_cases hz : content.drop pos = []
      · have hch : chunksOf chunkSize (n + 1) (content.drop pos) = [] := by rw [hz]; rfl
        rw [hch]
        rcases round_cases ⟨fun _ => content, env.read, env.write, env.closed⟩ fuel k pos with
          ⟨f, hr, e⟩ | ⟨hr, hp, e⟩ | ⟨_, hp, _, e⟩ | ⟨f, _, hp, _, hw, e⟩ | ⟨hr, hp, hc, hw, e⟩
        · rw [e]; simp only [fileLoop]; rw [show env.read k = some f from hr]
        · rw [e]; simp only [fileLoop]; rw [show env.read k = none from hr]
        · exact absurd (by rw [hpiece, hz]; rfl) hp
        · exact absurd (by rw [hpiece, hz]; rfl) hp
        · exact absurd (by rw [hpiece, hz]; rfl) hp
      · have hne : ¬ (content.drop pos).isEmpty = true := by simpa using hz
        have hpos : 0 < (content.drop pos).length := List.length_pos_iff.2 hz
        have hch : chunksOf chunkSize (n + 1) (content.drop pos) =
            (content.drop pos).take chunkSize :: chunksOf chunkSize n ((content.drop pos).drop chunkSize) := by
          simp only [chunksOf]; rw [if_neg hne]
        have hpne : (content.drop pos).take chunkSize ≠ [] := by
          intro h
          have := congrArg List.length h
          simp only [List.length_take, chunkSize, List.length_nil] at this
          omega
        have hdrop : (content.drop pos).drop chunkSize = content.drop (pos + ((content.drop pos).take chunkSize).length) := by
          rw [List.drop_drop, List.length_take]
          by_cases hl : chunkSize ≤ (content.drop pos).length
          · rw [Nat.min_eq_left hl]
          · have h1 : (content.drop (pos + chunkSize)) = [] := by
              apply List.drop_eq_nil_of_le
              rw [List.length_drop] at hl
              omega
            have h2 : (content.drop (pos + min chunkSize (content.drop pos).length)) = [] := by
              apply List.drop_eq_nil_of_le
              rw [List.length_drop] at hl ⊢
              omega
            rw [h1, h2]
        rw [hch]
        rcases round_cases ⟨fun _ => content, env.read, env.write, env.closed⟩ fuel k pos with
          ⟨f, hr, e⟩ | ⟨hr, hp, e⟩ | ⟨hr, hp, hc, e⟩ | ⟨f, hr, hp, hc, hw, e⟩ | ⟨hr, hp, hc, hw, e⟩
        · rw [e]; simp only [fileLoop]; rw [show env.read k = some f from hr]
        · exact absurd hp hpne
        · rw [e]; simp only [fileLoop]; rw [show env.read k = none from hr]; simp only; rw [if_pos hc]
        · rw [e]; simp only [fileLoop]; rw [show env.read k = none from hr]; simp only
          rw [if_neg (show ¬ env.closed (2 * k) = true by rw [show env.closed (2 * k) = false from hc]; simp),
            show env.write k = some f from hw]
          rfl
        · have hlt : (content.drop (pos + ((content.drop pos).take chunkSize).length)).length < (content.drop pos).length := by
            rw [← hdrop]
            simp only [List.length_drop, chunkSize]
            rw [List.length_drop] at hpos
            omega
          rw [e, hpiece, ih (k + 1) _ (by omega) n (by omega)]
          simp only [fileLoop]
          rw [show env.read k = none from hr]
          simp only
          rw [if_neg (show ¬ env.closed (2 * k) = true by rw [show env.closed (2 * k) = false from hc]; simp),
            show env.write k = none from hw]
          simp only
          rw [hdrop]

/-- A channel that is found closed ends the loop. -/
theorem loop_closed (env : Env) (m : Nat) (hm : env.closed (2 * m) = true) (fuel k pos : Nat) (hk : k ≤ m) (hf : m - k < fuel) :
    (sendLoop env fuel k pos).2 ≠ .running := by
  induction fuel generalizing k pos with
  | zero => omega
  | succ fuel ih =>
    rcases round_cases env fuel k pos with ⟨f, _, e⟩ | ⟨_, _, e⟩ | ⟨_, _, _, e⟩ | ⟨f, _, _, _, _, e⟩ | ⟨_, _, hc, _, e⟩
    · rw [e]; simp
    · rw [e]; simp
    · rw [e]; simp
    · rw [e]; simp
    · rw [e]
      by_cases h : k = m
      · subst h; rw [hm] at hc; simp at hc
      · exact ih (k + 1) _ (by omega) (by omega)

/-- What is sent comes before what is not. -/
theorem loop_sent (env : Env) (hm : Mono env.closed) (fuel k pos : Nat) :
    sentBytes (sendLoop env fuel k pos).1 <+: written (sendLoop env fuel k pos).1 ∧
    (env.closed (2 * k) = true → sentBytes (sendLoop env fuel k pos).1 = []) := by
  induction fuel generalizing k pos with
  | zero => exact ⟨List.prefix_refl _, fun _ => rfl⟩
  | succ fuel ih =>
    rcases round_cases env fuel k pos with ⟨f, _, e⟩ | ⟨_, _, e⟩ | ⟨_, _, _, e⟩ | ⟨f, _, _, hc, _, e⟩ | ⟨_, _, hc, _, e⟩
    · rw [e]; exact ⟨List.prefix_refl _, fun _ => rfl⟩
    · rw [e]; exact ⟨List.prefix_refl _, fun _ => rfl⟩
    · rw [e]; exact ⟨List.prefix_refl _, fun _ => rfl⟩
    · rw [e]; exact ⟨List.nil_prefix, fun _ => rfl⟩
    · rw [e]
      obtain ⟨g1, g2⟩ := ih (k + 1) (pos + (piece env k pos).length)
      refine ⟨?_, fun h => by rw [hc] at h; simp at h⟩
      simp only [sent_write, written_write]
      cases ho : env.closed (2 * k + 1) with
      | false =>
        simp only [Bool.not_false, if_true]
        exact (List.prefix_append_right_inj _).2 g1
      | true =>
        rw [g2 (hm _ _ (by omega) ho)]
        simp

theorem piece_readTo (env : Env) (k : Nat) : readTo env.content k + (piece env k (readTo env.content k)).length = readTo env.content (k + 1) := by
  simp only [piece, readTo, chunkSize, List.length_take, List.length_drop]

theorem piece_some (env : Env) (k pos : Nat) : piece env k pos ≠ [] ↔ pos < (env.content k).length := by
  rw [← List.length_pos_iff]
  simp only [piece, chunkSize, List.length_take, List.length_drop]
  omega

theorem loop_running (env : Env) (fuel k : Nat) : (sendLoop env fuel k (readTo env.content k)).2 = .running ↔
    ∀ j, k ≤ j → j < k + fuel → env.read j = none ∧ readTo env.content j < (env.content j).length ∧ env.closed (2 * j) = false ∧
      env.write j = none := by
  induction fuel generalizing k with
  | zero => exact ⟨fun _ j h1 h2 => absurd h2 (by omega), fun _ => rfl⟩
  | succ fuel ih =>
    have hno : ∀ s, (sendLoop env (fuel + 1) k (readTo env.content k)).2 = .ended s →
        ¬ (env.read k = none ∧ readTo env.content k < (env.content k).length ∧ env.closed (2 * k) = false ∧ env.write k = none) →
        ((sendLoop env (fuel + 1) k (readTo env.content k)).2 = .running ↔
          ∀ j, k ≤ j → j < k + (fuel + 1) → env.read j = none ∧ readTo env.content j < (env.content j).length ∧ env.closed (2 * j) = false ∧
            env.write j = none) := by
      intro s h1 h2
      rw [h1]
      constructor
      · intro h; exact (nomatch h)
      · intro h; exact absurd (h k (Nat.le_refl _) (by omega)) h2
    rcases round_cases env fuel k (readTo env.content k) with ⟨f, hr, e⟩ | ⟨_, hp, e⟩ | ⟨_, _, hc, e⟩ | ⟨f, _, _, _, hw, e⟩ | ⟨hr, hp, hc, hw, e⟩
    · exact hno _ (by rw [e]) (fun h => by rw [hr] at h; exact (nomatch h.1))
    · exact hno _ (by rw [e]) (fun h => (piece_some env k _).2 h.2.1 hp)
    · exact hno _ (by rw [e]) (fun h => by rw [hc] at h; exact (nomatch h.2.2.1))
    · exact hno _ (by rw [e]) (fun h => by rw [hw] at h; exact (nomatch h.2.2.2))
    · rw [e, piece_readTo]
      rw [show (_, (sendLoop env fuel (k + 1) (readTo env.content (k + 1))).2).2 = (sendLoop env fuel (k + 1) (readTo env.content (k + 1))).2 from rfl]
      rw [ih (k + 1)]
      constructor
      · intro h j h1 h2
        by_cases hj : j = k
        · subst hj; exact ⟨hr, (piece_some env j _).1 hp, hc, hw⟩
        · exact h j (by omega) (by omega)
      · intro h j h1 h2
        exact h j (by omega) (by omega)

end Verif.FileChanging
