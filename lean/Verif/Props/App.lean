import Verif.Model.App
import Verif.Proofs.Text
import Verif.Spec.App
/-!
C97-C99: the command line.
-/
namespace Verif.App
open Verif

/-! ### C97 -/

/-- C97, the part that holds: a serial that is given is used; otherwise that of the file, without the white space around it. -/
theorem c97_given_partial {given : Text} (hne : given ≠ []) (file : Option Text) : setting (some given) file = some given := by
  cases given with
  | nil => exact absurd rfl hne
  | cons c t => rfl

/-- C97: the text of the file without white space at its ends. -/
theorem c97_file_partial {a t b : Text} (ha : ∀ c ∈ a, isSpaceC c = true) (hb : ∀ c ∈ b, isSpaceC c = true)
    (h1 : ∀ c, t.head? = some c → isSpaceC c = false) (h2 : ∀ c, t.getLast? = some c → isSpaceC c = false) :
    setting none (some (a ++ t ++ b)) = some t ∧ setting (some []) (some (a ++ t ++ b)) = some t := by
  have := stripWith_eq isSpaceC ha hb h1 h2
  simp only [setting, Option.map_some, this, List.isEmpty_nil, if_true, and_self]

/-- C97: a client starts with a serial and a token only if each was given or its file can be read. -/
theorem c97_needed {serial token serialFile tokenFile : Option Text} {s t : Text}
    (h : credentials serial token serialFile tokenFile = some (s, t)) :
    (serial = some s ∨ serialFile.isSome) ∧ (token = some t ∨ tokenFile.isSome) := by
  have key : ∀ {given file : Option Text} {x : Text}, setting given file = some x → given = some x ∨ file.isSome := by
    intro given file x h
    cases file with
    | some f => exact .inr rfl
    | none =>
      cases given with
      | none => exact nomatch h
      | some g =>
        simp only [setting, Option.map_none] at h
        split at h
        · exact nomatch h
        · exact .inl h
  unfold credentials at h
  cases hs : setting serial serialFile with
  | none => rw [hs] at h; exact nomatch h
  | some s' =>
    cases ht : setting token tokenFile with
    | none => rw [hs, ht] at h; exact nomatch h
    | some t' =>
      rw [hs, ht] at h
      injection h with h
      injection h with e1 e2
      subst e1; subst e2
      exact ⟨key hs, key ht⟩

/-- C97 is false for a file that holds only white space: the client runs with an empty serial. -/
theorem c97_blank_false {f : Text} (h : ∀ c ∈ f, isSpaceC c = true) (token : Text) (ht : token ≠ []) :
    credentials none (some token) (some f) none = some ([], token) := by
  have e : stripWith isSpaceC f = [] := by
    have := stripWith_eq isSpaceC (a := f) (t := []) (b := []) h (by simp) (by simp) (by simp)
    simpa using this
  simp only [credentials, setting, Option.map_some, e]
  cases token with
  | nil => exact absurd rfl ht
  | cons c t => rfl

/-- C97, exactly when a setting is empty: nothing, or an empty text, was given and the file holds nothing but white space. -/
theorem c97_empty_iff (given file : Option Text) :
    setting given file = some [] ↔ (given = none ∨ given = some []) ∧ ∃ f, file = some f ∧ ∀ c ∈ f, isSpaceC c = true := by
  have key : ∀ f : Text, stripWith isSpaceC f = [] ↔ ∀ c ∈ f, isSpaceC c = true := by
    intro f
    constructor
    · intro h c hc
      by_cases hcs : isSpaceC c = true
      · exact hcs
      · exfalso
        unfold stripWith at h
        have h1 : (f.dropWhile isSpaceC).reverse.dropWhile isSpaceC = [] := by simpa using h
        have h2 : ∀ x ∈ f.dropWhile isSpaceC, isSpaceC x = true := by
          intro x hx
          have h4 : (f.dropWhile isSpaceC).reverse.takeWhile isSpaceC = (f.dropWhile isSpaceC).reverse := by
            have := List.takeWhile_append_dropWhile (p := isSpaceC) (l := (f.dropWhile isSpaceC).reverse)
            rw [h1, List.append_nil] at this
            exact this
          have h5 := List.all_takeWhile (p := isSpaceC) (l := (f.dropWhile isSpaceC).reverse)
          rw [h4] at h5
          exact List.all_eq_true.1 h5 x (List.mem_reverse.2 hx)
        have h3 : f = f.takeWhile isSpaceC ++ f.dropWhile isSpaceC := (List.takeWhile_append_dropWhile).symm
        rw [h3] at hc
        rcases List.mem_append.1 hc with hc | hc
        · exact hcs (List.all_eq_true.1 (List.all_takeWhile (p := isSpaceC) (l := f)) c hc)
        · exact hcs (h2 c hc)
    · intro h
      have := stripWith_eq isSpaceC (a := f) (t := []) (b := []) h (by simp) (by simp) (by simp)
      simpa using this
  have hfile : file.map (stripWith isSpaceC) = some [] ↔ ∃ f, file = some f ∧ ∀ c ∈ f, isSpaceC c = true := by
    cases file with
    | none => simp
    | some f => simp [key]
  cases given with
  | none => simp only [setting, true_or, true_and, hfile]
  | some g =>
    cases g with
    | nil => simp only [setting, List.isEmpty_nil, if_true, or_true, true_and, hfile]
    | cons c t => simp [setting]

example : setting (some []) (some " \n".toList) = some [] := by decide +kernel
example : credentials none (some "t0".toList) (some " abc-1\n".toList) none = some ("abc-1".toList, "t0".toList) := by decide +kernel
example : credentials (some []) none none (some "x".toList) = none := by decide +kernel

/-! ### C98 -/

/-- C98: the exit status tells how the command ended. -/
theorem c98_status (upper : Text → Text) (a : Args) (cmd : Cmd → Bool) :
    (status (main upper a cmd) = 0 ↔ (∃ n, initLogging upper a = .ok n) ∧ ∃ c, a.cmd = some c ∧ cmd c = true) ∧
    (status (main upper a cmd) = 255 → ∃ c, a.cmd = some c ∧ cmd c = false ∧ a.debug = false) ∧
    ((∃ n, initLogging upper a = .ok n) → ∀ c, a.cmd = some c → cmd c = false → a.debug = false → status (main upper a cmd) = 255) ∧
    (a.cmd = none → status (main upper a cmd) = 1) := by
  have hr : initLogging upper a ≠ .error .reported := by
    simp only [initLogging]
    generalize levels.find? _ = o
    cases o with
    | none => exact fun h => nomatch h
    | some x =>
      cases a.logFile with
      | none => exact fun h => nomatch h
      | some b => cases b <;> exact fun h => nomatch h
  unfold main
  cases hi : initLogging upper a with
  | error e =>
    cases e with
    | reported => exact absurd hi hr
    | keyError | valueError =>
      refine ⟨⟨fun h => by simp [status] at h, ?_⟩, fun h => by simp [status] at h, ?_, fun _ => rfl⟩
      · rintro ⟨⟨n, h⟩, _⟩; exact nomatch h
      · rintro ⟨n, h⟩; exact nomatch h
  | ok n =>
    cases hc : a.cmd with
    | none =>
      refine ⟨⟨fun h => by simp [status] at h, ?_⟩, fun h => by simp [status] at h, ?_, fun _ => rfl⟩
      · rintro ⟨_, c, h, _⟩; exact nomatch h
      · rintro _ c h; exact nomatch h
    | some c =>
      cases hx : cmd c with
      | true =>
        simp only [hx, if_true]
        refine ⟨⟨fun _ => ⟨⟨n, rfl⟩, c, rfl, hx⟩, fun _ => rfl⟩, fun h => by simp [status] at h, ?_, fun h => nomatch h⟩
        rintro _ c' h1 h2
        injection h1 with h1
        rw [← h1, hx] at h2
        exact nomatch h2
      | false =>
        cases hd : a.debug with
        | true =>
          simp only [hx, Bool.false_eq_true, if_false, if_true]
          refine ⟨⟨fun h => by simp [status] at h, ?_⟩, fun h => by simp [status] at h, ?_, fun h => nomatch h⟩
          · rintro ⟨_, c', h1, h2⟩
            injection h1 with h1
            rw [← h1, hx] at h2
            exact nomatch h2
          · intro _ _ _ _ h; exact nomatch h
        | false =>
          simp only [hx, Bool.false_eq_true, if_false]
          refine ⟨⟨fun h => by simp [status] at h, ?_⟩, fun _ => ⟨c, rfl, hx, trivial⟩, fun _ _ _ _ _ => by decide, fun h => nomatch h⟩
          rintro ⟨_, c', h1, h2⟩
          injection h1 with h1
          rw [← h1, hx] at h2
          exact nomatch h2

example : status (main id ⟨false, false, "INFO".toList, none, some .version⟩ (fun _ => true)) = 0 := by decide +kernel
example : status (main id ⟨false, false, "INFO".toList, none, some .run⟩ (fun _ => false)) = 255 := by decide +kernel

/-! ### C99 -/

theorem level_iff (name : Text) (n : Nat) : Level name n ↔ (name, n) ∈ levels := by
  constructor
  · intro h
    cases h <;> decide +kernel
  · intro h
    simp only [levels, List.mem_cons, Prod.mk.injEq, List.not_mem_nil, or_false] at h
    rcases h with ⟨rfl, rfl⟩ | ⟨rfl, rfl⟩ | ⟨rfl, rfl⟩ | ⟨rfl, rfl⟩ | ⟨rfl, rfl⟩ | ⟨rfl, rfl⟩ | ⟨rfl, rfl⟩
    · exact .notset
    · exact .debug
    · exact .info
    · exact .warn
    · exact .warning
    · exact .error
    · exact .critical

/-- C99, the part that holds: each of the names sets its level, in any case that `upper` maps to it, if the log file can be used. -/
theorem c99_levels_partial (upper : Text → Text) (a : Args) (hq : a.quiet = false) (hf : a.logFile ≠ some false) {name : Text} {n : Nat}
    (h : Level name n) (hu : upper a.logLevel = name) : initLogging upper a = .ok n := by
  have hl : ∀ x ∈ levels, levels.find? (fun y => decide (y.1 = x.1)) = some x := by decide +kernel
  have := hl _ ((level_iff _ _).1 h)
  simp only at this
  have hb : a.quiet = true ↔ False := by simp [hq]
  simp only [initLogging, hb, if_false, hu, this]

/-- C99: quiet means critical, whatever level is named. -/
theorem c99_quiet (upper : Text → Text) (a : Args) (hq : a.quiet = true) (hf : a.logFile ≠ some false) : initLogging upper a = .ok 50 := by
  have : levels.find? (fun y => decide (y.1 = sCritical)) = some (sCritical, 50) := by decide +kernel
  simp only [initLogging, hq, if_true, this]

/-- C99 is false for every other name: instead of the message there is an exception, because the handler is for another one. -/
theorem c99_invalid_false (upper : Text → Text) (a : Args) (hq : a.quiet = false) (h : ∀ n, ¬ Level (upper a.logLevel) n) (cmd : Cmd → Bool) :
    initLogging upper a = .error .keyError ∧ main upper a cmd = .traceback := by
  have : levels.find? (fun x => decide (x.1 = upper a.logLevel)) = none := by
    rw [List.find?_eq_none]
    intro x hx he
    have he := of_decide_eq_true he
    exact h x.2 ((level_iff _ _).2 (by rw [← he]; exact hx))
  have hb : a.quiet = true ↔ False := by simp [hq]
  have h1 : initLogging upper a = .error .keyError := by simp only [initLogging, hb, if_false, this]
  exact ⟨h1, by simp only [main, h1]⟩

/-- C99, exactly: which level is set, and that nothing else can happen than one of the two exceptions. -/
theorem c99_exact (upper : Text → Text) (a : Args) (n : Nat) :
    initLogging upper a = .ok n ↔ a.logFile ≠ some false ∧ (a.quiet = true ∧ n = 50 ∨ a.quiet = false ∧ Level (upper a.logLevel) n) := by
  have hl : ∀ x ∈ levels, levels.find? (fun y => decide (y.1 = x.1)) = some x := by decide +kernel
  constructor
  · intro h
    have hf : a.logFile ≠ some false := by
      intro hf
      simp only [initLogging, hf] at h
      split at h <;> exact nomatch h
    refine ⟨hf, ?_⟩
    cases hq : a.quiet with
    | true =>
      rw [c99_quiet upper a hq hf] at h
      injection h with h
      exact .inl ⟨rfl, h.symm⟩
    | false =>
      refine .inr ⟨rfl, ?_⟩
      apply Classical.byContradiction
      intro hno
      by_cases hex : ∃ m, Level (upper a.logLevel) m
      · obtain ⟨m, hm⟩ := hex
        rw [c99_levels_partial upper a hq hf hm rfl] at h
        injection h with h
        exact hno (h ▸ hm)
      · rw [(c99_invalid_false upper a hq (fun m hm => hex ⟨m, hm⟩) (fun _ => true)).1] at h
        exact nomatch h
  · rintro ⟨hf, ⟨hq, rfl⟩ | ⟨hq, hn⟩⟩
    · exact c99_quiet upper a hq hf
    · exact c99_levels_partial upper a hq hf hn rfl

/-- C99: the message for an invalid level is never given. -/
theorem c99_never_reported (upper : Text → Text) (a : Args) : initLogging upper a ≠ .error .reported := by
  simp only [initLogging]
  generalize levels.find? _ = o
  cases o with
  | none => exact fun h => nomatch h
  | some x =>
    cases a.logFile with
    | none => exact fun h => nomatch h
    | some b => cases b <;> exact fun h => nomatch h

example : initLogging id ⟨false, false, "VERBOSE".toList, none, some .run⟩ = .error .keyError := by decide +kernel
example : initLogging (·.map Char.toUpper) ⟨false, false, "debug".toList, none, some .run⟩ = .ok 10 := by decide +kernel

end Verif.App
