import Verif.Spec.CommandRun
import Verif.Props.CommandLine
/-!
C187: which command lines run a subcommand, and how the process ends.
-/
namespace Verif.CommandLine
open Verif

theorem any_opt (o : Opt) (ss : List Setting) : ss.any (·.1 == o) = true ↔ ∃ s ∈ ss, s.1 = o := by
  simp [List.any_eq_true]

/-- The level that is set for an accepted command line, and that there is none if the log file can not be used. -/
theorem init_line (upper : Text → Text) (usable : Text → Bool) (ss : List Setting) (c : Option App.Cmd) (n : Nat) :
    App.initLogging upper ((meaning ss c).args usable) = .ok n ↔ LogFile usable ss ∧ LogLevel upper ss n := by
  rw [App.c99_exact]
  have h1 : ((meaning ss c).args usable).logFile ≠ some false ↔ LogFile usable ss := by
    simp only [Ns.args, meaning, LogFile]
    cases h : given .logFile ss with
    | none => exact ⟨fun _ _ h => (nomatch h), fun _ h => (nomatch h)⟩
    | some f =>
      cases f with
      | nil => exact ⟨fun _ f h hf => by injection h with h; exact absurd h.symm hf, fun _ h => (nomatch h)⟩
      | cons a f =>
        simp only [List.isEmpty_cons, Bool.false_eq_true, if_false]
        constructor
        · intro h2 g hg _
          injection hg with hg
          subst hg
          cases hu : usable (a :: f) with
          | true => rfl
          | false => exact absurd (by rw [hu]) h2
        · intro h2 h3
          injection h3 with h3
          rw [h2 _ rfl (by simp)] at h3
          exact nomatch h3
  have h2 : (((meaning ss c).args usable).quiet = true ∧ n = 50 ∨
      ((meaning ss c).args usable).quiet = false ∧ App.Level (upper ((meaning ss c).args usable).logLevel) n) ↔ LogLevel upper ss n := by
    unfold LogLevel
    show (ss.any (·.1 == .quiet) = true ∧ n = 50 ∨
      ss.any (·.1 == .quiet) = false ∧ App.Level (upper ((given .logLevel ss).getD "INFO".toList)) n) ↔ _
    by_cases hq : ∃ s ∈ ss, s.1 = Opt.quiet
    · rw [if_pos hq, (any_opt _ _).2 hq]
      exact ⟨fun h => h.elim (·.2) (fun h => (nomatch h.1)), fun h => .inl ⟨rfl, h⟩⟩
    · rw [if_neg hq]
      have : ss.any (·.1 == .quiet) = false := Bool.eq_false_iff.2 (fun h => hq ((any_opt _ _).1 h))
      rw [this]
      exact ⟨fun h => h.elim (fun h => (nomatch h.1)) (·.2), fun h => .inr ⟨rfl, h⟩⟩
  rw [h1, h2]

/-- C187: a command line that runs a command ends with status 0 if the command succeeds; otherwise with a traceback if `--debug` is given, and with
status -1 if not. -/
theorem c187_ends {digit : Char → Bool} (hd : Digits digit) {upper : Text → Text} {usable : Text → Bool} {argv : List Text} {ss : List Setting}
    {c : App.Cmd} (h : Runs digit upper usable argv ss c) (cmd : App.Cmd → Bool) :
    (cmd c = true → main digit upper usable argv cmd = .exit 0) ∧
    (cmd c = false → (∃ s ∈ ss, s.1 = .debug) → main digit upper usable argv cmd = .traceback) ∧
    (cmd c = false → (¬ ∃ s ∈ ss, s.1 = .debug) → main digit upper usable argv cmd = .exit (-1)) := by
  obtain ⟨h1, h2, h3, n, h4⟩ := h
  have hp := (c160_iff hd argv _).2 ⟨ss, some c, h1, h2, rfl⟩
  have hi := (init_line upper usable ss (some c) n).2 ⟨h3, h4⟩
  have hm : main digit upper usable argv cmd =
      if cmd c then .exit 0 else if ss.any (·.1 == .debug) then .traceback else .exit (-1) := by
    simp only [main, hp, App.main, hi]
    rfl
  rw [hm]
  refine ⟨fun hc => ?_, fun hc hs => ?_, fun hc hs => ?_⟩
  · simp [hc]
  · rw [hc, (any_opt _ _).2 hs]
    rfl
  · rw [hc, Bool.eq_false_iff.2 (fun h => hs ((any_opt _ _).1 h))]
    rfl

/-- C187: any other command line ends in one way, whatever the commands would do: no command is run. -/
theorem c187_else {digit : Char → Bool} (hd : Digits digit) (upper : Text → Text) (usable : Text → Bool) (argv : List Text)
    (h : ¬ ∃ ss c, Runs digit upper usable argv ss c) (cmd cmd' : App.Cmd → Bool) :
    main digit upper usable argv cmd = main digit upper usable argv cmd' := by
  unfold main
  cases hp : parse digit argv with
  | error _ => rfl
  | ok n =>
    simp only
    obtain ⟨ss, c, h1, h2, rfl⟩ := (c160_iff hd argv n).1 hp
    unfold App.main
    cases hi : App.initLogging upper ((meaning ss c).args usable) with
    | error e => cases e <;> rfl
    | ok k =>
      obtain ⟨h3, h4⟩ := (init_line upper usable ss c k).1 hi
      simp only
      cases c with
      | none => rfl
      | some c => exact absurd ⟨ss, c, h1, h2, h3, k, h4⟩ h

/-- C187, exactly: whether `c` succeeds decides how the process ends if and only if the command line runs it. -/
theorem c187_iff {digit : Char → Bool} (hd : Digits digit) (upper : Text → Text) (usable : Text → Bool) (argv : List Text) (c : App.Cmd) :
    (∃ ss, Runs digit upper usable argv ss c) ↔
      main digit upper usable argv (fun _ => true) ≠ main digit upper usable argv (fun d => decide (d ≠ c)) := by
  constructor
  · rintro ⟨ss, h⟩
    rw [(c187_ends hd h _).1 rfl]
    by_cases hs : ∃ s ∈ ss, s.1 = Opt.debug
    · rw [(c187_ends hd h _).2.1 (by simp) hs]
      exact fun h => nomatch h
    · rw [(c187_ends hd h _).2.2 (by simp) hs]
      decide
  · intro h
    apply Classical.byContradiction
    intro hno
    apply h
    by_cases hex : ∃ ss d, Runs digit upper usable argv ss d
    · obtain ⟨ss, d, hr⟩ := hex
      have hd' : d ≠ c := by rintro rfl; exact hno ⟨ss, hr⟩
      rw [(c187_ends hd hr _).1 rfl, (c187_ends hd hr _).1 (by simp [hd'])]
    · exact c187_else hd upper usable argv hex _ _

/-- A log file that can not be used: nothing is run. -/
example : main asciiDigit id (fun _ => false) ["--log-file=/x".toList, "run".toList] (fun _ => true) = .traceback := by decide +kernel
example : main asciiDigit id (fun _ => true) ["--log-file=/x".toList, "run".toList] (fun _ => true) = .exit 0 := by decide +kernel
example : main asciiDigit id (fun _ => false) ["--log-file=".toList, "run".toList] (fun _ => true) = .exit 0 := by decide +kernel
example : main asciiDigit id (fun _ => true) ["--log-level".toList, "LOUD".toList, "run".toList] (fun _ => true) = .traceback := by decide +kernel
example : main asciiDigit id (fun _ => true) ["-q".toList, "--log-level".toList, "LOUD".toList, "version".toList] (fun _ => false) = .exit (-1) := by
  decide +kernel

end Verif.CommandLine
