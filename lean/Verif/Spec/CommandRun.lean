import Verif.Spec.CommandLine
import Verif.Spec.App
/-!
Specification vocabulary for C187: which settings let the agent set up its logging.
-/
namespace Verif.CommandLine
open Verif

/-- A log file that is named, and not by an empty text, can be used. -/
def LogFile (usable : Text → Bool) (ss : List Setting) : Prop := ∀ f, given .logFile ss = some f → f ≠ [] → usable f = true

/-- The log level: critical if `--quiet` is among the settings, otherwise the one named last, or `INFO`. -/
def LogLevel (upper : Text → Text) (ss : List Setting) (n : Nat) : Prop :=
  if ∃ s ∈ ss, s.1 = .quiet then n = 50 else App.Level (upper ((given .logLevel ss).getD "INFO".toList)) n

/-- The command line runs the command `c`, with these settings. -/
def Runs (digit : Char → Bool) (upper : Text → Text) (usable : Text → Bool) (argv : List Text) (ss : List Setting) (c : App.Cmd) : Prop :=
  Line digit argv ss (some c) ∧ Plain ss ∧ LogFile usable ss ∧ ∃ n, LogLevel upper ss n

end Verif.CommandLine
