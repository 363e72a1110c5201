import Verif.Model.CommandLine
import Verif.Spec.Shlex
/-!
The command lines of the agent, for C160-C162: which lines are understood, and what they mean.  Short options are one letter, and letters
without a value can be put together; long options can be shortened as long as they are unique; a value is in the same string or the next one.
-/
namespace Verif.CommandLine
open Verif

/-- The long name of an option. -/
def Opt.long : Opt → Text
  | .help => "--help".toList
  | .version => "--version".toList
  | .logLevel => "--log-level".toList
  | .logFile => "--log-file".toList
  | .debug => "--debug".toList
  | .serverUrl => "--server-url".toList
  | .m2mUrl => "--m2m-url".toList
  | .quiet => "--quiet".toList
  | .serial => "--serial".toList
  | .auth => "--auth".toList
  | .remoteDir => "--remote-dir".toList

/-- The letter of an option, for those that have one. -/
def letter : Char → Option Opt
  | 'h' => some .help
  | 'v' => some .version
  | 'd' => some .debug
  | 's' => some .serverUrl
  | 'm' => some .m2mUrl
  | 'q' => some .quiet
  | _ => none

/-- The options that stand alone. -/
def Opt.IsFlag (o : Opt) : Prop := o = .help ∨ o = .version ∨ o = .debug ∨ o = .quiet

/-- `p` is the long name of `o`, or a beginning of it that no other long name has. -/
def Names (p : Text) (o : Opt) : Prop := ['-', '-'] <+: p ∧ p <+: o.long ∧ ∀ o', p <+: o'.long → o' = o

/-- A negative number: digits, or a point between digits of which the first may be missing (and maybe a line feed). -/
def Number (digit : Char → Bool) (v : Text) : Prop :=
  ∃ w, (v = '-' :: w ∨ v = '-' :: (w ++ ['\n'])) ∧
    ((w ≠ [] ∧ ∀ c ∈ w, digit c = true) ∨
      ∃ a b, w = a ++ '.' :: b ∧ (∀ c ∈ a, digit c = true) ∧ b ≠ [] ∧ ∀ c ∈ b, digit c = true)

/-- What is known of the decimal digits of Unicode. -/
structure Digits (digit : Char → Bool) : Prop where
  point : digit '.' = false
  newline : digit '\n' = false
  dash : digit '-' = false

/-- What is before the first `=`. -/
def BeforeEq (v p : Text) : Prop := '=' ∉ p ∧ (v = p ∨ ∃ w, v = p ++ '=' :: w)

/-- It could not be an option: it does not begin with the letter of one, nor with the beginning of a long name. -/
def NoOption (v : Text) : Prop := (∀ c w, v = '-' :: c :: w → letter c = none) ∧ ∀ p, BeforeEq v p → ['-', '-'] <+: p → ∀ o : Opt, ¬ p <+: o.long

/-- What can stand alone as a value: anything that does not start with a dash, a single dash, and what could be no option and is a number or
has a space in it. -/
def Value (digit : Char → Bool) (v : Text) : Prop :=
  v.head? ≠ some '-' ∨ v = ['-'] ∨ (NoOption v ∧ (Number digit v ∨ ' ' ∈ v))

/-- A setting: an option, with its value if it takes one. -/
abbrev Setting := Opt × Option Text

/-- Letters after one dash; the last component is an option that waits for its value. -/
inductive Group : Text → List Setting → Option Opt → Prop where
  | flag {c o} : letter c = some o → o.IsFlag → Group [c] [(o, none)] none
  | more {c o e ss w} : letter c = some o → o.IsFlag → Group e ss w → Group (c :: e) ((o, none) :: ss) w
  | value {c o v} : letter c = some o → ¬ o.IsFlag → v ≠ [] → v.head? ≠ some '=' → Group (c :: v) [(o, some v)] none
  | equals {c o v} : letter c = some o → ¬ o.IsFlag → Group (c :: '=' :: v) [(o, some v)] none
  | wait {c o} : letter c = some o → ¬ o.IsFlag → Group [c] [] (some o)

/-- One or two strings that belong together. -/
inductive Item (digit : Char → Bool) : List Text → List Setting → Prop where
  | group {e ss} : Group e ss none → Item digit ['-' :: e] ss
  | groupValue {e ss o v} : Group e ss (some o) → Value digit v → Item digit ['-' :: e, v] (ss ++ [(o, some v)])
  | long {p o} : Names p o → o.IsFlag → Item digit [p] [(o, none)]
  | equals {p o v} : Names p o → ¬ o.IsFlag → Item digit [p ++ '=' :: v] [(o, some v)]
  | longValue {p o v} : Names p o → ¬ o.IsFlag → Value digit v → Item digit [p, v] [(o, some v)]

/-- A command line: options, and maybe the subcommand at the end. -/
inductive Line (digit : Char → Bool) : List Text → List Setting → Option App.Cmd → Prop where
  | nil : Line digit [] [] none
  | run : Line digit ["run".toList] [] (some .run)
  | version : Line digit ["version".toList] [] (some .version)
  | item {a ss l ts c} : Item digit a ss → Line digit l ts c → Line digit (a ++ l) (ss ++ ts) c

/-- The last value given for an option. -/
def given (o : Opt) (ss : List Setting) : Option Text := (ss.filterMap fun s => if s.1 = o then s.2 else none).getLast?

/-- What the settings mean. -/
def meaning (ss : List Setting) (c : Option App.Cmd) : Ns :=
  { logLevel := (given .logLevel ss).getD "INFO".toList
    logFile := given .logFile ss
    debug := ss.any (·.1 == .debug)
    serverUrl := given .serverUrl ss
    m2mUrl := given .m2mUrl ss
    quiet := ss.any (·.1 == .quiet)
    serial := given .serial ss
    auth := given .auth ss
    remoteDir := given .remoteDir ss
    cmd := c }

/-- Neither `--help` nor `--version` is among the settings: these print something and end the process. -/
def Plain (ss : List Setting) : Prop := ∀ s ∈ ss, s.1 ≠ .help ∧ s.1 ≠ .version

/-- A word that stands for itself on a command line: no white space, quotes or backslashes. -/
def Simple (w : Text) : Prop := w ≠ [] ∧ ∀ c ∈ w, ¬ Shlex.White c ∧ c ∉ ['\\', '\'', '"']

end Verif.CommandLine
