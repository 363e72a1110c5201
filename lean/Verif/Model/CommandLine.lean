import Verif.Model.App
/-!
Model of the command line of the agent: the parser that `App._make_arg_parser` makes (`dataplicity/app.py:36-118`) and
`parser.parse_args(sys.argv[1:])` (`app.py:177`), that is `argparse` of Python 3.11 for this parser, and the command that is suggested after
a failure (`app.py:194-197`).

Simplifications: what is printed by `--help`, `--version` and for errors is left out, only the exit status is kept; the strings of
`sys.argv` have no bytes that are not valid UTF-8.
-/
namespace Verif.CommandLine
open Verif

/-- The options (app.py:41-105) and the `--help` that `argparse` adds (app.py:38). -/
inductive Opt where
  | help | version | logLevel | logFile | debug | serverUrl | m2mUrl | quiet | serial | auth | remoteDir
  deriving DecidableEq, Repr

/-- Does the option take a value?  (app.py:41-105; `store_true`, `version` and `help` do not.) -/
def Opt.takes : Opt → Bool
  | .help | .version | .debug | .quiet => false
  | _ => true

/-- `parser._option_string_actions`, in order of `add_argument`.  (app.py:38-105) -/
def table : List (Text × Opt) :=
  [("-h".toList, .help), ("--help".toList, .help), ("-v".toList, .version), ("--version".toList, .version),
   ("--log-level".toList, .logLevel), ("--log-file".toList, .logFile), ("-d".toList, .debug), ("--debug".toList, .debug),
   ("-s".toList, .serverUrl), ("--server-url".toList, .serverUrl), ("-m".toList, .m2mUrl), ("--m2m-url".toList, .m2mUrl),
   ("-q".toList, .quiet), ("--quiet".toList, .quiet), ("--serial".toList, .serial), ("--auth".toList, .auth),
   ("--remote-dir".toList, .remoteDir)]

/-- The options of the parsers of both subcommands, which add no arguments.  (app.py:111-117, subcommand.py:28-29) -/
def subTable : List (Text × Opt) := [("-h".toList, .help), ("--help".toList, .help)]

/-- The option with a name.  (app.py:177) -/
def lookup (t : List (Text × Opt)) (name : Text) : Option Opt := (t.find? (fun x => x.1 == name)).map (·.2)

/-- The namespace that `parse_args` gives, with its defaults.  (app.py:41-109) -/
structure Ns where
  logLevel : Text := "INFO".toList
  logFile : Option Text := none
  debug : Bool := false
  serverUrl : Option Text := none
  m2mUrl : Option Text := none
  quiet : Bool := false
  serial : Option Text := none
  auth : Option Text := none
  remoteDir : Option Text := none
  cmd : Option App.Cmd := none
  deriving DecidableEq

/-- An option in a string: the option (`none`: there is no such option), whether its name has one dash only, whether there is a `=`, and the
value in the same string.  (app.py:177, `option_tuple` in `argparse`) -/
structure Found where
  opt : Option Opt
  single : Bool
  sep : Bool
  explicit : Option Text
  deriving DecidableEq, Repr

/-- `str.partition("=")`: what is before the first `=` and, if there is one, what is after it.  (app.py:177, `argparse`) -/
def partitionEq : Text → Text × Option Text
  | [] => ([], none)
  | c :: cs => if c = '=' then ([], some cs) else
    let r := partitionEq cs
    (c :: r.1, r.2)

/-- `_get_option_tuples`: all ways to read a string as (the beginning of) an option.  (app.py:177, `argparse`) -/
def readings (t : List (Text × Opt)) (arg : Text) : List Found :=
  if arg[1]? = some '-' then
    let (p, e) := partitionEq arg
    (t.filter (fun x => p.isPrefixOf x.1)).map (fun x => ⟨some x.2, x.1[1]? ≠ some '-', e.isSome, e⟩)
  else
    t.filterMap (fun x =>
      if x.1 = arg.take 2 then some ⟨some x.2, x.1[1]? ≠ some '-', false, some (arg.drop 2)⟩
      else if arg.isPrefixOf x.1 then some ⟨some x.2, x.1[1]? ≠ some '-', false, none⟩
      else none)

/-- `\d+|\d*\.\d+`; `digit` says which characters are decimal digits.  (app.py:177, `argparse`) -/
def isNumeral (digit : Char → Bool) (s : Text) : Bool := match s.dropWhile digit with
  | [] => !s.isEmpty
  | '.' :: f => !f.isEmpty && f.all digit
  | _ => false

/-- `^-\d+$|^-\d*\.\d+$`, where `$` matches before a line feed at the end as well.  (app.py:177, `_negative_number_matcher` of `argparse`) -/
def negative (digit : Char → Bool) : Text → Bool
  | '-' :: s => isNumeral digit (if s.getLast? = some '\n' then s.dropLast else s)
  | _ => false

/-- `_parse_optional`: an option, no option (`none`), or an error because there are several readings.  (app.py:177, `argparse`) -/
def parseOptional (digit : Char → Bool) (t : List (Text × Opt)) (arg : Text) : Except Unit (Option Found) :=
  if arg.head? ≠ some '-' then .ok none
  else match lookup t arg with
    | some o => .ok (some ⟨some o, arg[1]? ≠ some '-', false, none⟩)
    | none =>
      if arg.length = 1 then .ok none
      else
        let (p, e) := partitionEq arg
        match e, lookup t p with
        | some v, some o => .ok (some ⟨some o, p[1]? ≠ some '-', true, some v⟩)
        | _, _ => match readings t arg with
          | _ :: _ :: _ => .error ()
          | [f] => .ok (some f)
          | [] => if negative digit arg then .ok none else if arg.contains ' ' then .ok none else .ok (some ⟨none, false, false, none⟩)

/-- What a string on the command line is: `A`, `O` or `-` in `arg_strings_pattern`.  (app.py:177, `_parse_known_args` of `argparse`) -/
inductive Kind where
  | arg
  | opt (f : Found)
  | dashes
  deriving DecidableEq, Repr

/-- The first pass of `_parse_known_args`; `none` if there is an error.  (app.py:177, `argparse`) -/
def classify (digit : Char → Bool) (t : List (Text × Opt)) : List Text → Option (List (Text × Kind))
  | [] => some []
  | a :: as =>
    if a = ['-', '-'] then some ((a, .dashes) :: as.map (·, .arg))
    else match parseOptional digit t a with
      | .error _ => none
      | .ok o => (classify digit t as).map ((a, match o with | some f => .opt f | none => .arg) :: ·)

/-- How a string with options ends, after options without values: an option without a value, an option with a value in the string, one that
takes the next string, a letter that is no option, or an error.  (app.py:177, `consume_optional` of `argparse`) -/
inductive Last where
  | flag (o : Opt)
  | value (o : Opt) (v : Text)
  | next (o : Opt)
  | extra
  | bad
  deriving DecidableEq, Repr

/-- `consume_optional`, the loop over the options in one string: an option with a text that follows it in the same string.
(app.py:177, `argparse`) -/
def letters (t : List (Text × Opt)) (o : Opt) (single sep : Bool) : Text → List Opt × Last
  | [] => ([], if o.takes then .value o [] else .bad)
  | [c] =>
    if o.takes then ([], .value o [c])
    else if !single || sep || c == '-' then ([], .bad)
    else match lookup t ['-', c] with
      | none => ([o], .extra)
      | some o' => ([o], if o'.takes then .next o' else .flag o')
  | c :: x :: e =>
    if o.takes then ([], .value o (c :: x :: e))
    else if !single || sep || c == '-' then ([], .bad)
    else match lookup t ['-', c] with
      | none => ([o], .extra)
      | some o' =>
        let r := if x = '=' then letters t o' true true e else letters t o' true false (x :: e)
        (o :: r.1, r.2)

/-- `consume_optional`: an option and what follows it in the same string.  (app.py:177, `argparse`) -/
def unpack (t : List (Text × Opt)) (o : Opt) (single sep : Bool) : Option Text → List Opt × Last
  | none => ([], if o.takes then .next o else .flag o)
  | some e => letters t o single sep e

/-- `--help` and `--version` end the process with status 0; the other options without a value.  (app.py:41-47, 58-64, 81-83) -/
def setFlag (n : Ns) : Opt → Option Ns
  | .debug => some { n with debug := true }
  | .quiet => some { n with quiet := true }
  | _ => none

/-- (Model infrastructure: one after the other.) -/
def setFlags (n : Ns) : List Opt → Option Ns
  | [] => some n
  | o :: os => match setFlag n o with
    | some n' => setFlags n' os
    | none => none

/-- An option with a value.  (app.py:48-57, 65-80, 84-105) -/
def setValue (n : Ns) (o : Opt) (v : Text) : Ns := match o with
  | .logLevel => { n with logLevel := v }
  | .logFile => { n with logFile := some v }
  | .serverUrl => { n with serverUrl := some v }
  | .m2mUrl => { n with m2mUrl := some v }
  | .serial => { n with serial := some v }
  | .auth => { n with auth := some v }
  | .remoteDir => { n with remoteDir := some v }
  | _ => n

/-- How `parse_args` ends: the process exits, or the namespace and whether there were strings that are not understood.  (app.py:177) -/
inductive Out where
  | exit (code : Nat)
  | done (n : Ns) (extra : Bool)
  deriving DecidableEq

/-- The second pass of `_parse_known_args`; `rest` is what happens from the first string on that is no option and no value of one: the
positional argument for the subcommand takes everything that follows; where there are no positional arguments, such strings are not
understood.  (app.py:177, `argparse`) -/
def walk (t : List (Text × Opt)) (rest : Option (Ns → Bool → List (Text × Kind) → Out)) : List (Text × Kind) → Ns → Bool → Out
  | [], n, x => .done n x
  | (a, .opt f) :: l, n, x => match f.opt with
    | none => walk t rest l n true
    | some o =>
      match unpack t o f.single f.sep f.explicit with
      | (_, .bad) => .exit 2
      | (fs, .extra) => match setFlags n fs with
        | none => .exit 0
        | some n => walk t rest l n true
      | (fs, .flag o) => match setFlags n (fs ++ [o]) with
        | none => .exit 0
        | some n => walk t rest l n x
      | (fs, .value o v) => match setFlags n fs with
        | none => .exit 0
        | some n => walk t rest l (setValue n o v) x
      | (fs, .next o) => match l with
        | (v, .arg) :: l' => match setFlags n fs with
          | none => .exit 0
          | some n => walk t rest l' (setValue n o v) x
        | _ => .exit 2
  | (a, k) :: l, n, x => match rest with
    | some r => r n x ((a, k) :: l)
    | none => walk t rest l n true

/-- The names of the subcommands: those of their classes in lower case.  (subcommand.py:16, subcommands/run.py:7, subcommands/version.py:10) -/
def commands : List (Text × App.Cmd) := [("run".toList, .run), ("version".toList, .version)]

/-- `_SubParsersAction`: the parser of the subcommand gets the strings after its name; it has no positional arguments.
(app.py:107-118, 177, `argparse`) -/
def subcommand (digit : Char → Bool) (n : Ns) (x : Bool) : List (Text × Kind) → Out
  | [] => .done n x
  | (a, k) :: l =>
    -- only `--`: nothing for the positional argument
    if k = .dashes ∧ l = [] then .done n true
    else match commands.find? (fun y => y.1 == a) with
      | none => .exit 2
      | some (_, c) => match classify digit subTable (l.map (·.1)) with
        | none => .exit 2
        | some l' => walk subTable none l' { n with cmd := some c } x

/-- `parser.parse_args(argv)`: strings that are not understood are an error.  (app.py:177) -/
def parse (digit : Char → Bool) (argv : List Text) : Except Nat Ns :=
  match classify digit table argv with
  | none => .error 2
  | some l => match walk table (some (subcommand digit)) l {} false with
    | .exit c => .error c
    | .done _ true => .error 2
    | .done n false => .ok n

/-- The arguments as far as `App.run` and the logging look at them; `usable` says which log files can be used.  (app.py:120-156, 182-192) -/
def Ns.args (n : Ns) (usable : Text → Bool) : App.Args :=
  { quiet := n.quiet, debug := n.debug, logLevel := n.logLevel
    logFile := match n.logFile with | some f => if f.isEmpty then none else some (usable f) | none => none
    cmd := n.cmd }

/-- `main()` from the command line: `parse_args` may end the process.  (app.py:175-205) -/
def main (digit : Char → Bool) (upper : Text → Text) (usable : Text → Bool) (argv : List Text) (cmd : App.Cmd → Bool) : App.End :=
  match parse digit argv with
  | .error c => .exit c
  | .ok n => App.main upper (n.args usable) cmd

/-- What follows the last slash: `sys.argv[0].rsplit("/", 1)[-1]`.  (app.py:195) -/
def baseName (p : Text) : Text := (p.reverse.takeWhile (· ≠ '/')).reverse

/-- `" ".join([cmd, "--debug"] + sys.argv[1:])`: the command that is suggested for a full traceback.  (app.py:195-196) -/
def suggestion (program : Text) (argv : List Text) : Text := (baseName program :: "--debug".toList :: argv).intersperse [' '] |>.flatten

end Verif.CommandLine
