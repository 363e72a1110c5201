import Verif.Py.Text
/-!
The command of a terminal: `shlex.split` of the standard library, as `RemoteProcess.run` calls it (`dataplicity/m2m/remoteprocess.py:96-100`), and
the program that the child of `spawn` executes (`dataplicity/m2m/proxy.py:88-90`).  Not modelled: what `exec` does with it.
-/
namespace Verif.Shlex
open Verif

/-- `ValueError`: no closing quotation, or no escaped character (remoteprocess.py:98, `shlex.read_token`). -/
inductive Err where
  | valueError
  deriving DecidableEq, Repr

/-- The states of the lexer: between words, in a word, in quotes of a kind, and after a backslash in a word or in double quotes (`escapedstate`).
(remoteprocess.py:98, `shlex.read_token` with `posix` and `whitespace_split`) -/
inductive Mode where
  | blank | word | single | double | escape | escapeInDouble
  deriving DecidableEq, Repr

/-- `shlex.whitespace` (remoteprocess.py:98). -/
def isWhite (c : Char) : Bool := c == ' ' || c == '\t' || c == '\r' || c == '\n'

/-- The end of a word: it is one if it has a character or a quote was seen.  (remoteprocess.py:98, `shlex.read_token`) -/
def emit (tok : Text) (quoted : Bool) (rest : Except Err (List Text)) : Except Err (List Text) :=
  if tok.isEmpty && !quoted then rest
  else match rest with
    | .error e => .error e
    | .ok ws => .ok (tok :: ws)

/-- `list(lex)`: all tokens from a state on, or the exception.  (remoteprocess.py:98, `shlex.read_token` and `shlex.__next__`, without comments,
punctuation and sources, which `shlex.split` does not use) -/
def lex (m : Mode) (tok : Text) (quoted : Bool) : Text → Except Err (List Text)
  | [] => match m with
    | .blank | .word => emit tok quoted (.ok [])
    | .single | .double | .escape | .escapeInDouble => .error .valueError
  | c :: cs => match m with
    | .blank =>
      if isWhite c then
        if tok.isEmpty && !quoted then lex .blank tok quoted cs else emit tok quoted (lex .blank [] false cs)
      else if c == '\\' then lex .escape tok quoted cs
      else if c == '\'' then lex .single tok quoted cs
      else if c == '"' then lex .double tok quoted cs
      else lex .word [c] quoted cs
    | .single => if c == '\'' then lex .word tok true cs else lex .single (tok ++ [c]) true cs
    | .double =>
      if c == '"' then lex .word tok true cs
      else if c == '\\' then lex .escapeInDouble tok true cs
      else lex .double (tok ++ [c]) true cs
    | .escape => lex .word (tok ++ [c]) quoted cs
    | .escapeInDouble => lex .double (if c == '\\' || c == '"' then tok ++ [c] else tok ++ ['\\', c]) quoted cs
    | .word =>
      if isWhite c then
        if tok.isEmpty && !quoted then lex .blank tok quoted cs else emit tok quoted (lex .blank [] false cs)
      else if c == '\'' then lex .single tok quoted cs
      else if c == '"' then lex .double tok quoted cs
      else if c == '\\' then lex .escape tok quoted cs
      else lex .word (tok ++ [c]) quoted cs

/-- `shlex.split(command)` (remoteprocess.py:98). -/
def split (s : Text) : Except Err (List Text) := lex .blank [] false s

/-- What comes of `run` and the child of `spawn`: no process, a child that ends with a `KeyError`, or a program with its arguments.
(remoteprocess.py:96-100, proxy.py:64, 88-90) -/
inductive Start where
  | raised
  | noShell
  | exec (program : Text) (argv : List Text)
  deriving DecidableEq, Repr

/-- `run` up to the execution of the program (remoteprocess.py:98, proxy.py:64, 88-90); `shell` is the variable SHELL of the environment. -/
def start (shell : Option Text) (command : Text) : Start :=
  match split command with
  | .error _ => .raised
  | .ok [] => match shell with
    | none => .noShell
    | some sh => .exec sh [sh]
  | .ok (a :: rest) => .exec a (a :: rest)

end Verif.Shlex
