import Verif.Model.Shlex
/-! Grammar of command lines: words of plain characters, escaped characters and quoted parts, separated by white space. -/
namespace Verif.Shlex
open Verif

/-- Space, tab, carriage return and newline. -/
def White (c : Char) : Prop := c ∈ [' ', '\t', '\r', '\n']

/-- The inside of double quotes and what it stands for: a backslash is dropped only before a backslash or a double quote. -/
inductive Inside : Text → Text → Prop where
  | nil : Inside [] []
  | plain {c s v} (h : c ≠ '"') (h' : c ≠ '\\') : Inside s v → Inside (c :: s) (c :: v)
  | escaped {c s v} (h : c = '"' ∨ c = '\\') : Inside s v → Inside ('\\' :: c :: s) (c :: v)
  | kept {c s v} (h : c ≠ '"') (h' : c ≠ '\\') : Inside s v → Inside ('\\' :: c :: s) ('\\' :: c :: v)

/-- A piece of a word and what it stands for. -/
inductive Piece : Text → Text → Prop where
  | plain {c} (hw : ¬ White c) (h : c ∉ ['\\', '\'', '"']) : Piece [c] [c]
  | escaped (c) : Piece ['\\', c] [c]
  | single {s} (h : '\'' ∉ s) : Piece ('\'' :: (s ++ ['\''])) s
  | double {s v} (h : Inside s v) : Piece ('"' :: (s ++ ['"'])) v

/-- Any number of pieces. -/
inductive Pieces : Text → Text → Prop where
  | nil : Pieces [] []
  | cons {s v t w} : Piece s v → Pieces t w → Pieces (s ++ t) (v ++ w)

/-- A command line and its words.  A word has at least one piece (which may be `''`), and ends with white space or at the end. -/
inductive Line : Text → List Text → Prop where
  | nil : Line [] []
  | white {c s ws} : White c → Line s ws → Line (c :: s) ws
  | last {s v t w} : Piece s v → Pieces t w → Line (s ++ t) [v ++ w]
  | word {s v t w c r ws} : Piece s v → Pieces t w → White c → Line r ws → Line (s ++ (t ++ c :: r)) ((v ++ w) :: ws)

/-- An argument in single quotes, with each single quote written as a backslash and a quote between quotes. -/
def quoteArg (a : Text) : Text := '\'' :: (a.flatMap fun c => if c = '\'' then "'\\''".toList else [c]) ++ ['\'']

/-- Arguments, quoted, each followed by a space. -/
def quoteAll (args : List Text) : Text := args.flatMap fun a => quoteArg a ++ [' ']

end Verif.Shlex
