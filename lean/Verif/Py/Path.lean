import Verif.Py.Bytes
/-!
Python text functions and the functions of `posixpath` that the agent uses.  These model the Python runtime, not the repository.
-/
namespace Verif

/-- `s.split(sep)` for a one-character separator. -/
def splitOn (sep : Char) : Text → List Text
  | [] => [[]]
  | x :: xs =>
    if x = sep then [] :: splitOn sep xs
    else match splitOn sep xs with
      | [] => [[x]]
      | h :: t => (x :: h) :: t

/-- `sep.join(parts)` for a one-character separator. -/
def joinWith (sep : Char) : List Text → Text
  | [] => []
  | [p] => p
  | p :: q :: r => p ++ sep :: joinWith sep (q :: r)

/-- `s.startswith(p)`. -/
def startsWith (p s : Text) : Bool := p.isPrefixOf s

/-- `s.lstrip("/")`. -/
def lstripSlash (s : Text) : Text := s.dropWhile (· == '/')

namespace Path

/-- `posixpath.join(a, b)`. -/
def join (a b : Text) : Text :=
  if b.head? = some '/' then b
  else if a = [] ∨ a.getLast? = some '/' then a ++ b
  else a ++ '/' :: b

/-- The part after the last slash, and the part up to and including it. -/
def splitLast (p : Text) : Text × Text :=
  let tail := (p.reverse.takeWhile (· != '/')).reverse
  (p.take (p.length - tail.length), tail)

/-- `posixpath.split(p)`. -/
def split (p : Text) : Text × Text :=
  let (head, tail) := splitLast p
  if head.all (· == '/') then (head, tail) else ((head.reverse.dropWhile (· == '/')).reverse, tail)

/-- `posixpath.splitext(p)` for a name without slashes (the agent applies it to the second part of `split`): the extension starts at
the last dot, unless only dots precede it. -/
def splitext (p : Text) : Text × Text :=
  let ext := (p.reverse.takeWhile (· != '.')).reverse
  if ext.length = p.length then (p, [])
  else
    let base := p.take (p.length - ext.length - 1)
    if base.all (· == '.') then (p, []) else (base, '.' :: ext)

/-- The loop of `posixpath.normpath`; `abs`: the path starts with a slash. -/
def normStep (abs : Bool) (acc : List Text) (c : Text) : List Text :=
  if c = [] ∨ c = ['.'] then acc
  else if c ≠ ['.', '.'] ∨ (abs = false ∧ acc = []) ∨ acc.getLast? = some ['.', '.'] then acc ++ [c]
  else acc.dropLast

/-- `posixpath.normpath(p)`. -/
def normpath (p : Text) : Text :=
  if p = [] then ['.']
  else
    let slashes := if p.head? = some '/' then (if startsWith ['/', '/'] p && !startsWith ['/', '/', '/'] p then 2 else 1) else 0
    let r := List.replicate slashes '/' ++ joinWith '/' ((splitOn '/' p).foldl (normStep (slashes != 0)) [])
    if r = [] then ['.'] else r

/-- `os.path.abspath(p)`. -/
def abspath (cwd p : Text) : Text := normpath (join cwd p)

/-- What one path component does in the file system (no symbolic links): a name goes down, `..` goes up (and stays at the root),
the empty component and `.` do nothing. -/
def lexStep (k : List Text) (c : Text) : List Text :=
  if c = [] ∨ c = ['.'] then k else if c = ['.', '.'] then k.dropLast else k ++ [c]

/-- The place in the file system that an absolute path names, as the list of names from the root. -/
def lexKey (p : Text) : List Text := (splitOn '/' p).foldl lexStep []

end Path
end Verif
