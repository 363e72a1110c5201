import Verif.Py.Text
import Verif.Model.JsonText
import Verif.Model.Services
/-!
Names of files that are not UTF-8.  A name on the disk is any byte string without a slash; elsewhere in the model a path is a `Text`, that is, a Python string
without surrogates, and so the name of a file whose bytes are UTF-8.  Here a Python string is a list of code points, surrogates among them.  The file system
encoding is UTF-8 with `surrogateescape`, the default of Python 3 on Linux with a UTF-8 locale (and, since Python 3.7, with the locale `C`).
-/
namespace Verif.Names
open Verif JsonText

/-- A Python string: its code points. -/
abbrev Points := List Nat

/-- The code points of a string without surrogates. -/
def points (t : Text) : Points := t.map Char.toNat

/-- `os.fsdecode(name)`; the first argument is the number of bytes that belong to the last character.  Python treats up to three bytes at a time as invalid; each
of them is escaped by itself, and those after the first are continuation bytes, at which no character begins. -/
def fsDecodeF : Nat → Bytes → Points
  | _, [] => []
  | n + 1, _ :: r => fsDecodeF n r
  | 0, a :: r => match firstChar (a :: r) with
    | some (c, n) => c.toNat :: fsDecodeF n r
    | none => (0xdc00 + a.toNat) :: fsDecodeF 0 r

/-- The name of an entry of `scandir` (scan_directory.py:121, 142-175). -/
def fsDecode (name : Bytes) : Points := fsDecodeF 0 name

/-- One code point of a path that is passed to the operating system. -/
def fsEncodePoint (p : Nat) : Option Bytes :=
  if 0xdc80 ≤ p ∧ p ≤ 0xdcff then some [UInt8.ofNat (p - 0xdc00)]
  else (scalar? 0 p).map String.utf8EncodeChar

/-- `os.fsencode(path)`, as in `open(path)` (remote_directory.py:127, 209, 332, fileservice.py:83); `none` is `UnicodeEncodeError`. -/
def fsEncode : Points → Option Bytes
  | [] => some []
  | p :: r => do
    let a ← fsEncodePoint p
    let b ← fsEncode r
    return a ++ b

/-- A code point in a string of `json.dumps` (directory_scanner.py:75): a surrogate is escaped like the characters below 65536. -/
def escapePoint (p : Nat) : Text := match scalar? 0 p with
  | some c => escapeChar c
  | none => unicodeEscape p

/-- A string in `json.dumps(directory)`, without the quotes (directory_scanner.py:75). -/
def escapePoints (s : Points) : Text := s.flatMap escapePoint

/-- A path or command that is passed to the operating system: `none` also if it holds a NUL (`ValueError: embedded null byte`; remote_directory.py:127, 209, 332,
fileservice.py:83, commandservice.py:69). -/
def passed (s : Points) : Option Bytes := do
  let b ← fsEncode s
  if b.contains 0 then none else some b

/-- The file that a request to open or to write a file names by the bytes `path`: they are decoded (remote_directory.py:238, 307, 385), and the string is
passed to the operating system.  `none` is an error. -/
def requested (path : Bytes) : Option Bytes := do
  let t ← utf8Decode path
  passed (points t)

/-- The file that is opened for the instruction to read the file `path` (m2mmanager.py:155-165, 188-189; fileservice.py:80-83). -/
def fileRead (path : Bytes) : Option Bytes := passed (points (Services.absPath (utf8DecodeIgnore path)))

/-- The argument of `/bin/sh -c` for the instruction to run `command` (m2mmanager.py:155-165, 190-191; commandservice.py:69-71). -/
def commandRun (command : Bytes) : Option Bytes := passed (points (utf8DecodeIgnore command))

end Verif.Names
