import Lean
open Lean Elab

/-- Elaborate a file and write its olean even if there are errors. -/
def compileFile (file mod out : String) : IO UInt32 := do
  let input ← IO.FS.readFile file
  let ictx := Parser.mkInputContext input file
  let (header, pst, messages) ← Parser.parseHeader ictx
  let opts : Options := {}
  let (env, messages) ← processHeader header opts messages ictx (mainModule := mod.toName)
  let st := Command.mkState env messages opts
  let s ← IO.processCommands ictx pst st
  for m in s.commandState.messages.toList do
    if m.severity == .error then
      let t ← m.data.toString
      IO.println s!"ERR {m.pos.line} {(t.take 120).toString.replace "\n" " "}"
  writeModule s.commandState.env out
  return 0

partial def visit (env : Environment) (n : Name) (seen : Std.HashMap Name Bool) : Std.HashMap Name Bool :=
  if seen.contains n then seen
  else if n == ``sorryAx then seen.insert n true
  else match env.find? n with
    | none => seen.insert n false
    | some c =>
      let root := match env.getModuleIdxFor? n with
        | some i => (env.header.moduleNames[i.toNat]!).getRoot
        | none => `Verif
      if root != `Verif then seen.insert n false
      else Id.run do
        let mut s := seen.insert n false
        let used := c.type.getUsedConstants ++ (match c.value? (allowOpaque := true) with | some v => v.getUsedConstants | none => #[])
        let mut bad := false
        for u in used do
          s := visit env u s
          if s.getD u false then bad := true
        return s.insert n bad

def axiomsOf (names : List Name) (mods : List Name) : IO UInt32 := do
  let env ← importModules (mods.map ({ module := · })).toArray {}
  let mut seen : Std.HashMap Name Bool := {}
  for n in names do
    if env.contains n then
      seen := visit env n seen
      if seen.getD n false then IO.println s!"SORRY {n}"
    else IO.println s!"MISSING {n}"
  return 0

unsafe def main (args : List String) : IO UInt32 := do
  initSearchPath (← findSysroot)
  enableInitializersExecution
  match args with
  | ["c", file, mod, out] => compileFile file mod out
  | "a" :: mods :: names => axiomsOf (names.map String.toName) ((mods.splitOn ",").map String.toName)
  | _ => return 2
