import Verif.Spec.RemoteFiles
/-!
Specification vocabulary for C128 and C129: a device on which nothing goes wrong.
-/
namespace Verif.RemoteFiles
open Verif WSClient RemoteDirectory Instructions Path

/-- A file name that a system accepts: plain and without NUL. -/
def GoodName (x : Text) : Prop := Plain x ∧ Char.ofNat 0 ∉ x

instance (x : Text) : Decidable (GoodName x) := inferInstanceAs (Decidable (_ ∧ _))

/-- The folders of the settings have no NUL in their names. -/
def Cfg.Clean (c : Cfg) : Prop := Char.ofNat 0 ∉ c.root ∧ Char.ofNat 0 ∉ c.temp

/-- The text is a path of these names, with any number of slashes before. -/
def PathOf (p : Text) (names : List Text) : Prop := names ≠ [] ∧ (∀ x ∈ names, GoodName x) ∧ lstripSlash p = joinWith '/' names

/-- The system does all that `add_upload` asks for. -/
def OpenEnv.Healthy (env : OpenEnv) : Prop := env.mkdirFails = false ∧ env.copy = .good ∧ env.size2Fails = false

/-- After `n` bytes more, 50 MB are still free, if the usage of the disk is known. -/
def OpenEnv.Room (env : OpenEnv) (n : Nat) : Prop := ∀ used total, env.usage = some (used, total) → used + n + 50000000 ≤ total

/-- The system does all that a write request asks for; a download may have to be copied instead of renamed. -/
def WriteEnv.Healthy (env : WriteEnv) : Prop :=
  env.mkdirFails = false ∧ env.createFails = false ∧ env.write = .good ∧ (env.renameOk = true ∨ (env.copy = .good ∧ env.unlinkOk = true))

/-- A folder that is there, or can be made. -/
def Folder (fs : FS) (p : Text) : Prop := fs (lexKey p) = some .dir ∨ fs (lexKey p) = none

/-- A download with this id can begin: the folder for temporary files is there, and no directory stands where the file has to be. -/
def CanBegin (c : Cfg) (id : Text) (fs : FS) : Prop :=
  Closed fs ∧ fs (lexKey c.temp) = some .dir ∧ Folder fs (downloadDir c) ∧ fs (downloadKey c id) ≠ some .dir

/-- A download can be put at its place: the directory exists, and one of the names is free. -/
def CanEnd (c : Cfg) (path : Text) (names : List Text) (fs : FS) : Prop :=
  Closed fs ∧ fs (lexKey c.root ++ names.dropLast) = some .dir ∧ ∃ n, n ≤ 100 ∧ fs (lexKey (candidate c fs path n)) = none

/-- The device is ready for a move, if it is a write request for the id. -/
def Move.ready (c : Cfg) (id path : Text) (names : List Text) (fs : FS) (m : Move) : Prop :=
  ∀ p device offset data final, m.write (utf8Encode id) = some (p, device, offset, data, final) →
    (∀ env e, m = .event env e → WriteEnv.Healthy env.wr) ∧ (device = [] → CanBegin c id fs) ∧ (final ≠ 0 → CanEnd c path names fs)

/-- The device is ready for each of the moves, in the state in which it comes. -/
def Ready (c : Cfg) (id path : Text) (names : List Text) (s : Sys) : List Move → Prop
  | [] => True
  | m :: ms => m.ready c id path names s.fs ∧ Ready c id path names (step c s m).1 ms

end Verif.RemoteFiles
