import Verif.Model.MetaSync
import Verif.Spec.Server
/-!
Specification vocabulary for C189: the information about the device at the time of a sync.
-/
namespace Verif.MetaSync
open Verif

/-- What the device says is this information: the files of the system can be decoded, and addresses that can not be got count as none. -/
def Says (f : Device.Facts) (m : Client.Meta) : Prop :=
  f.agentVersion = m.agentVersion ∧ f.machineRevision = .ok m.machineRevision ∧ f.modelName = .ok m.modelName ∧ f.osVersion = m.osVersion ∧
  f.uname = m.uname ∧ (f.ipList = some m.ipList ∨ (f.ipList = none ∧ m.ipList = []))

/-- What the device says at a sync. -/
def Happening.facts : Happening → Option Device.Facts
  | .sync f _ _ => some f
  | _ => none

/-- The first sync at which the device could be asked: no earlier one could, and this one gave `m`. -/
def First (fs : List Device.Facts) (m : Client.Meta) : Prop :=
  ∃ a f b, fs = a ++ f :: b ∧ Says f m ∧ ∀ g ∈ a, ∀ m', ¬ Says g m'

end Verif.MetaSync
