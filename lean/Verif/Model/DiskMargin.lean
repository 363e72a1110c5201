import Verif.Model.Device
import Verif.Model.RemoteDirectory
/-!
The check of the disk margin in `add_upload` (`dataplicity/remote_directory.py:163-173`) with the figures that `disk_usage`
(`dataplicity/disk_tools.py:23-69`) takes from the file system.
-/
namespace Verif.DiskMargin
open Verif

/-- The two figures of `disk_usage` that the check looks at, `used` and `total`.  (remote_directory.py:164, 170; the percentage, which is not looked
at, is computed without rounding here) -/
def figures (st : Device.Stat) : Nat × Nat :=
  let r := Device.diskUsage id id st
  (r.2.1.toNat, r.1.toNat)

/-- The environment of `add_upload` where the file system answers.  (remote_directory.py:164-165) -/
def env (st : Device.Stat) : RemoteDirectory.OpenEnv := { usage := some (figures st) }

end Verif.DiskMargin
