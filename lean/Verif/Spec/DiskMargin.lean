import Verif.Model.DiskMargin
/-!
Specification vocabulary for C186.
-/
namespace Verif.DiskMargin
open Verif

/-- The figures of a file system make sense: blocks have a size, and no more are available than free, nor free than there are. -/
structure Sane (st : Device.Stat) : Prop where
  size : 0 < st.frsize
  free : st.bfree ≤ st.blocks
  avail : st.bavail ≤ st.bfree

/-- The number of blocks in which `n` bytes are stored. -/
def blocksFor (st : Device.Stat) (n : Nat) : Nat := (n + (st.frsize - 1)) / st.frsize

/-- The bytes that programs of ordinary users can still store after `n` bytes were stored. -/
def left (st : Device.Stat) (n : Nat) : Int := ((st.bavail : Int) - blocksFor st n) * st.frsize

/-- Nothing is reserved for root. -/
def NoReserve (st : Device.Stat) : Prop := st.bavail = st.bfree

end Verif.DiskMargin
