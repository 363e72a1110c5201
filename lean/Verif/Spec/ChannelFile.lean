import Verif.Model.ChannelFile
/-!
What is written to the files of a channel.
-/
namespace Verif.Spec.ChannelFile
open Verif Verif.ChannelFile

/-- The data written to files of channel `n`, in order. -/
def written (n : Int) : List Act → List Bytes
  | [] => []
  | .write m d _ :: as => if m = n then d :: written n as else written n as
  | _ :: as => written n as

/-- The data that the standard output took, of all files, in order. -/
def printed : List Act → List (Int × Bytes)
  | [] => []
  | .write m d true :: as => (m, d) :: printed as
  | _ :: as => printed as

/-- The standard output takes everything. -/
def Printing (as : List Act) : Prop := ∀ n d out, Act.write n d out ∈ as → out = true

/-- Nobody uses the channel itself. -/
def OnlyFile (n : Int) (as : List Act) : Prop := ∀ env op, Act.client env (.chanOp n op) ∉ as

/-- The data fit a Python byte string. -/
def Fit (as : List Act) : Prop := ∀ n d out, Act.write n d out ∈ as → d.length ≤ maxSize

end Verif.Spec.ChannelFile
