import Verif.Spec.ChannelFile
import Verif.Proofs.Wire
/-!
C165: the file of a channel.
-/
namespace Verif.Props.ChannelFile
open Verif
open Verif.WSClient hiding run step
open Verif.ChannelFile Verif.Spec.ChannelFile

theorem run_wire (n : Int) : ∀ (as : List Act) (s : FSt), OnlyFile n as → Fit as → Sized (run s as).2 →
    wire n (run s as).2 = ((printed as).filter (fun p => p.1 = n)).map fun p => Channel.Out.sendData p.2 := by
  intro as
  induction as with
  | nil => intro s _ _ _; rfl
  | cons a as ih =>
      intro s ho hf hz
      have hz1 : Sized (step s a).2 := fun m hm => hz m (by simp only [run, sentOf_append]; exact List.mem_append_left _ hm)
      have hz2 : Sized (run (step s a).1 as).2 := fun m hm => hz m (by simp only [run, sentOf_append]; exact List.mem_append_right _ hm)
      have h2 := ih (step s a).1 (fun env op h => ho env op (List.mem_cons_of_mem _ h)) (fun m d o h => hf m d o (List.mem_cons_of_mem _ h)) hz2
      simp only [run, wire_append, h2]
      cases a with
      | client env e =>
          have : wire n (WSClient.step env s.client e).2 = [] :=
            step_own_none env s.client e n (fun op he => ho env op (by rw [he]; exact List.mem_cons_self ..)) hz1
          simp only [step, printed, this, List.nil_append]
      | write m d out =>
          cases out with
          | false => simp [step, write, printed, wire, sentOf]
          | true =>
              have hd := hf m d true (List.mem_cons_self ..)
              have hs : OutSized (.sendData d) := by
                intro x hx
                rcases hx with hx | hx
                · injection hx with hx; subst hx; exact hd
                · exact (nomatch hx)
              have := chanOut_wire n m (.sendData d) hs
              simp only [step, write, if_true, printed, this, Channel.isSend, and_true]
              by_cases h : m = n <;> simp [h]

/-- C165, exactly: of what is written to files of a channel the server receives, for that channel and in that order, what the standard output took. -/
theorem c165_exact (n : Int) (as : List Act) (s : FSt) (ho : OnlyFile n as) (hf : Fit as) (hz : Sized (run s as).2) :
    dataOf (wire n (run s as).2) = ((printed as).filter (fun p => p.1 = n)).map Prod.snd := by
  rw [run_wire n as s ho hf hz]
  generalize (printed as).filter (fun p => p.1 = n) = l
  induction l with
  | nil => rfl
  | cons p l ih => simpa [dataOf] using ih

/-- C165, the part that holds: if the standard output takes everything, the server receives for the channel all that is written to its files, in order
and unchanged.  Missing for the full property: `c165_closed_false`, `c165_stdout_false`. -/
theorem c165_sent_partial (n : Int) (as : List Act) (s : FSt) (hp : Printing as) (ho : OnlyFile n as) (hf : Fit as) (hz : Sized (run s as).2) :
    dataOf (wire n (run s as).2) = written n as := by
  rw [c165_exact n as s ho hf hz]
  clear ho hf hz
  induction as with
  | nil => rfl
  | cons a as ih =>
      have ih := ih (fun m d o h => hp m d o (List.mem_cons_of_mem _ h))
      cases a with
      | client env e => simpa only [printed, written] using ih
      | write m d out =>
          have : out = true := hp m d out (List.mem_cons_self ..)
          subst this
          by_cases h : m = n <;> simp [printed, written, h, ih]

/-- C165: it also appears on the standard output, of all files together. -/
theorem c165_printed (as : List Act) (s : FSt) : (run s as).1.stdout = s.stdout ++ ((printed as).map Prod.snd).flatten := by
  induction as generalizing s with
  | nil => simp [run, printed]
  | cons a as ih =>
      cases a with
      | client env e => simp only [run, ih, step, printed]
      | write m d out => cases out <;> simp [run, ih, step, write, printed]

/-- The channel is closed by the server and another one with the same number is opened; then the file of the first is written to. -/
def reused : List Act :=
  [.client {} (.getChannel 7), .write 7 (asc "a") true, .client {} (.binary (asc "li19ei7ee")), .client {} (.binary (asc "li14ei7ee")), .write 7 (asc "b") true]

/-- C165 is false for a channel that has been closed: what is written to its file is sent, and to the channel that has its number now. -/
theorem c165_closed_false : lookup 7 (run {} (reused.take 3)).1.client.channels = none ∧ lookup 7 (run {} reused).1.client.channels = some {} ∧
    dataOf (wire 7 (run {} reused).2) = [asc "a", asc "b"] := by
  decide +kernel

/-- C165 is false if the standard output does not work (it is closed, for instance): nothing is sent. -/
theorem c165_stdout_false (n : Int) (d : Bytes) (s : FSt) : (run s [.write n d false]).2 = [] := rfl

/-- Two files and other messages. -/
example : dataOf (wire 3 (run {} [.client {} (.getChannel 3), .write 3 (asc "ab") true, .client {} .ready, .write 4 (asc "x") true, .write 3 (asc "c") true]).2) =
    [asc "ab", asc "c"] := by decide +kernel

end Verif.Props.ChannelFile
