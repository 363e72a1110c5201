import Verif.Proofs.TermWire
import Verif.Props.Terminal
/-!
C115: a remote terminal over the connection, in both directions.
-/
namespace Verif.TermWire
open Verif WSClient System

theorem start_inv {n cb s} {script : List Call} (hs : Serving n cb s.call.sys) (hr : s.running = true) (hi : s.input = {}) (hc : s.closing = none)
    (hin : s.call.inside = false) (hsc : s.call.script = script) (hk : ∀ k ∈ script, k.Small) :
    ∃ c, TInv n cb s c [] (script.map Call.msg) [] := by
  obtain ⟨c, h1, h2, h3⟩ := serving_live hs
  exact ⟨c, h1, h3, by rw [hin]; simpa [Under] using h2, by rw [hsc]; rfl, by rw [hsc]; exact hk, hr, by rw [hi], hc, by rw [hi]⟩

/-- C115, output: at every moment the data that the server has received on the channel of a running terminal is the beginning of what was read from
the terminal, and all of it once the thread has made its calls (two moves for each).  `acts` is what the thread does, from whatever the process
writes. -/
theorem c115_output (write : Nat → Terminal.WriteRes) (hw : Terminal.Progress write) (fuel : Nat) (n : Int) (cb : Nat) (s : TermSys)
    (spawnOk : Bool) (poll : Nat → Option (List Terminal.PollEv)) (polls : Nat) (hsc : s.call.script = outputCalls (Terminal.runThread spawnOk poll polls).1)
    (hk : ∀ k ∈ s.call.script, k.Small) (hs : Serving n cb s.call.sys) (hr : s.running = true) (hi : s.input = {}) (hc : s.closing = none)
    (hins : s.call.inside = false) (ms : List TermMove) (hin : ∀ x ∈ s.inbox, Harmless n x.2) (hl : ∀ d ∈ routed n s.inbox, d.length ≤ fuel)
    (hm : ∀ m ∈ ms, m.Fine n) (hz : Sized (termSched write fuel n cb s ms).2) :
    (dataOf (wire n (termSched write fuel n cb s ms).2)).flatten <+: Terminal.readBytes (Terminal.runThread spawnOk poll polls).1 ∧
    (2 * s.call.script.length ≤ ms.countP TermMove.isThread →
      (dataOf (wire n (termSched write fuel n cb s ms).2)).flatten = Terminal.readBytes (Terminal.runThread spawnOk poll polls).1) := by
  obtain ⟨c, h⟩ := start_inv hs hr hi hc hins rfl hk
  obtain ⟨c', new, h1, _⟩ := term_sched hw ms h hin hl hm hz
  obtain ⟨_, h2⟩ := term_ends hw ms h hin hl hm hz
  have ho := h1.out
  rw [List.nil_append] at ho
  rw [← Terminal.c50_output_partial, ← calls_data, ← hsc, ← ho]
  refine ⟨⟨_, by simp only [dataOf, List.filterMap_append, List.flatten_append]; rfl⟩, fun hlen => ?_⟩
  have : (termSched write fuel n cb s ms).1.call.script = [] := by
    have hu := h1.under
    simp only [callLeft, hins] at h2
    cases hx : (termSched write fuel n cb s ms).1.call.script with
    | nil => rfl
    | cons k rest => rw [hx] at h2; simp only [List.length_cons] at h2; split at h2 <;> simp at h2 <;> omega
  rw [this, List.map_nil, List.append_nil]

/-- C115, input: what the process of a running terminal has been given together with the data in the messages not yet handled is what the server has
sent to the channel; so it is a beginning of that at every moment, and all of it once the receive thread has handled the messages (one move each). -/
theorem c115_input (write : Nat → Terminal.WriteRes) (hw : Terminal.Progress write) (fuel : Nat) (n : Int) (cb : Nat) (s : TermSys)
    (hk : ∀ k ∈ s.call.script, k.Small) (hs : Serving n cb s.call.sys) (hr : s.running = true) (hi : s.input = {}) (hc : s.closing = none)
    (hins : s.call.inside = false) (ms : List TermMove) (hin : ∀ x ∈ s.inbox, Harmless n x.2) (hl : ∀ d ∈ routed n s.inbox, d.length ≤ fuel)
    (hm : ∀ m ∈ ms, m.Fine n) (hz : Sized (termSched write fuel n cb s ms).2) :
    let s' := (termSched write fuel n cb s ms).1
    s'.input.written ++ (routed n s'.inbox).flatten = (routed n s.inbox).flatten ∧
    (s.inbox.length ≤ ms.countP TermMove.isReceive → s'.input.written = (routed n s.inbox).flatten) := by
  obtain ⟨c, h⟩ := start_inv hs hr hi hc hins rfl hk
  obtain ⟨c', new, h1, h2⟩ := term_sched hw ms h hin hl hm hz
  obtain ⟨h3, _⟩ := term_ends hw ms h hin hl hm hz
  have hi := h1.input
  rw [List.nil_append] at hi
  refine ⟨by rw [hi, h2, List.flatten_append], fun hlen => ?_⟩
  have : (termSched write fuel n cb s ms).1.inbox = [] := List.eq_nil_of_length_eq_zero (by omega)
  rw [hi, h2, this]
  simp [routed]

/-- Two messages for the terminal, one for another channel; output in two pieces; `os.write` takes one byte at a time. -/
def termExample : TermSys :=
  { call := { sys := { client := (run {} [({}, .binary (asc "li14ei1ee")), ({}, .chanOp 1 (.setCallbacks (some 4) none none))]).1 },
              script := outputCalls (Terminal.runThread true
                (fun k => [some [⟨true, false, .ok [1, 2], none⟩], some [⟨true, true, .ok [3], none⟩]].getD k none) 10).1 },
    inbox := [({}, .binary (asc "li6ei1e2:lse")), ({}, .binary (asc "li6ei2e2:cde")), ({}, .binary (asc "li6ei1e1:!e"))],
    running := true }

def termMoves : List TermMove :=
  [.receive, .thread, .receive, .other {} (.getChannel 3), .thread, .thread, .receive, .thread]

example : (termSched (fun _ => .wrote 1) 10 1 4 termExample termMoves).1.input.written = asc "ls!" ∧
    wire 1 (termSched (fun _ => .wrote 1) 10 1 4 termExample termMoves).2 = [.sendData [1, 2], .sendData [3]] := by
  constructor <;> decide +kernel

/-- Before the process is started input is not written, and the receive thread asks for the close of the channel (C46). -/
example : (termSched (fun _ => .wrote 1) 10 1 4 { termExample with running := false } [.receive, .receive, .receive]).1.input.written = [] ∧
    wire 1 (termSched (fun _ => .wrote 1) 10 1 4 { termExample with running := false } [.receive, .receive, .receive]).2 = [.requestClose] := by
  constructor <;> decide +kernel

end Verif.TermWire
