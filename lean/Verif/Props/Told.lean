import Verif.Proofs.Told
import Verif.Props.Opening
/-!
C157: whoever attached itself to a channel before its end is told of the end.
-/
namespace Verif.Channel
open Verif

/-- C157: exactly who is told of the end of a channel, for every history: the one who attached itself last before it, once; and nobody if
that one does not want to be told, or if the channel does not end. -/
theorem c157_exact (ops : List Op) :
    told (run {} ops).2 = if .onClose ∈ ops then (attached (beforeEnd ops)).getLast?.join.toList else [] := by
  rw [told_run {} rfl]
  cases (attached (beforeEnd ops)).getLast? <;> rfl

/-- C157: everybody who attached itself before the end is told of it exactly if what was attached last is what all of them attached. -/
theorem c157_iff (ops : List Op) (he : .onClose ∈ ops) :
    (∀ f, some f ∈ attached (beforeEnd ops) → f ∈ told (run {} ops).2) ↔
    ∀ f, some f ∈ attached (beforeEnd ops) → (attached (beforeEnd ops)).getLast? = some (some f) := by
  rw [c157_exact, if_pos he]
  refine forall_congr' fun f => imp_congr_right fun _ => ?_
  cases h : (attached (beforeEnd ops)).getLast? with
  | none => simp
  | some x => cases x <;> simp [eq_comm]

/-- Two attach themselves, and the first is not told; later messages and closes change nothing. -/
example :
    let ops := [.data [1], .setCallbacks (some 4) (some 5) (some 6), .data [2], .setCallbacks (some 7) (some 8) (some 9), .beginWrite [3], .onClose,
      .setCallbacks (some 1) (some 2) none, .onClose]
    told (run {} ops).2 = [8] ∧ attached (beforeEnd ops) = [some 5, some 8] := by decide +kernel

/-- The echo service does not want to be told, and the one before it is not told either. -/
example : told (run {} [.setCallbacks (some 4) (some 5) (some 6), .setCallbacks (some 7) none none, .onClose]).2 = [] := by decide +kernel

end Verif.Channel

namespace Verif.Opening
open Verif WSClient System
open _root_.Verif.Channel (told)

/-- The message that asks for the terminal on channel 1. -/
def terminalMsg : Bytes := asc "li16e1:sd6:action13:open-terminal4:name5:shell4:porti1eee"

/-- C157 fails: two messages ask for the terminal on channel 1, and for each a process is started; when the server closes the channel, only the second
is told (5 is `on_close` of the first, 8 of the second), so the first process is not signalled; and it is not told later, when the connection is lost. -/
theorem c157_counterexample :
    let r := receive (Instructions.worldAt 2) ⟨4, 5, 6⟩ true {} (after [] ⟨2, 0⟩ ⟨2, 0⟩) terminalMsg
    let r' := receive (Instructions.worldAt 2) ⟨7, 8, 9⟩ true {} r.1 terminalMsg
    let x := WSClient.step {} r'.1.client (.binary (asc "li19ei1ee"))
    r.2.1 = [.terminal 1 "shell".toList] ∧ r'.2.1 = [.terminal 1 "shell".toList] ∧ seenBy 1 r'.2.2 = [] ∧
    told (seenBy 1 x.2) = [8] ∧ seenBy 1 (WSClient.step {} x.1 .disconnected).2 = [] := by decide +kernel

/-- C157 where it holds: a terminal that was asked for on a channel is told, once, when the server closes the channel or the connection is lost,
whatever happened before and whatever else is received and done, as long as nobody else attaches itself to the channel.  Missing for the full
property: another one that does, `c157_counterexample`. -/
theorem c157_terminal_partial (w : Instructions.World) (hw : Up w) (cbs : Cbs) (ok : Bool) (env : Env) (hist : List (Env × Ev)) (hf : Fair hist)
    (a b : Limiter.Lim) (n : Int) (size : Option PyVal) (m : Bytes) (hm : Sent m (.openTerminal (.text "shell".toList) (.int n) size)) :
    let s := after hist a b
    let r := receive w cbs ok env s m
    (∀ c, lookup n s.client.channels = some c → c.closed = false) → Admits b ok →
    r.2.1 = [.terminal n "shell".toList] ∧
    ∀ (more : List (Env × Ev)) (env' : Env) (e : Ev), Fair more →
      (∀ x ∈ more, ¬ Ends n x.2 ∧ ∀ d cl ct, x.2 ≠ .chanOp n (.setCallbacks d cl ct)) → Ends n e → (∀ data, e = .binary data → data.length ≤ maxSize) →
      told (seenBy n (run r.1.client more).2) = [] ∧ told (seenBy n (step env' (run r.1.client more).1 e).2) = [cbs.close] := by
  intro s r hopen hadm
  obtain ⟨h1, h2, _⟩ := receive_op (cbs := cbs) (ok := ok) (env := env) (after_works hf a b) hm (Instructions.Meant.terminal (w := w) (up_shell hw))
  obtain ⟨l', g1, g2⟩ := launch_admits hadm
  have hp : (perform cbs ok (after hist a b) (.launched "shell".toList (.int n) size)).2 = .terminal n "shell".toList := by
    show (if (Limiter.launch b ok).2 = true then Did.terminal n _ else _) = _
    rw [g2]; rfl
  refine ⟨by show (receive w cbs ok env s m).2.1 = _; rw [h2, hp], ?_⟩
  intro more env' e hfm hq he hl
  have hc : r.1.client = callbacks n (some cbs.data) (some cbs.close) (some cbs.ctrl) (channel n s.client) := by
    show (receive w cbs ok env s m).1.client = _
    rw [h1]; rfl
  rw [hc]
  exact attached_told _ _ cbs.close (after_works hf a b) (after_keys hf a b) hopen more hfm hq env' e he hl

/-- C157 where it holds, for a forwarded connection. -/
theorem c157_connection_partial (w : Instructions.World) (hw : w.portForward = true) (cbs : Cbs) (ok : Bool) (env : Env) (hist : List (Env × Ev))
    (hf : Fair hist) (a b : Limiter.Lim) (n port : Int) (m : Bytes) (hm : Sent m (.openPortredirect (.int n) (.int port))) :
    let s := after hist a b
    let r := receive w cbs ok env s m
    (∀ c, lookup n s.client.channels = some c → c.closed = false) → Admits a ok →
    r.2.1 = [.connection n "127.0.0.1".toList port] ∧
    ∀ (more : List (Env × Ev)) (env' : Env) (e : Ev), Fair more →
      (∀ x ∈ more, ¬ Ends n x.2 ∧ ∀ d cl ct, x.2 ≠ .chanOp n (.setCallbacks d cl ct)) → Ends n e → (∀ data, e = .binary data → data.length ≤ maxSize) →
      told (seenBy n (run r.1.client more).2) = [] ∧ told (seenBy n (step env' (run r.1.client more).1 e).2) = [cbs.close] := by
  intro s r hopen hadm
  obtain ⟨h1, h2, _⟩ := receive_op (cbs := cbs) (ok := ok) (env := env) (after_works hf a b) hm (Instructions.Meant.portredirect (w := w) hw)
  obtain ⟨k1, k2⟩ := connect_admits (cbs := cbs) (s := s) (n := n) (host := PortForward.localhost) (port := port) hadm
  refine ⟨?_, ?_⟩
  · show (receive w cbs ok env s m).2.1 = _
    rw [h2]
    exact congrArg (fun x => [x]) k2
  intro more env' e hfm hq he hl
  have hc : r.1.client = callbacks n (some cbs.data) (some cbs.close) (some cbs.ctrl) (channel n s.client) := by
    show (receive w cbs ok env s m).1.client = _
    rw [h1]; exact k1
  rw [hc]
  exact attached_told _ _ cbs.close (after_works hf a b) (after_keys hf a b) hopen more hfm hq env' e he hl

/-- A terminal on channel 1; data and the opening of another channel do not end it, the loss of the connection does. -/
example :
    let r := receive (Instructions.worldAt 2) ⟨4, 5, 6⟩ true {} (after [({}, .binary (asc "li14ei1ee"))] ⟨1, 0⟩ ⟨1, 0⟩) terminalMsg
    let more : List (Env × Ev) := [({}, .binary (asc "li6ei1e2:lse")), ({}, .binary (asc "li14ei2ee")), ({}, .binary (asc "li19ei2ee"))]
    seenBy 1 (run r.1.client more).2 = [.dataCall 4 (asc "ls")] ∧
    seenBy 1 (step {} (run r.1.client more).1 .disconnected).2 = [.closeCall 5] ∧
    seenBy 1 (step {} (run r.1.client more).1 (.binary (asc "li19ei1ee"))).2 = [.closeCall 5] := by decide +kernel

end Verif.Opening
