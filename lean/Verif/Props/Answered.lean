import Verif.Spec.Answered
import Verif.Props.Opening
/-!
C168: a message that asks for a service on a channel starts the service or is refused on that channel.
-/
namespace Verif.Opening
open Verif WSClient System
open _root_.Verif.Instructions (Op)

/-! ### Helper lemmas -/

theorem busy_ne : Services.serverBusy ≠ [] := by decide +kernel
theorem failed_ne : asc "Failed to launch remote process\n" ≠ [] := by decide +kernel

theorem connect_replied (cbs : Cbs) (ok : Bool) (s : St) (n : Int) (host : Text) (port : Int) : Replied n [(connect cbs ok s n host port).2] := by
  refine ⟨_, rfl, ?_⟩
  simp only [connect]
  cases Limiter.increment s.services with
  | error e => exact .inr (.inr (.inr ⟨_, rfl, busy_ne⟩))
  | ok l =>
    simp only
    split
    · exact .inr (.inl ⟨_, _, rfl⟩)
    · exact .inr (.inr (.inr ⟨_, rfl, busy_ne⟩))

theorem receive_nothing {w cbs ok env s m op} (hh : s.client.hung = false) (hm : Sent m op) (hx : Instructions.Meant w op []) :
    (receive w cbs ok env s m).1 = s ∧ (receive w cbs ok env s m).2.1 = [] := by
  obtain ⟨hl, sender, d, surplus, hd, hkeys, ha⟩ := hm
  have h1 := Instructions.c87_message_partial env s.client hh hl hd hkeys (w := w) ha hx
  have hr : Instructions.requestOf m = some (.instruction sender d) := Instructions.requestOf_list m (.instruction sender d) surplus hd
  have ho := Instructions.call_of_request hl hr
  have h2 : (step env s.client (.binary m)).1 = s.client := by
    simp only [step, Ev.isSocket, if_true, hh, Bool.false_eq_true, if_false, onEvent, ho, Instructions.Request.packet, handle]
  simp only [receive, h1, h2, performAll, and_self]

/-! ### C168 -/

/-- C168, the part that holds: with the name of a terminal or service that there is, the service is started, or the server is told on the channel why not
and asked to close it.  Missing for the full property: other names, `c168_silent`. -/
theorem c168_partial (w : Instructions.World) (hw : Up w) (cbs : Cbs) (ok : Bool) (env : Env) (hist : List (Env × Ev)) (hf : Fair hist) (a b : Limiter.Lim)
    (n : Int) (op : Op) (ho : OnChannel n op) (hk : Known op) (m : Bytes) (hm : Sent m op) :
    Replied n (receive w cbs ok env (after hist a b) m).2.1 := by
  cases ho with
  | echo =>
    obtain ⟨_, h2, _⟩ := receive_op (cbs := cbs) (ok := ok) (env := env) (after_works hf a b) hm (Instructions.Meant.echo (w := w))
    rw [h2]
    exact ⟨_, rfl, .inl rfl⟩
  | terminal name size =>
    have hk : name = "shell".toList := hk
    obtain ⟨_, h2, _⟩ := receive_op (cbs := cbs) (ok := ok) (env := env) (after_works hf a b) hm
      (Instructions.Meant.terminal (w := w) (by rw [hk]; exact up_shell hw))
    rw [h2]
    refine ⟨_, rfl, ?_⟩
    simp only [perform]
    split
    · exact .inr (.inr (.inl ⟨_, rfl⟩))
    · exact .inr (.inr (.inr ⟨_, rfl, failed_ne⟩))
  | forward name x y z =>
    have hk : ∃ x ∈ localServices, x.1.toList = name := hk
    obtain ⟨⟨s, port⟩, hs, rfl⟩ := hk
    obtain ⟨_, h2, _⟩ := receive_op (cbs := cbs) (ok := ok) (env := env) (after_works hf a b) hm (Instructions.Meant.portforward (w := w) hw.1)
    obtain ⟨svc, g1, _, _⟩ := services_known hs
    rw [h2]
    have hp : perform cbs ok (after hist a b) (.forwarded (.text s.toList) (.list [x, y, z, .int n])) = connect cbs ok (after hist a b) n svc.host svc.port := by
      simp only [perform, g1]
    rw [hp]
    exact connect_replied ..
  | redirect port =>
    obtain ⟨_, h2, _⟩ := receive_op (cbs := cbs) (ok := ok) (env := env) (after_works hf a b) hm (Instructions.Meant.portredirect (w := w) hw.1)
    rw [h2]
    exact connect_replied ..

/-- C168 fails for every other name: nothing is done, and nothing is sent on any channel. -/
theorem c168_silent (w : Instructions.World) (hw : Up w) (cbs : Cbs) (ok : Bool) (env : Env) (hist : List (Env × Ev)) (hf : Fair hist) (a b : Limiter.Lim)
    (n : Int) (op : Op) (ho : OnChannel n op) (hk : ¬ Known op) (m : Bytes) (hm : Sent m op) :
    let r := receive w cbs ok env (after hist a b) m
    r.1 = after hist a b ∧ (∀ d ∈ r.2.1, d = .nothing) ∧ (Sized r.2.2 → ∀ n', wire n' r.2.2 = []) := by
  refine ⟨?_, ?_, fun hz n' => receive_wire n' hz⟩
  all_goals
    cases ho with
    | echo => exact absurd trivial hk
    | redirect port => exact absurd trivial hk
    | terminal name size =>
      have hk : name ≠ "shell".toList := hk
      obtain ⟨h1, h2⟩ := receive_nothing (cbs := cbs) (ok := ok) (env := env) (after_works hf a b) hm
        (Instructions.Meant.noTerminal (w := w) (by rw [hw.2]; simp only [List.mem_singleton]; exact hk))
      first
      | exact h1
      | (intro d hd; rw [h2] at hd; exact (nomatch hd))
    | forward name x y z =>
      obtain ⟨h1, h2⟩ := c133_unknown w hw.1 cbs ok env hist hf a b name (fun x hx e => hk ⟨x, hx, e⟩) x y z n m hm
      first
      | exact h1
      | (intro d hd; rw [h2] at hd; exact List.mem_singleton.1 hd)

/-- C168, exactly. -/
theorem c168_iff (w : Instructions.World) (hw : Up w) (cbs : Cbs) (ok : Bool) (env : Env) (hist : List (Env × Ev)) (hf : Fair hist) (a b : Limiter.Lim)
    (n : Int) (op : Op) (ho : OnChannel n op) (m : Bytes) (hm : Sent m op) :
    Replied n (receive w cbs ok env (after hist a b) m).2.1 ↔ Known op := by
  refine ⟨fun h => ?_, fun h => c168_partial w hw cbs ok env hist hf a b n op ho h m hm⟩
  refine Classical.byContradiction fun hk => ?_
  have h1 := (c168_silent w hw cbs ok env hist hf a b n op ho hk m hm).2.1
  obtain ⟨d, h2, h3⟩ := h
  rw [h2] at h1
  have := h1 d (List.mem_singleton.2 rfl)
  subst this
  rcases h3 with h | ⟨_, _, h⟩ | ⟨_, h⟩ | ⟨_, h, _⟩ <;> exact (nomatch h)

/-- C168 fails: a message that asks for the terminal `sh` on channel 1 has no effect at all. -/
theorem c168_counterexample :
    let s := after [] ⟨1, 0⟩ ⟨1, 0⟩
    let r := receive (Instructions.worldAt 2) ⟨4, 5, 6⟩ true {} s (asc "li16e1:sd6:action13:open-terminal4:name2:sh4:porti1eee")
    r.2.1 = [] ∧ wire 1 r.2.2 = [] ∧ r.1.client.channels = [] := by decide +kernel

example :
    let s := after [] ⟨1, 0⟩ ⟨1, 1⟩
    (receive (Instructions.worldAt 2) ⟨4, 5, 6⟩ true {} s (asc "li16e1:sd6:action13:open-terminal4:name5:shell4:porti1eee")).2.1 =
      [.refused 1 [.write (asc "Failed to launch remote process\n"), .close]] ∧
    (receive (Instructions.worldAt 2) ⟨4, 5, 6⟩ true {} s (asc "li16e1:sd6:action9:open-echo4:porti1eee")).2.1 = [.echo 1] ∧
    (receive (Instructions.worldAt 2) ⟨4, 5, 6⟩ true {} s (asc "li16e1:sd6:action16:open-portforward5:routeli7ei8ei9ei1ee7:service3:ftpee")).2.1 =
      [.nothing] := by decide +kernel

end Verif.Opening
