import Verif.Proofs.Opening
import Verif.Props.TermWire
import Verif.Props.System
/-!
C132-C135: from the message that asks for an echo service, a forwarded connection or a terminal to the data on the channel that it names.
-/
namespace Verif.Opening
open Verif WSClient System TermWire

/-- The agent after a history: any events of the websocket and calls by other threads. -/
def after (hist : List (Env × Ev)) (services terminals : Limiter.Lim) : St := ⟨(WSClient.run {} hist).1, services, terminals⟩

theorem after_works {hist} (hf : Fair hist) (a b : Limiter.Lim) : (after hist a b).client.hung = false := run_hung {} hist hf

theorem after_keys {hist} (hf : Fair hist) (a b : Limiter.Lim) : (keys (after hist a b).client.channels).Nodup := run_keys {} hist (by simp [keys]) hf

/-! ### C132 -/

/-- C132: after a message that asks for an echo service on a free channel, the server receives on that channel the beginning of what it sends to it,
message by message, and all of it once the receive thread has handled it; whatever happened before, and whatever other threads do. -/
theorem c132_echo (w : Instructions.World) (cbs : Cbs) (ok : Bool) (env : Env) (hist : List (Env × Ev)) (hf : Fair hist) (a b : Limiter.Lim)
    (n : Int) (m : Bytes) (hm : Sent m (.openEcho (.int n))) :
    let s := after hist a b
    let r := receive w cbs ok env s m
    Free n s.client →
    r.2.1 = [.echo n] ∧ (Sized r.2.2 → wire n r.2.2 = []) ∧
    ∀ (inbox : List (Env × Ev)) (ms : List EchoMove), (∀ x ∈ inbox, Harmless n x.2) → (∀ m ∈ ms, m.Fine n) →
      let t := echoSched n cbs.data { sys := ⟨r.1.client, none⟩, inbox := inbox } ms
      Sized t.2 →
      wire n t.2 <+: (routed n inbox).map .sendData ∧
      (3 * inbox.length ≤ ms.countP EchoMove.isReceive → wire n t.2 = (routed n inbox).map .sendData) := by
  intro s r hfree
  obtain ⟨h1, h2, h3⟩ := receive_op (cbs := cbs) (ok := ok) (env := env) (after_works hf a b) hm (Instructions.Meant.echo (w := w))
  refine ⟨h2, fun hz => ?_, ?_⟩
  · show wire n (receive w cbs ok env s m).2.2 = []
    have hz' : Sized (receive w cbs ok env s m).2.2 := hz
    rw [h3] at hz' ⊢
    exact receive_wire n hz'
  · intro inbox ms hin hfine t hz
    have hs : Serving n cbs.data ⟨r.1.client, none⟩ := by
      show Serving n cbs.data ⟨(receive w cbs ok env s m).1.client, none⟩
      rw [h1]
      exact open_serving none none (after_works hf a b) (after_keys hf a b) hfree
    exact ⟨Props.c105_prefix n cbs.data _ ms hs rfl hin hfine hz, fun hlen => Props.c105_echoed n cbs.data _ ms hs rfl hin hfine hz hlen⟩

/-- A message asks for an echo service on channel 1, while there is data for the channel; then three messages. -/
def echoMsg : Bytes := asc "li16e1:sd6:action9:open-echo4:porti1eee"

example :
    let r := receive (Instructions.worldAt 2) ⟨4, 5, 6⟩ true {} (after [({}, .binary (asc "li14ei1ee"))] ⟨1, 0⟩ ⟨1, 0⟩) echoMsg
    r.2.1 = [.echo 1] ∧
    wire 1 (echoSched 1 4 { sys := ⟨r.1.client, none⟩, inbox := Props.echoExample.inbox } (List.replicate 9 .receive)).2 =
      [.sendData (asc "ab"), .sendData (asc "e")] := by decide +kernel

/-- Data that arrives before the service is opened is kept in the channel, and the echo service does not see it. -/
example :
    let r := receive (Instructions.worldAt 2) ⟨4, 5, 6⟩ true {} (after [] ⟨1, 0⟩ ⟨1, 0⟩) (asc "li6ei1e2:abe")
    let r' := receive (Instructions.worldAt 2) ⟨4, 5, 6⟩ true {} r.1 echoMsg
    r.2.1 = [] ∧ r'.2.1 = [.echo 1] ∧ (WSClient.step {} r'.1.client (.chanOp 1 (.read 9))).2.filterMap (fun | .chan _ (.returned b) => some b | _ => none) = [asc "ab"] ∧
    wire 1 (receive (Instructions.worldAt 2) ⟨4, 5, 6⟩ true {} r'.1 (asc "li6ei1e1:ce")).2.2 = [] := by decide +kernel

example : Sent echoMsg (.openEcho (.int 1)) := by
  refine ⟨by decide +kernel, asc "s", [(.bytes (asc "action"), .bytes (asc "open-echo")), (.bytes (asc "port"), .int 1)], [], by decide +kernel, ?_, ?_⟩
  · intro x hx
    simp only [List.mem_cons, List.not_mem_nil, or_false] at hx
    rcases hx with rfl | rfl <;> exact ⟨_, rfl⟩
  · refine .echo ⟨[], asc "action", .bytes (asc "open-echo"), _, rfl, by decide +kernel, ?_, ?_⟩
      ⟨[_], asc "port", .int 1, [], rfl, by decide +kernel, fun _ _ h => (nomatch h), rfl⟩
    · intro key' w' h
      simp only [List.mem_cons, List.not_mem_nil, or_false, Prod.mk.injEq, PyVal.bytes.injEq] at h
      rw [h.1]; decide +kernel
    · show PyVal.text _ = PyVal.text _
      congr 1

/-! ### C133 -/

theorem serving_forwards {n client} {cbs : Cbs} (hs : Serving n cbs.data ⟨client, none⟩) : Forwards n cbs.data cbs.close client := by
  intro accept inbox incoming ms hin hp hm t hz
  exact ⟨Props.c107_up accept n cbs.data cbs.close _ ms hs rfl hp hin hm hz,
    fun ha => Props.c107_down accept ha n cbs.data cbs.close _ ms hs rfl rfl hp hin hm hz⟩

theorem ready_answers {n client} {calls : List Call} (hr : Ready n ⟨client, none⟩) (hk : ∀ k ∈ calls, k.Small) :
    Answers n client calls (calls.map Call.msg) := by
  intro ms hm t hz
  exact ⟨Props.c109_prefix n _ calls ms hr hk hm hz, fun hkeep hlen => Props.c109_all n _ calls ms hr hk hm hz hkeep (by simpa using hlen)⟩

theorem busy_small : ∀ k ∈ [Call.write Services.serverBusy, .close], k.Small := by
  intro k hk
  simp only [List.mem_cons, List.not_mem_nil, or_false] at hk
  rcases hk with rfl | rfl
  · show Services.serverBusy.length ≤ maxSize
    decide +kernel
  · trivial

/-- C133: a message that asks for one of the four local services on a free channel, when the limiter admits it, starts one connection to the port of
that service on 127.0.0.1, which carries data both ways between it and that channel. -/
theorem c133_forward (w : Instructions.World) (hw : w.portForward = true) (cbs : Cbs) (ok : Bool) (env : Env) (hist : List (Env × Ev)) (hf : Fair hist)
    (a b : Limiter.Lim) (name : String) (port : Int) (hn : (name, port) ∈ localServices) (x y z : PyVal) (n : Int) (m : Bytes)
    (hm : Sent m (.openPortforward (.text name.toList) (.list [x, y, z, .int n]))) :
    let s := after hist a b
    let r := receive w cbs ok env s m
    Free n s.client → Admits a ok →
    r.2.1 = [.connection n "127.0.0.1".toList port] ∧ Forwards n cbs.data cbs.close r.1.client := by
  intro s r hfree hadm
  obtain ⟨h1, h2, _⟩ := receive_op (cbs := cbs) (ok := ok) (env := env) (after_works hf a b) hm (Instructions.Meant.portforward (w := w) hw)
  obtain ⟨svc, g1, g2, g3⟩ := services_known hn
  obtain ⟨k1, k2⟩ := connect_admits (cbs := cbs) (s := s) (n := n) (host := svc.host) (port := svc.port) hadm
  have hp : perform cbs ok (after hist a b) (.forwarded (.text name.toList) (.list [x, y, z, .int n])) = connect cbs ok s n svc.host svc.port := by
    simp only [perform, g1]; rfl
  rw [hp] at h1 h2
  refine ⟨?_, serving_forwards ?_⟩
  · show (receive w cbs ok env s m).2.1 = _
    rw [h2, k2, g2, g3]; rfl
  · show Serving n cbs.data ⟨(receive w cbs ok env s m).1.client, none⟩
    rw [h1, k1]
    exact open_serving _ _ (after_works hf a b) (after_keys hf a b) hfree

/-- C133: likewise a message that asks for a port of the device. -/
theorem c133_redirect (w : Instructions.World) (hw : w.portForward = true) (cbs : Cbs) (ok : Bool) (env : Env) (hist : List (Env × Ev)) (hf : Fair hist)
    (a b : Limiter.Lim) (port n : Int) (m : Bytes) (hm : Sent m (.openPortredirect (.int n) (.int port))) :
    let s := after hist a b
    let r := receive w cbs ok env s m
    Free n s.client → Admits a ok →
    r.2.1 = [.connection n "127.0.0.1".toList port] ∧ Forwards n cbs.data cbs.close r.1.client := by
  intro s r hfree hadm
  obtain ⟨h1, h2, _⟩ := receive_op (cbs := cbs) (ok := ok) (env := env) (after_works hf a b) hm (Instructions.Meant.portredirect (w := w) hw)
  obtain ⟨k1, k2⟩ := connect_admits (cbs := cbs) (s := s) (n := n) (host := PortForward.localhost) (port := port) hadm
  refine ⟨?_, serving_forwards ?_⟩
  · show (receive w cbs ok env s m).2.1 = _
    rw [h2]
    exact congrArg (fun x => [x]) k2
  · show Serving n cbs.data ⟨(receive w cbs ok env s m).1.client, none⟩
    rw [h1]
    show Serving n cbs.data ⟨(connect cbs ok s n PortForward.localhost port).1.client, none⟩
    rw [k1]
    exact open_serving _ _ (after_works hf a b) (after_keys hf a b) hfree

/-- C133: if the limiter does not admit it, or the thread can not be started, the server receives SERVER_BUSY and the request to close. -/
theorem c133_busy (w : Instructions.World) (hw : w.portForward = true) (cbs : Cbs) (ok : Bool) (env : Env) (hist : List (Env × Ev)) (hf : Fair hist)
    (a b : Limiter.Lim) (n : Int) (m : Bytes)
    (hm : (∃ name port x y z, (name, port) ∈ localServices ∧ Sent m (.openPortforward (.text name.toList) (.list [x, y, z, .int n]))) ∨
      ∃ port, Sent m (.openPortredirect (.int n) (.int port))) :
    let s := after hist a b
    let r := receive w cbs ok env s m
    Free n s.client → ¬ Admits a ok →
    r.2.1 = [.refused n [.write Services.serverBusy, .close]] ∧
      Answers n r.1.client [.write Services.serverBusy, .close] [.sendData Services.serverBusy, .requestClose] := by
  intro s r hfree hadm
  have main : ∀ host port, (receive w cbs ok env s m).1 = (connect cbs ok s n host port).1 →
      (receive w cbs ok env s m).2.1 = [(connect cbs ok s n host port).2] → r.2.1 = [.refused n [.write Services.serverBusy, .close]] ∧
      Answers n r.1.client [.write Services.serverBusy, .close] [.sendData Services.serverBusy, .requestClose] := by
    intro host port h1 h2
    obtain ⟨k1, k2⟩ := connect_refuses (cbs := cbs) (s := s) (n := n) (host := host) (port := port) hadm (after_works hf a b) (after_keys hf a b) hfree
    refine ⟨?_, ?_⟩
    · show (receive w cbs ok env s m).2.1 = _
      rw [h2, k2]
    · refine ready_answers (calls := [.write Services.serverBusy, .close]) ?_ busy_small
      show Ready n ⟨(receive w cbs ok env s m).1.client, none⟩
      rw [h1]; exact k1
  rcases hm with ⟨name, port, x, y, z, hn, hm⟩ | ⟨port, hm⟩
  · obtain ⟨h1, h2, _⟩ := receive_op (cbs := cbs) (ok := ok) (env := env) (after_works hf a b) hm (Instructions.Meant.portforward (w := w) hw)
    obtain ⟨svc, g1, g2, g3⟩ := services_known hn
    have hp : perform cbs ok (after hist a b) (.forwarded (.text name.toList) (.list [x, y, z, .int n])) = connect cbs ok s n svc.host svc.port := by
      simp only [perform, g1]; rfl
    rw [hp] at h1 h2
    exact main _ _ h1 h2
  · obtain ⟨h1, h2, _⟩ := receive_op (cbs := cbs) (ok := ok) (env := env) (after_works hf a b) hm (Instructions.Meant.portredirect (w := w) hw)
    exact main _ _ h1 h2

theorem connect_slot (cbs : Cbs) (ok : Bool) (s : St) (n : Int) (host : Text) (port : Int) (hv : 0 ≤ s.services.value) :
    (connect cbs ok s n host port).1.terminals = s.terminals ∧
    (Admits s.services ok → (connect cbs ok s n host port).1.services = { s.services with value := s.services.value + 1 }) ∧
    (¬ Admits s.services ok → (connect cbs ok s n host port).1.services = s.services) := by
  simp only [connect]
  cases hi : Limiter.increment s.services with
  | error e =>
    refine ⟨rfl, fun h => ?_, fun _ => rfl⟩
    obtain ⟨l', g, _⟩ := launch_admits h
    rw [hi] at g; exact nomatch g
  | ok l =>
    refine ⟨rfl, fun h => ?_, fun h => ?_⟩
    · show (Limiter.launch s.services ok).1 = _
      obtain ⟨h2, rfl⟩ := h
      rw [Agent.launch_ok h2]
    · show (Limiter.launch s.services ok).1 = _
      have h3 := launch_refuses h
      rcases Agent.launch_cases s.services ok hv with h2 | ⟨h2, _⟩
      · rw [h2]
      · rw [h2] at h3; exact nomatch h3

/-- C133: a connection that is started takes one slot of the limiter for services; nothing else is taken, and a refusal takes nothing. -/
theorem c133_slot (w : Instructions.World) (hw : w.portForward = true) (cbs : Cbs) (ok : Bool) (env : Env) (hist : List (Env × Ev)) (hf : Fair hist)
    (a b : Limiter.Lim) (ha : 0 ≤ a.value) (n : Int) (m : Bytes)
    (hm : (∃ name port x y z, (name, port) ∈ localServices ∧ Sent m (.openPortforward (.text name.toList) (.list [x, y, z, .int n]))) ∨
      ∃ port, Sent m (.openPortredirect (.int n) (.int port))) :
    (receive w cbs ok env (after hist a b) m).1.terminals = b ∧
    (Admits a ok → (receive w cbs ok env (after hist a b) m).1.services = { a with value := a.value + 1 }) ∧
    (¬ Admits a ok → (receive w cbs ok env (after hist a b) m).1.services = a) := by
  rcases hm with ⟨name, port, x, y, z, hn, hm⟩ | ⟨port, hm⟩
  · obtain ⟨h1, _, _⟩ := receive_op (cbs := cbs) (ok := ok) (env := env) (after_works hf a b) hm (Instructions.Meant.portforward (w := w) hw)
    obtain ⟨svc, g1, _, _⟩ := services_known hn
    have hp : perform cbs ok (after hist a b) (.forwarded (.text name.toList) (.list [x, y, z, .int n])) =
        connect cbs ok (after hist a b) n svc.host svc.port := by
      simp only [perform, g1]
    rw [h1, hp]
    exact connect_slot cbs ok (after hist a b) n svc.host svc.port ha
  · obtain ⟨h1, _, _⟩ := receive_op (cbs := cbs) (ok := ok) (env := env) (after_works hf a b) hm (Instructions.Meant.portredirect (w := w) hw)
    rw [h1]
    exact connect_slot cbs ok (after hist a b) n PortForward.localhost port ha

/-- C133: a message that asks for an unknown service changes nothing. -/
theorem c133_unknown (w : Instructions.World) (hw : w.portForward = true) (cbs : Cbs) (ok : Bool) (env : Env) (hist : List (Env × Ev)) (hf : Fair hist)
    (a b : Limiter.Lim) (name : Text) (hn : ∀ x ∈ localServices, x.1.toList ≠ name) (x y z : PyVal) (n : Int) (m : Bytes)
    (hm : Sent m (.openPortforward (.text name) (.list [x, y, z, .int n]))) :
    (receive w cbs ok env (after hist a b) m).1 = after hist a b ∧ (receive w cbs ok env (after hist a b) m).2.1 = [.nothing] := by
  obtain ⟨h1, h2, _⟩ := receive_op (cbs := cbs) (ok := ok) (env := env) (after_works hf a b) hm (Instructions.Meant.portforward (w := w) hw)
  rw [h1, h2]
  simp only [perform, services_unknown hn, and_self]

/-- Messages that ask for the service `web` on channel 1 and for port 22 on channel 2. -/
example :
    let s := after [] ⟨1, 0⟩ ⟨1, 0⟩
    let r := receive (Instructions.worldAt 2) ⟨4, 5, 6⟩ true {} s (asc "li16e1:sd6:action16:open-portforward5:routeli7ei8ei9ei1ee7:service3:webee")
    let r' := receive (Instructions.worldAt 2) ⟨7, 8, 9⟩ true {} r.1 (asc "li16e1:sd6:action17:open-portredirect11:device_porti22e8:m2m_porti2eee")
    r.2.1 = [.connection 1 "127.0.0.1".toList 80] ∧ r'.2.1 = [.refused 2 [.write Services.serverBusy, .close]] ∧
    (receive (Instructions.worldAt 2) ⟨7, 8, 9⟩ true {} s (asc "li16e1:sd6:action17:open-portredirect11:device_porti22e8:m2m_porti2eee")).2.1 =
      [.connection 2 "127.0.0.1".toList 22] := by decide +kernel

/-! ### C134 -/

theorem failed_small : ∀ k ∈ [Call.write (asc "Failed to launch remote process\n"), .close], k.Small := by
  intro k hk
  simp only [List.mem_cons, List.not_mem_nil, or_false] at hk
  rcases hk with rfl | rfl
  · show (asc "Failed to launch remote process\n").length ≤ maxSize
    decide +kernel
  · trivial

theorem up_shell {w} (h : Up w) : "shell".toList ∈ w.terminals := by rw [h.2]; simp only [List.mem_cons, true_or]

/-- C134 fails: data that the server sends right after the message, before the new thread has started the process, is not written to it, not even when
it runs; instead the server is asked to close the channel. -/
theorem c134_counterexample :
    let r := receive (Instructions.worldAt 2) ⟨4, 5, 6⟩ true {} (after [] ⟨1, 0⟩ ⟨1, 0⟩) (asc "li16e1:sd6:action13:open-terminal4:name5:shell4:porti1eee")
    let t := termSched (fun _ => .wrote 1) 10 1 4 { call := { sys := ⟨r.1.client, none⟩, script := [] }, inbox := [({}, .binary (asc "li6ei1e2:lse"))] }
      [.receive, .start, .receive, .receive, .receive]
    r.2.1 = [.terminal 1 "shell".toList] ∧ t.1.inbox.length = 0 ∧ t.1.running = true ∧ t.1.input.written = [] ∧ wire 1 t.2 = [.requestClose] := by
  decide +kernel

/-- C134 where it holds: after a message that asks for the terminal on a free channel, when the limiter admits it, and if no data for the channel is
handled before the process is started, then the server receives the output of the process, and the process gets the data that the server sends, as in
C115.  Missing for the full property: data handled before that, `c134_counterexample` and C135. -/
theorem c134_terminal_partial (w : Instructions.World) (hw : Up w) (cbs : Cbs) (ok : Bool) (env : Env) (hist : List (Env × Ev)) (hf : Fair hist)
    (a b : Limiter.Lim) (n : Int) (size : Option PyVal) (m : Bytes) (hm : Sent m (.openTerminal (.text "shell".toList) (.int n) size))
    (write : Nat → Terminal.WriteRes) (hpr : Terminal.Progress write) (fuel : Nat) (spawnOk : Bool) (poll : Nat → Option (List Terminal.PollEv))
    (polls : Nat) :
    let s := after hist a b
    let r := receive w cbs ok env s m
    Free n s.client → Admits b ok →
    r.2.1 = [.terminal n "shell".toList] ∧
    ∀ (early inbox : List (Env × Ev)) (pre ms : List TermMove),
      let acts := (Terminal.runThread spawnOk poll polls).1
      let t := termSched write fuel n cbs.data { call := { sys := ⟨r.1.client, none⟩, script := outputCalls acts }, inbox := early ++ inbox }
        (pre ++ .start :: ms)
      (∀ k ∈ outputCalls acts, k.Small) → (∀ x ∈ early ++ inbox, Harmless n x.2) → (∀ d ∈ routed n inbox, d.length ≤ fuel) →
      (∀ m ∈ pre, m.Waits n) → (∀ m ∈ ms, m.Fine n) → routed n early = [] → pre.countP TermMove.isReceive ≤ early.length → Sized t.2 →
      (dataOf (wire n t.2)).flatten <+: Terminal.readBytes acts ∧
      (2 * (outputCalls acts).length ≤ ms.countP TermMove.isThread → (dataOf (wire n t.2)).flatten = Terminal.readBytes acts) ∧
      t.1.input.written ++ (routed n t.1.inbox).flatten = (routed n inbox).flatten ∧
      ((early ++ inbox).length ≤ ms.countP TermMove.isReceive → t.1.input.written = (routed n inbox).flatten) := by
  intro s r hfree hadm
  obtain ⟨h1, h2, _⟩ := receive_op (cbs := cbs) (ok := ok) (env := env) (after_works hf a b) hm (Instructions.Meant.terminal (w := w) (up_shell hw))
  obtain ⟨l', g1, g2⟩ := launch_admits hadm
  have hp : (perform cbs ok (after hist a b) (.launched "shell".toList (.int n) size)).2 = .terminal n "shell".toList := by
    show (if (Limiter.launch b ok).2 = true then Did.terminal n _ else _) = _
    rw [g2]; rfl
  have hs : Serving n cbs.data ⟨r.1.client, none⟩ := by
    show Serving n cbs.data ⟨(receive w cbs ok env s m).1.client, none⟩
    rw [h1]
    exact open_serving _ _ (after_works hf a b) (after_keys hf a b) hfree
  refine ⟨by show (receive w cbs ok env s m).2.1 = _; rw [h2, hp], ?_⟩
  intro early inbox pre ms acts t hk hin hl hpre hms hearly hcount hz
  obtain ⟨c, e1, e2, e3⟩ := serving_live hs
  have happ : ∀ (s : TermSys) (xs ys : List TermMove), termSched write fuel n cbs.data s (xs ++ ys) =
      ((termSched write fuel n cbs.data (termSched write fuel n cbs.data s xs).1 ys).1,
        (termSched write fuel n cbs.data s xs).2 ++ (termSched write fuel n cbs.data (termSched write fuel n cbs.data s xs).1 ys).2) := by
    intro s xs
    induction xs generalizing s with
    | nil => intro ys; simp [termSched]
    | cons x xs ih => intro ys; simp only [List.cons_append, termSched, ih, List.append_assoc]
  have ht : t = termSched write fuel n cbs.data { call := { sys := ⟨r.1.client, none⟩, script := outputCalls acts }, inbox := early ++ inbox }
      (pre ++ .start :: ms) := rfl
  rw [happ] at ht
  rw [ht] at hz ⊢
  simp only [termSched, termMove, List.nil_append, sized_append] at hz ⊢
  obtain ⟨c1, new, w1, w2, j, w3, w4⟩ := wait_sched (write := write) (fuel := fuel) (w := []) (k := 0)
    (call := { sys := ⟨r.1.client, none⟩, script := outputCalls acts }) pre
    (s := { call := { sys := ⟨r.1.client, none⟩, script := outputCalls acts }, inbox := early ++ inbox })
    ⟨e1, e3, ⟨e2, rfl⟩, rfl, rfl, rfl, rfl, rfl, rfl, fun _ => rfl⟩ hin hpre hz.1
  have hre : routed n (early ++ inbox) = routed n inbox := by
    show List.filterMap _ _ = _
    rw [List.filterMap_append]
    show routed n early ++ routed n inbox = _
    rw [hearly, List.nil_append]
  have hnew : new = [] := by
    have h4 := w2
    rw [w4, List.drop_append] at h4
    have : routed n (early.drop j ++ inbox.drop (j - early.length)) = routed n inbox := by
      have hj : j - early.length = 0 := by omega
      rw [hj, List.drop_zero]
      show List.filterMap _ _ = _
      rw [List.filterMap_append]
      show routed n (early.drop j) ++ routed n inbox = _
      have : routed n (early.drop j) = [] := by
        have h5 : routed n (early.take j) ++ routed n (early.drop j) = [] := by
          rw [← hearly]
          conv => rhs; rw [← List.take_append_drop j early]
          show _ = List.filterMap _ _
          rw [List.filterMap_append]; rfl
        exact (List.append_eq_nil_iff.1 h5).2
      rw [this, List.nil_append]
    rw [this] at h4
    have h5 : routed n inbox = new ++ routed n inbox := hre.symm.trans h4
    have := congrArg List.length h5
    rw [List.length_append] at this
    exact List.eq_nil_of_length_eq_zero (by omega)
  subst hnew
  rcases hq : termSched write fuel n cbs.data { call := { sys := ⟨r.1.client, none⟩, script := outputCalls acts }, inbox := early ++ inbox } pre with ⟨s1, o1⟩
  rw [hq] at w1 w2 w4 hz
  simp only at w1 w2 w4 hz ⊢
  have hwo : wire n o1 = [] ∧ s1.closing = none := by
    have h6 := w1.closing
    rw [List.nil_append] at h6
    cases hcl : s1.closing with
    | none => rw [hcl] at h6; exact ⟨h6.2, rfl⟩
    | some p => rw [hcl] at h6; cases p with
      | false => exact absurd h6.2 (by simp)
      | true => exact absurd h6.2.2.2 (by simp)
  have hidle : Idle c1 := by
    have h6 := w1.closing
    rw [hwo.2] at h6
    exact h6.1
  have hclo := w1.clean (by simp)
  have hinp : s1.input = {} := by
    rcases hy : s1.input with ⟨x1, x2, x3, x4⟩
    have q1 := w1.input; have q2 := w1.calls; have q3 := w1.free
    rw [hy] at q1 q2 q3 hclo
    simp only at q1 q2 q3 hclo
    subst q1; subst q2; subst q3; subst hclo; rfl
  have hserv : Serving n cbs.data { s1 with running := true }.call.sys :=
    ⟨w1.live.here, w1.live.works, w1.live.nodup, c1, w1.live.table, w1.live.opened, hidle, w1.data⟩
  have hsub : ∀ x ∈ s1.inbox, Harmless n x.2 := by
    intro x hx; rw [w4] at hx; exact hin x (List.mem_of_mem_drop hx)
  have hri : routed n s1.inbox = routed n inbox := by rw [← hre, w2, List.nil_append]
  have hki : ∀ k ∈ { s1 with running := true }.call.script, k.Small := by
    show ∀ k ∈ s1.call.script, k.Small
    rw [w1.script]; exact hk
  have hout := TermWire.c115_output write hpr fuel n cbs.data { s1 with running := true } spawnOk poll polls w1.script hki hserv rfl hinp hwo.2
    w1.inside ms hsub (by show ∀ d ∈ routed n s1.inbox, _; rw [hri]; exact hl) hms hz.2
  have hinn := TermWire.c115_input write hpr fuel n cbs.data { s1 with running := true } hki hserv rfl hinp hwo.2
    w1.inside ms hsub (by show ∀ d ∈ routed n s1.inbox, _; rw [hri]; exact hl) hms hz.2
  simp only [wire_append, hwo.1, List.nil_append]
  refine ⟨hout.1, fun hlen => hout.2 ?_, ?_, fun hlen => ?_⟩
  · show 2 * s1.call.script.length ≤ _
    rw [w1.script]; exact hlen
  · have := hinn.1
    show _ = (routed n inbox).flatten
    rw [← hri]; exact this
  · rw [← hri]
    refine hinn.2 ?_
    show s1.inbox.length ≤ _
    rw [w4, List.length_drop]
    omega

/-- C134: a terminal that is started takes one slot of the limiter for terminals; nothing else is taken, and a refusal takes nothing. -/
theorem c134_slot (w : Instructions.World) (hw : Up w) (cbs : Cbs) (ok : Bool) (env : Env) (hist : List (Env × Ev)) (hf : Fair hist)
    (a b : Limiter.Lim) (hb : 0 ≤ b.value) (n : Int) (size : Option PyVal) (m : Bytes)
    (hm : Sent m (.openTerminal (.text "shell".toList) (.int n) size)) :
    (receive w cbs ok env (after hist a b) m).1.services = a ∧
    (Admits b ok → (receive w cbs ok env (after hist a b) m).1.terminals = { b with value := b.value + 1 }) ∧
    (¬ Admits b ok → (receive w cbs ok env (after hist a b) m).1.terminals = b) := by
  obtain ⟨h1, _, _⟩ := receive_op (cbs := cbs) (ok := ok) (env := env) (after_works hf a b) hm (Instructions.Meant.terminal (w := w) (up_shell hw))
  rw [h1]
  refine ⟨rfl, fun h => ?_, fun h => ?_⟩
  · show (Limiter.launch b ok).1 = _
    obtain ⟨h2, rfl⟩ := h
    rw [Agent.launch_ok h2]
  · show (Limiter.launch b ok).1 = _
    have h3 := launch_refuses h
    rcases Agent.launch_cases b ok hb with h2 | ⟨h2, _⟩
    · rw [h2]
    · rw [h2] at h3; exact nomatch h3

/-- C134: if the limiter does not admit it, or the thread can not be started, the server receives a message that says so and the request to close. -/
theorem c134_failed (w : Instructions.World) (hw : Up w) (cbs : Cbs) (ok : Bool) (env : Env) (hist : List (Env × Ev)) (hf : Fair hist)
    (a b : Limiter.Lim) (n : Int) (size : Option PyVal) (m : Bytes) (hm : Sent m (.openTerminal (.text "shell".toList) (.int n) size)) :
    let s := after hist a b
    let r := receive w cbs ok env s m
    let calls := [Call.write (asc "Failed to launch remote process\n"), .close]
    Free n s.client → ¬ Admits b ok →
    r.2.1 = [.refused n calls] ∧ Answers n r.1.client calls [.sendData (asc "Failed to launch remote process\n"), .requestClose] := by
  intro s r calls hfree hadm
  obtain ⟨h1, h2, _⟩ := receive_op (cbs := cbs) (ok := ok) (env := env) (after_works hf a b) hm (Instructions.Meant.terminal (w := w) (up_shell hw))
  have hp : (perform cbs ok (after hist a b) (.launched "shell".toList (.int n) size)).2 = .refused n calls := by
    show (if (Limiter.launch b ok).2 = true then Did.terminal n _ else _) = _
    rw [launch_refuses hadm]; rfl
  refine ⟨by show (receive w cbs ok env s m).2.1 = _; rw [h2, hp], ?_⟩
  refine ready_answers (calls := calls) (serving_ready (cb := cbs.data) ?_) failed_small
  show Serving n cbs.data ⟨(receive w cbs ok env s m).1.client, none⟩
  rw [h1]
  exact open_serving _ _ (after_works hf a b) (after_keys hf a b) hfree

/-! ### C135 -/

/-- C135: each message for the channel of a terminal whose process does not run leads to one request to close the channel and to nothing else; nothing
is written, and the receive thread goes on. -/
theorem c135_refused (write : Nat → Terminal.WriteRes) (fuel : Nat) (n : Int) (cb : Nat) (call : CallSys) (hs : Serving n cb call.sys)
    (inbox : List (Env × Ev)) (hin : ∀ x ∈ inbox, Harmless n x.2) (ms : List TermMove) (hm : ∀ m ∈ ms, m.Waits n) :
    let t := termSched write fuel n cb { call := call, inbox := inbox } ms
    Sized t.2 →
    t.1.input.written = [] ∧ wire n t.2 <+: List.replicate (routed n inbox).length .requestClose ∧
    (3 * inbox.length ≤ ms.countP TermMove.isReceive →
      wire n t.2 = List.replicate (routed n inbox).length .requestClose ∧ t.1.inbox = [] ∧ t.1.closing = none) := by
  intro t hz
  obtain ⟨c, h1, h2, h3⟩ := serving_live hs
  have h0 : WInv n cb { call := call, inbox := inbox } c [] 0 call := ⟨h1, h3, ⟨h2, rfl⟩, rfl, rfl, rfl, rfl, rfl, rfl, fun _ => rfl⟩
  obtain ⟨c', new, w1, w2, _⟩ := wait_sched (write := write) (fuel := fuel) ms h0 hin hm hz
  have w2' : routed n inbox = new ++ routed n t.1.inbox := w2
  have hcl : Closing c' (wire n t.2) new.length t.1.closing := by simpa using w1.closing
  have hpre : wire n t.2 <+: List.replicate new.length .requestClose := by
    cases hx : t.1.closing with
    | none => rw [hx] at hcl; rw [hcl.2]; exact List.prefix_refl _
    | some p =>
      rw [hx] at hcl
      cases p with
      | false => rw [← hcl.2]; exact List.prefix_append _ _
      | true => rw [← hcl.2.2.2]; exact List.prefix_append _ _
  refine ⟨w1.input, ?_, fun hlen => ?_⟩
  · refine List.IsPrefix.trans hpre ?_
    rw [w2', List.length_append, ← List.replicate_append_replicate]
    exact List.prefix_append _ _
  · have := wait_ends (write := write) (fuel := fuel) ms h0 hin hm hz
    have hz0 : waitLeft t.1 = 0 := by
      have : waitLeft t.1 ≤ 3 * inbox.length + 0 - ms.countP TermMove.isReceive := this
      omega
    simp only [waitLeft] at hz0
    have hi : t.1.inbox = [] := List.eq_nil_of_length_eq_zero (by omega)
    have hc : t.1.closing = none := by
      cases hx : t.1.closing with
      | none => rfl
      | some p => rw [hx] at hz0; cases p <;> simp at hz0
    rw [hc] at hcl
    rw [hi] at w2'
    exact ⟨by rw [hcl.2, w2']; simp [routed], hi, hc⟩

/-- Two messages for the terminal and one for another channel. -/
example : wire 1 (termSched (fun _ => .wrote 1) 10 1 4 { termExample with running := false } (List.replicate 9 .receive)).2 =
    [.requestClose, .requestClose] := by decide +kernel

end Verif.Opening
