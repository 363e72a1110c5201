import Verif.Proofs.System
import Verif.Props.Services
/-!
C101-C107: the agent as a whole, seen from the server: what is sent on a channel, what arrives of a file, what is echoed, what a forwarded
connection carries, and how large a decoded message can be.
-/
namespace Verif.Props
open Verif WSClient System

/-! ### C101 -/

/-- C101: over every history in which the server does not close channel `n`, the messages it receives for that channel (data, control messages and
requests to close, found by decoding every message the client sends) are exactly what the calls on the channel object have sent, in their order:
nothing is lost, doubled, changed, reordered or mixed up with the traffic of other channels, with pongs or with handshakes. -/
theorem c101_wire (before hist : List (Env × Ev)) (hb : Fair before) (hf : Fair hist) (n : Int) (c : Channel.Ch)
    (hc : WSClient.lookup n (run {} before).1.channels = some c)
    (hcl : ∀ x ∈ hist, ∀ data, x.2 = .binary data → ¬ closes n data)
    (hz : Sized (run (run {} before).1 hist).2) :
    let ops := hist.flatMap fun x => opsFor n x.2
    (∀ d, Channel.Out.sendData d ∈ (Channel.run c ops).2 ∨ Channel.Out.sendControl d ∈ (Channel.run c ops).2 → d.length ≤ maxSize) →
    wire n (run (run {} before).1 hist).2 = (Channel.run c ops).2.filter Channel.isSend := by
  intro ops ho
  refine run_wire _ hist n c (run_hung {} before hb) (run_keys {} before (by simp [keys]) hb) hc hf hcl hz ?_
  rintro o hmem d (rfl | rfl)
  · exact ho d (.inl hmem)
  · exact ho d (.inr hmem)

/-- Two channels written to in turn, a ping in between. -/
example : wire 1 (run {} [({}, .binary (asc "li14ei1ee")), ({}, .binary (asc "li14ei2ee")), ({}, .chanOp 1 (.beginWrite (asc "ab"))),
    ({}, .chanOp 2 (.beginWrite (asc "cd"))), ({}, .chanOp 2 (.finishWrite 0)), ({}, .binary (asc "li7e1:xe")),
    ({}, .chanOp 1 (.finishWrite 0)), ({}, .chanOp 1 .beginClose), ({}, .chanOp 1 .finishClose)]).2 =
    [.sendData (asc "ab"), .requestClose] := by decide +kernel

/-! ### C102 -/

/-- C102: whatever happens meanwhile (other traffic, losses of the connection, the server closing and opening channels, failures of the disk or
the connection) the data that arrives on the channel of a file service is the beginning of the file; there is at most one error report, after all
data, and at most one request to close, at the very end. -/
theorem c102_prefix (n : Int) (content : Bytes) (report : Services.Fail → Bytes) (s : FileSys) (ms : List FileMove)
    (hpc : s.pc = .opening) (hs : Ready n s.sys) (hr : ∀ f, (report f).length ≤ maxSize) (hf : ∀ m ∈ ms, m.Fine n)
    (hz : Sized (fileSched n content report s ms).2) :
    ∃ (ds : List Bytes) (ctl cl : List Channel.Out), wire n (fileSched n content report s ms).2 = ds.map .sendData ++ ctl ++ cl ∧ ds.flatten <+: content ∧
      (ctl = [] ∨ ∃ r, ctl = [.sendControl r]) ∧ (cl = [] ∨ cl = [.requestClose]) := by
  obtain ⟨c, h1, h2, h3⟩ := ready_has hs
  have h0 : Inv content c [] true s.pc := by rw [hpc]; exact ⟨h3, rfl⟩
  obtain ⟨c', _, _, h⟩ := sched_inv ms hr h1 h0 hf hz
  rw [List.nil_append] at h
  generalize wire n (fileSched n content report s ms).2 = w at h ⊢
  have going : ∀ ds : List Bytes, w = ds.map .sendData → ds.flatten <+: content →
      ∃ (ds : List Bytes) (ctl cl : List Channel.Out), w = ds.map .sendData ++ ctl ++ cl ∧ ds.flatten <+: content ∧
        (ctl = [] ∨ ∃ r, ctl = [.sendControl r]) ∧ (cl = [] ∨ cl = [.requestClose]) :=
    fun ds h1 h2 => ⟨ds, [], [], by simp [h1], h2, .inl rfl, .inl rfl⟩
  have over : ∀ ok, Over content c' w ok → ∃ (ds : List Bytes) (ctl cl : List Channel.Out), w = ds.map .sendData ++ ctl ++ cl ∧ ds.flatten <+: content ∧
        (ctl = [] ∨ ∃ r, ctl = [.sendControl r]) ∧ (cl = [] ∨ cl = [.requestClose]) := by
    rintro ok ⟨ds, ctl, g1, _, g3, g4, _⟩
    exact ⟨ds, ctl, [], by simp [g1], g3, g4, .inl rfl⟩
  generalize (fileSched n content report s ms).1.pc = pc at h
  cases pc with
  | opening => exact going [] (by simp [h.2]) (by simp)
  | reading rest => obtain ⟨ds, g1, _, g2⟩ := h.2.prefix; exact going ds g1 g2
  | looking chunk rest => obtain ⟨ds, g1, _, g2⟩ := h.2.2.2.prefix; exact going ds g1 g2
  | writing chunk rest => obtain ⟨ds, g1, _, g2⟩ := h.2.2.2.prefix; exact going ds g1 g2
  | sending rest => obtain ⟨chunk, _, _, _, _, _, ds, g1, _, g2⟩ := h; exact going ds g1 ⟨chunk ++ rest, g2⟩
  | failed f => obtain ⟨_, _, ds, g1, _, g2⟩ := h; exact going ds g1 g2
  | reporting => obtain ⟨_, _, ds, g1, _, g2⟩ := h; exact going ds g1 g2
  | closing => exact over _ h.2
  | requesting => exact over _ h.2
  | ended =>
    obtain ⟨_, w', cl, g1, g2, ⟨ds, ctl, k1, _, k3, k4, _⟩, _⟩ := h
    exact ⟨ds, ctl, cl, by rw [g1, k1], k3, k4, g2⟩

/-- C102: if nothing fails and the channel is not ended, then when the thread has finished the server has received the whole file, in pieces of at
most 1 MiB, none of them empty, followed by the request to close and nothing else. -/
theorem c102_arrives (n : Int) (content : Bytes) (report : Services.Fail → Bytes) (s : FileSys) (ms : List FileMove)
    (hpc : s.pc = .opening) (hs : Ready n s.sys) (hr : ∀ f, (report f).length ≤ maxSize) (hf : ∀ m ∈ ms, m.Fine n)
    (hz : Sized (fileSched n content report s ms).2) (hk : ∀ m ∈ ms, m.Keeps n) (hok : ∀ m ∈ ms, m.ok = true)
    (hend : (fileSched n content report s ms).1.pc = .ended) :
    ∃ ds : List Bytes, wire n (fileSched n content report s ms).2 = ds.map .sendData ++ [.requestClose] ∧ ds.flatten = content ∧
      ∀ d ∈ ds, d ≠ [] ∧ d.length ≤ 1048576 := by
  obtain ⟨c, h1, h2, h3⟩ := ready_has hs
  have h0 : Inv content c [] true s.pc := by rw [hpc]; exact ⟨h3, rfl⟩
  obtain ⟨c', _, hcl, h⟩ := sched_inv ms hr h1 h0 hf hz
  rw [List.nil_append, hend] at h
  have hc' : c'.closed = false := (hcl hk).trans h2
  obtain ⟨_, w', cl, g1, _, ⟨ds, ctl, k1, k2, _, _, k5⟩, g5⟩ := h
  have hall : (true && ms.all FileMove.ok) = true := by simp; exact hok
  obtain ⟨k6, k7⟩ := k5 hall
  refine ⟨ds, ?_, k7 hc', k2⟩
  rw [g1, g5 hc', k1, k6, List.append_nil]

/-- C102: the thread does finish: at most four statements for every byte and six more, whatever happens in between. -/
theorem c102_ends (n : Int) (content : Bytes) (report : Services.Fail → Bytes) (s : FileSys) (ms : List FileMove)
    (hpc : s.pc = .opening) (hlen : 4 * content.length + 6 ≤ ms.countP FileMove.isThread) :
    (fileSched n content report s ms).1.pc = .ended := by
  have := file_ends n content report s ms
  rw [hpc] at this
  simp only [fileLeft] at this
  generalize (fileSched n content report s ms).1.pc = pc at this
  cases pc <;> simp only [fileLeft] at this <;> first | rfl | (exfalso; omega)

/-- A client with channel 1 open. -/
def opened : St := (run {} [({}, .binary (asc "li14ei1ee"))]).1

theorem opened_ready : Ready 1 { client := opened } := by
  refine ⟨rfl, ?_, {}, ?_, rfl, rfl, rfl, rfl⟩
  · decide +kernel
  · decide +kernel

/-- A schedule with a ping, and traffic on other channels, between the statements. -/
def fileExample : List FileMove :=
  [.thread none, .thread none, .client {} (.binary (asc "li14ei2ee")), .thread none, .thread none, .client {} (.binary (asc "li7e1:xe")),
   .thread none, .thread none, .client {} (.chanOp 2 (.beginWrite [9])), .thread none, .client {} (.chanOp 2 (.finishWrite 0)), .thread none, .thread none]

example : wire 1 (fileSched 1 [1, 2, 3] (fun _ => []) { sys := { client := opened } } fileExample).2 = [.sendData [1, 2, 3], .requestClose] ∧
    (fileSched 1 [1, 2, 3] (fun _ => []) { sys := { client := opened } } fileExample).1.pc = .ended := by decide +kernel

/-- The disk fails at the first read. -/
example : wire 1 (fileSched 1 [1, 2, 3] (fun _ => [7]) { sys := { client := opened } }
    [.thread none, .thread (some .io), .thread none, .thread none, .thread none, .thread none]).2 = [.sendControl [7], .requestClose] := by decide +kernel

/-! ### C103 -/

/-- C103 fails: the thread of a file service is between the test and the sending in `Channel.write`; the server closes channel 1 and opens a new
one with the same number; then a piece of the file arrives on the new channel. -/
theorem c103_counterexample :
    let upTo : List FileMove := [.thread none, .thread none, .thread none, .thread none,
      .client {} (.binary (asc "li19ei1ee")), .client {} (.binary (asc "li14ei1ee"))]
    let s := (fileSched 1 [1, 2, 3] (fun _ => []) { sys := { client := opened } } upTo).1
    wire 1 (fileSched 1 [1, 2, 3] (fun _ => []) { sys := { client := opened } } upTo).2 = [] ∧
    (WSClient.lookup 1 s.sys.client.channels = some {}) ∧
    wire 1 (fileSched 1 [1, 2, 3] (fun _ => []) s [.thread none]).2 = [.sendData [1, 2, 3]] := by decide +kernel

/-- C103 where it holds: if no call of the channel's methods was under way when the channel ended, then whatever its service calls afterwards, and
whatever else happens, nothing is sent with the channel's number.  Missing for the full property: the calls that were under way,
`c103_counterexample`. -/
theorem c103_quiet_partial (n : Int) (s : Sys) (ms : List System.Move) (c : Channel.Ch) (hc : s.obj n = some c)
    (hn : (s.client.channels.map (·.1)).Nodup) (hcl : c.closed = true) (hi : Idle c) (hm : ∀ m ∈ ms, m.Fine n) (hz : Sized (sched n s ms).2) :
    wire n (sched n s ms).2 = [] :=
  closed_sched ms ⟨hc, hn⟩ hcl hi hm hz

/-- C103 exactly: whatever happens after the end of the channel, what is sent with its number, together with what the calls that have not come back yet
are about to send, is what was about to be sent when the channel ended, in any order. -/
theorem c103_exact (n : Int) (s : Sys) (ms : List System.Move) (c : Channel.Ch) (hc : s.obj n = some c)
    (hn : (s.client.channels.map (·.1)).Nodup) (hcl : c.closed = true)
    (hu : ∀ d, .sendData d ∈ underWay c ∨ .sendControl d ∈ underWay c → d.length ≤ maxSize) (hm : ∀ m ∈ ms, m.Fine n) (hz : Sized (sched n s ms).2) :
    ∃ c', (sched n s ms).1.obj n = some c' ∧ (wire n (sched n s ms).2 ++ underWay c').Perm (underWay c) :=
  underWay_sched ms ⟨hc, hn⟩ hcl (by
    rintro o ho d (rfl | rfl)
    · exact hu d (.inl ho)
    · exact hu d (.inr ho)) hm hz

/-- C103 exactly: nothing that the service of a closed channel does can send anything with its number just if no call was under way. -/
theorem c103_iff (n : Int) (s : Sys) (c : Channel.Ch) (hc : s.obj n = some c)
    (hn : (s.client.channels.map (·.1)).Nodup) (hcl : c.closed = true)
    (hu : ∀ d, .sendData d ∈ underWay c ∨ .sendControl d ∈ underWay c → d.length ≤ maxSize) :
    (∀ ops : List Channel.Op, (∀ op ∈ ops, serviceOp op = true) → wire n (sched n s (ops.map .use)).2 = []) ↔ Idle c := by
  constructor
  · intro h
    refine Classical.byContradiction fun hi => ?_
    obtain ⟨op, h1, h2⟩ := underWay_sent (n := n) (s := s) ⟨hc, hn⟩ hi (by
      rintro o ho d (rfl | rfl)
      · exact hu d (.inl ho)
      · exact hu d (.inr ho))
    exact h2 (h [op] (by simpa using h1))
  · intro hi ops hops
    exact closed_uses ops ⟨hc, hn⟩ hcl hi hops

/-- A write was under way when the channel was closed: it is sent, a later one is not. -/
example :
    let s := (sched 1 { client := opened } [.use (.beginWrite [7]), .event {} (.binary (asc "li19ei1ee")), .event {} (.binary (asc "li14ei1ee"))]).1
    (s.obj 1).map underWay = some [.sendData [7]] ∧
    wire 1 (sched 1 s [.use (.beginWrite [1]), .use (.finishWrite 0), .use (.finishWrite 0)]).2 = [.sendData [7]] := by decide +kernel

/-- The channel is closed, opened anew, and the old service goes on writing. -/
example :
    let s := (sched 1 { client := opened } [.event {} (.binary (asc "li19ei1ee")), .event {} (.binary (asc "li14ei1ee"))]).1
    (∃ c, s.obj 1 = some c ∧ c.closed = true ∧ Idle c) ∧ WSClient.lookup 1 s.client.channels = some {} ∧
    wire 1 (sched 1 s [.use (.beginWrite [1]), .use (.finishWrite 0), .use .beginClose, .use .finishClose]).2 = [] := by
  refine ⟨⟨{ closed := true }, by decide +kernel, rfl, rfl, rfl, rfl⟩, by decide +kernel, by decide +kernel⟩

/-! ### C104 -/

/-- C104: every message that the client ever gives to the websocket, in any history, is the wire form of one of seven packets: join, identify, data,
pong, close, control, scan result, with values of the right types. -/
theorem c104_well_formed (hist : List (Env × Ev)) (m : Bytes) (hm : m ∈ sentOf (run {} hist).2) (hl : m.length ≤ maxSize) :
    ∃ num vals, Outgoing num vals ∧ IsMessage m num vals := by
  obtain ⟨n, vals, h1, h2⟩ := run_out {} hist m hm
  exact ⟨n, vals, h1, (flat_decoded (outgoing_flat h1) h2 hl).2⟩

example : sentOf (run {} [({}, .ready), ({}, .binary (asc "li9e3:abce")), ({}, .ready), ({}, .binary (asc "li7e1:xe"))]).2 =
    [asc "li1ee", asc "li2e3:abce", asc "li8e1:xe"] := by decide +kernel

/-! ### C105 -/

/-- C105: what the server receives on the channel of an echo service is at any moment the beginning of what it has sent to it, message by message. -/
theorem c105_prefix (n : Int) (cb : Nat) (s : EchoSys) (ms : List EchoMove) (hs : Serving n cb s.sys) (hc : s.callback = none)
    (hin : ∀ x ∈ s.inbox, Harmless n x.2) (hm : ∀ m ∈ ms, m.Fine n) (hz : Sized (echoSched n cb s ms).2) :
    wire n (echoSched n cb s ms).2 <+: (routed n s.inbox).map .sendData := by
  obtain ⟨c, h1, h2, h3⟩ := serving_live hs
  obtain ⟨c', new, h, hr⟩ := echo_sched (w := []) (all := []) ms h1 h3 (by rw [hc]; exact ⟨h2.1, rfl⟩) hin hm hz
  rw [List.nil_append, List.nil_append] at h
  rw [hr, List.map_append]
  refine List.IsPrefix.trans ?_ (List.prefix_append _ _)
  generalize (echoSched n cb s ms).1.callback = p at h
  cases p with
  | none => rw [h.2]; exact List.prefix_refl _
  | some p =>
    cases p with
    | none => obtain ⟨d, _, _, h⟩ := h; rw [← h]; exact List.prefix_append _ _
    | some d => rw [← h.2.2]; exact List.prefix_append _ _

/-- C105: when the receive thread has come to the end of what the server has sent, all of it has been sent back, each message once, in order; three
moves for each event suffice for that. -/
theorem c105_echoed (n : Int) (cb : Nat) (s : EchoSys) (ms : List EchoMove) (hs : Serving n cb s.sys) (hc : s.callback = none)
    (hin : ∀ x ∈ s.inbox, Harmless n x.2) (hm : ∀ m ∈ ms, m.Fine n) (hz : Sized (echoSched n cb s ms).2)
    (hlen : 3 * s.inbox.length ≤ ms.countP EchoMove.isReceive) :
    wire n (echoSched n cb s ms).2 = (routed n s.inbox).map .sendData := by
  obtain ⟨c, h1, h2, h3⟩ := serving_live hs
  obtain ⟨c', new, h, hr⟩ := echo_sched (w := []) (all := []) ms h1 h3 (by rw [hc]; exact ⟨h2.1, rfl⟩) hin hm hz
  rw [List.nil_append, List.nil_append] at h
  have hleft := echo_ends n cb s ms
  have h0 : echoLeft s = 3 * s.inbox.length := by simp [echoLeft, hc]
  rw [h0] at hleft
  have hz' : echoLeft (echoSched n cb s ms).1 = 0 := by omega
  simp only [echoLeft] at hz'
  have hi : (echoSched n cb s ms).1.inbox = [] := by
    cases hx : (echoSched n cb s ms).1.inbox with
    | nil => rfl
    | cons a b => rw [hx] at hz'; simp at hz'
  rw [hi] at hr
  rw [hr]
  generalize (echoSched n cb s ms).1.callback = p at h hz'
  cases p with
  | none => rw [h.2]; simp [routed]
  | some p => cases p <;> simp at hz'

/-- Channel 1 with an echo service, data for two channels, and another thread opening a channel in the middle of the callback. -/
def echoExample : EchoSys :=
  { sys := { client := (run {} [({}, .binary (asc "li14ei1ee")), ({}, .chanOp 1 (.setCallbacks (some 4) none none))]).1 },
    inbox := [({}, .binary (asc "li6ei1e2:abe")), ({}, .binary (asc "li6ei2e2:cde")), ({}, .binary (asc "li6ei1e1:ee"))] }

example : wire 1 (echoSched 1 4 echoExample [.receive, .receive, .other {} (.getChannel 3), .receive, .receive, .receive, .receive, .receive,
    .receive, .receive]).2 = [.sendData (asc "ab"), .sendData (asc "e")] ∧ routed 1 echoExample.inbox = [asc "ab", asc "e"] := by
  constructor <;> decide +kernel

/-! ### C106 -/

/-- C106: a message decodes to a value that has no more objects, bytes of byte strings and digits of integers together than the message has bytes. -/
theorem c106_no_amplification (data : Bytes) (v : PyVal) (h : Bencode.decode data = .ok v) : v.weight ≤ data.length := decode_weight h

example : (PyVal.list [.bytes (asc "abc"), .int (-12), .dict [(.bytes (asc "a"), .list [])]]).weight = 12 := by
  simp [PyVal.weight, weightList, weightItems, digits]
  decide +kernel

/-! ### C107 -/

/-- C107: on an open channel of a forwarded connection the server receives exactly the pieces that were taken from the local socket, in order,
as long as the thread is in its loop, and then the request to close. -/
theorem c107_up (accept : Nat → Option Nat) (n : Int) (cb ccb : Nat) (s : FwdSys) (ms : List FwdMove) (hs : Serving n cb s.sys)
    (hpc : s.pc = .loop) (hp : ∀ d ∈ s.incoming, d.length ≤ maxSize) (hin : ∀ x ∈ s.inbox, Harmless n x.2) (hm : ∀ m ∈ ms, m.Fine n)
    (hz : Sized (fwdSched accept n cb ccb s ms).2) :
    ∃ got, s.incoming = got ++ (fwdSched accept n cb ccb s ms).1.incoming ∧
      wire n (fwdSched accept n cb ccb s ms).2 <+: got.map .sendData ++ [.requestClose] ∧
      ((fwdSched accept n cb ccb s ms).1.pc = .loop → wire n (fwdSched accept n cb ccb s ms).2 = got.map .sendData) ∧
      ((fwdSched accept n cb ccb s ms).1.pc = .ended → wire n (fwdSched accept n cb ccb s ms).2 = got.map .sendData ++ [.requestClose]) := by
  obtain ⟨c, h1, h2, h3⟩ := serving_live hs
  obtain ⟨c', got, h, hg, _⟩ := fwd_sched (w := []) (got := []) (all := []) ms h1 h3 (by rw [hpc]; exact ⟨h2, rfl⟩) hp hin hm hz
  rw [List.nil_append, List.nil_append] at h
  refine ⟨got, hg, ?_, fun e => ?_, fun e => ?_⟩
  · generalize (fwdSched accept n cb ccb s ms).1.pc = pc at h
    cases pc with
    | loop => rw [h.2]; exact List.prefix_append _ _
    | writing d => rw [← h.2.2, List.append_assoc]; exact List.prefix_append _ _
    | sending => obtain ⟨d, _, _, _, _, h⟩ := h; rw [← h, List.append_assoc]; exact List.prefix_append _ _
    | closing => rw [h.2]; exact List.prefix_append _ _
    | requesting => rw [h.2.2.2]; exact List.prefix_append _ _
    | ended => rw [h.2]; exact List.prefix_refl _
  · rw [e] at h; exact h.2
  · rw [e] at h; exact h.2

/-- C107: and if the local socket accepts what it is given, it gets what the server has sent, in order, before, while and after the connection is
made; what is still missing waits in the buffer (and is sent with the next message, or when the connection is made, C38). -/
theorem c107_down (accept : Nat → Option Nat) (ha : ∀ k, accept k = none) (n : Int) (cb ccb : Nat) (s : FwdSys) (ms : List FwdMove)
    (hs : Serving n cb s.sys) (hw : s.wside = {}) (hpc : s.pc = .loop) (hp : ∀ d ∈ s.incoming, d.length ≤ maxSize)
    (hin : ∀ x ∈ s.inbox, Harmless n x.2) (hm : ∀ m ∈ ms, m.Fine n) (hz : Sized (fwdSched accept n cb ccb s ms).2) :
    let s' := (fwdSched accept n cb ccb s ms).1
    s'.wside.sent ++ s'.wside.buffer.flatten ++ (routed n s'.inbox).flatten = (routed n s.inbox).flatten := by
  obtain ⟨c, h1, h2, h3⟩ := serving_live hs
  obtain ⟨c', got, _, _, hd⟩ := fwd_sched (w := []) (got := []) (all := []) ms h1 h3 (by rw [hpc]; exact ⟨h2, rfl⟩) hp hin hm hz
  obtain ⟨new, g1, g2⟩ := hd ha (by rw [hw]; exact ⟨rfl, rfl⟩)
  show _ ++ _ ++ _ = _
  rw [g1, List.flatten_append, g2.2, List.nil_append]

/-- Both directions at once; data arrives before the connection is made. -/
def fwdExample : FwdSys :=
  { sys := { client := (run {} [({}, .binary (asc "li14ei1ee")), ({}, .chanOp 1 (.setCallbacks (some 4) (some 5) none))]).1 },
    inbox := [({}, .binary (asc "li6ei1e2:abe")), ({}, .binary (asc "li6ei2e2:cde")), ({}, .binary (asc "li6ei1e1:ee"))],
    incoming := [[1, 2], [3]] }

example :
    let r := fwdSched (fun _ => none) 1 4 5 fwdExample [.receive, .setSocket, .flush, .recv, .receive, .go, .receive, .go, .recv, .go, .go, .leave, .go, .go]
    wire 1 r.2 = [.sendData [1, 2], .sendData [3], .requestClose] ∧ r.1.wside.sent = asc "abe" ∧ r.1.pc = .ended := by
  refine ⟨?_, ?_, ?_⟩ <;> decide +kernel

/-! ### C108 -/

/-- C108 fails: the connection is lost while a service writes `[1]`, which is swallowed; the service begins to write `[2]`; the client is told of
the loss and connects anew; then `[2]` is sent and arrives, and the server has received `[2]` but not `[1]`. -/
theorem c108_counterexample :
    let ms : List LinkMove := [.lose, .move (.use (.beginWrite [1])), .move (.use (.finishWrite 0)), .move (.use (.beginWrite [2])),
      .move (.event {} .disconnected), .move (.event {} .ready), .move (.use (.finishWrite 0))]
    let r := linkSched 1 { client := opened } .up ms
    wire 1 r.1 = [.sendData [1], .sendData [2]] ∧ wire 1 r.2 = [.sendData [2]] := by decide +kernel

/-- C108 where it holds: if nobody is inside of a method of the channel whenever the client is told that the connection is gone, then whatever the
services do, and whenever connections are lost and made, the messages of the channel that reach the server are the beginning of those that were sent.
Missing for the full property: calls that span the end of a connection, `c108_counterexample`. -/
theorem c108_no_gap_partial (n : Int) (s : Sys) (hs : Ready n s) (ms : List LinkMove) (hm : ∀ m ∈ ms, m.Fine n) (hq : QuietLoss n s ms)
    (hz : Sized (linkSched n s .up ms).1) :
    wire n (linkSched n s .up ms).2 <+: wire n (linkSched n s .up ms).1 := by
  obtain ⟨c, h1, _, h3⟩ := ready_has hs
  refine link_up ms h1 ?_ ?_ hm hq hz
  · intro d hd; rw [hs.1] at hd; exact (nomatch hd)
  · exact ⟨by rw [h3.1]; simp, by rw [h3.2.1]; simp⟩

/-- One message arrives, the next is lost; after the new connection nothing is sent. -/
example :
    let ms : List LinkMove := [.move (.use (.beginWrite [0])), .move (.use (.finishWrite 0)), .lose, .move (.use (.beginWrite [1])),
      .move (.use (.finishWrite 0)), .move (.event {} .disconnected), .move (.event {} .ready), .move (.use (.beginWrite [2])), .move (.use (.finishWrite 0))]
    let r := linkSched 1 { client := opened } .up ms
    wire 1 r.1 = [.sendData [0], .sendData [1]] ∧ wire 1 r.2 = [.sendData [0]] := by decide +kernel

/-! ### C109 -/

/-- C109: whatever a service thread calls, in whatever order, and whatever happens meanwhile: what the server receives on the channel is the beginning
of the sequence of messages of these calls. -/
theorem c109_prefix (n : Int) (s : Sys) (script : List Call) (ms : List CallMove) (hs : Ready n s) (hk : ∀ k ∈ script, k.Small)
    (hm : ∀ m ∈ ms, m.Fine n) (hz : Sized (callSched n { sys := s, script := script } ms).2) :
    wire n (callSched n { sys := s, script := script } ms).2 <+: script.map Call.msg := by
  obtain ⟨c, h1, h2, h3⟩ := ready_has hs
  obtain ⟨c', _, ⟨_, h⟩, _⟩ := call_sched (s := { sys := s, script := script }) (w := []) (all := script.map Call.msg) ms h1
    ⟨by simpa [Under] using h3, by simp [h2]⟩ hk hm hz
  rw [List.nil_append] at h
  split at h
  · rcases h with h | h
    · exact h.2
    · exact ⟨_, h⟩
  · exact ⟨_, h⟩

/-- C109: if the channel is not ended, two steps of the thread for each call suffice, and then all the messages have been received. -/
theorem c109_all (n : Int) (s : Sys) (script : List Call) (ms : List CallMove) (hs : Ready n s) (hk : ∀ k ∈ script, k.Small)
    (hm : ∀ m ∈ ms, m.Fine n) (hz : Sized (callSched n { sys := s, script := script } ms).2) (hkeep : ∀ m ∈ ms, m.Keeps n)
    (hlen : 2 * script.length ≤ ms.countP CallMove.isThread) :
    wire n (callSched n { sys := s, script := script } ms).2 = script.map Call.msg := by
  obtain ⟨c, h1, h2, h3⟩ := ready_has hs
  obtain ⟨c', _, ⟨_, h⟩, hcl⟩ := call_sched (s := { sys := s, script := script }) (w := []) (all := script.map Call.msg) ms h1
    ⟨by simpa [Under] using h3, by simp [h2]⟩ hk hm hz
  have he := call_ends n { sys := s, script := script } ms (by simp)
  simp only [callLeft] at he
  rw [List.nil_append, (hcl hkeep).trans h2] at h
  have hnil : (callSched n { sys := s, script := script } ms).1.script = [] := by
    cases hx : (callSched n { sys := s, script := script } ms).1.script with
    | nil => rfl
    | cons a b =>
      have := he.1
      simp only [hx, List.length_cons, Bool.false_eq_true, if_false] at this
      split at this <;> omega
  rw [hnil] at h
  simpa using h

/-- Data, a control message and the request to close, with a ping in the middle of the second call; and the same with the channel closed by the server. -/
example : wire 1 (callSched 1 { sys := { client := opened }, script := [.write [1], .control [2], .close] }
    [.thread, .thread, .thread, .client {} (.binary (asc "li7e1:xe")), .thread, .thread, .thread]).2 =
    [.sendData [1], .sendControl [2], .requestClose] := by decide +kernel
example : wire 1 (callSched 1 { sys := { client := opened }, script := [.write [1], .control [2], .close] }
    [.thread, .thread, .thread, .client {} (.binary (asc "li19ei1ee")), .thread, .thread, .thread]).2 =
    [.sendData [1], .sendControl [2]] := by decide +kernel

/-! ### C110 -/

theorem data_calls (report : String → Bytes) (done : Option Int → Bytes) (acts : List Services.Act) :
    (dataOf ((serviceCalls report done acts).map Call.msg)).flatten = Services.written acts := by
  induction acts with
  | nil => rfl
  | cons a acts ih =>
    cases a <;> simp_all [serviceCalls, dataOf, Services.written, Call.msg]

/-- C110: the output of a command arrives at the server: at every moment the data received on the channel is the beginning of what was read from
the standard output. -/
theorem c110_prefix (env : Services.CmdEnv) (fuel : Nat) (report : String → Bytes) (done : Option Int → Bytes) (n : Int) (s : Sys)
    (ms : List CallMove) (hs : Ready n s) (hk : ∀ k ∈ serviceCalls report done (Services.cmdRun env fuel).1, k.Small) (hm : ∀ m ∈ ms, m.Fine n)
    (hz : Sized (callSched n { sys := s, script := serviceCalls report done (Services.cmdRun env fuel).1 } ms).2) :
    (dataOf (wire n (callSched n { sys := s, script := serviceCalls report done (Services.cmdRun env fuel).1 } ms).2)).flatten <+:
      Services.outputRead (Services.cmdRun env fuel).1 := by
  obtain ⟨t, ht⟩ := c109_prefix n s _ ms hs hk hm hz
  rw [← Services.c34_written, ← data_calls report done, ← ht]
  exact ⟨(dataOf t).flatten, by simp [dataOf]⟩

/-- C110: if the command could be started, the service has come to its end and the channel is not ended, then the server receives all the output,
after it the message with the return code, and last the request to close. -/
theorem c110_arrives (env : Services.CmdEnv) (fuel : Nat) (report : String → Bytes) (done : Option Int → Bytes) (n : Int) (s : Sys)
    (ms : List CallMove) (hp : env.popen = true) (he : (Services.cmdRun env fuel).2 = true)
    (hs : Ready n s) (hk : ∀ k ∈ serviceCalls report done (Services.cmdRun env fuel).1, k.Small) (hm : ∀ m ∈ ms, m.Fine n)
    (hz : Sized (callSched n { sys := s, script := serviceCalls report done (Services.cmdRun env fuel).1 } ms).2) (hkeep : ∀ m ∈ ms, m.Keeps n)
    (hlen : 2 * (serviceCalls report done (Services.cmdRun env fuel).1).length ≤ ms.countP CallMove.isThread) :
    ∃ front, wire n (callSched n { sys := s, script := serviceCalls report done (Services.cmdRun env fuel).1 } ms).2 =
        front ++ [.sendControl (done env.status1), .requestClose] ∧
      (dataOf front).flatten = Services.outputRead (Services.cmdRun env fuel).1 ∧
      ∀ o ∈ front, (∃ d, o = .sendData d) ∨ ∃ e, o = .sendControl (report e) := by
  have hall := c109_all n s _ ms hs hk hm hz hkeep hlen
  have hd := data_calls report done (Services.cmdRun env fuel).1
  rw [Services.c34_written] at hd
  obtain ⟨acts, ha, hacts⟩ := Services.c35_end_partial env fuel hp he
  have hc : (serviceCalls report done (Services.cmdRun env fuel).1).map Call.msg =
      (serviceCalls report done acts).map Call.msg ++ [.sendControl (done env.status1), .requestClose] := by
    rw [ha]
    split <;> simp [serviceCalls, Call.msg]
  rw [hall]
  refine ⟨_, hc, ?_, ?_⟩
  · rw [← hd, hc]; simp [dataOf]
  · intro o ho
    simp only [List.mem_map, serviceCalls, List.mem_filterMap] at ho
    obtain ⟨k, ⟨a, ha', hk'⟩, rfl⟩ := ho
    rcases hacts a ha' with ⟨d, b, rfl⟩ | ⟨d, rfl⟩ | ⟨d, rfl⟩ | ⟨e, rfl⟩
    · simp at hk'; subst hk'; exact .inl ⟨d, rfl⟩
    · simp at hk'
    · simp at hk'
    · simp at hk'; subst hk'; exact .inr ⟨e, rfl⟩

/-- Two pieces of output and one of the standard error, then the end of the output. -/
def cmdExample : Services.CmdEnv :=
  { popen := true, closed := fun _ => false, status1 := some 0, status2 := some 0,
    poll := fun k => if k = 0 then some [{ stdout := true, readable := true, error := false, read := .data [1, 2] },
        { stdout := false, readable := true, error := false, read := .data [9] }]
      else if k = 1 then some [{ stdout := true, readable := true, error := false, read := .data [3] }]
      else some [{ stdout := true, readable := true, error := false, read := .data [] }] }

example : serviceCalls (fun _ => []) (fun _ => [7]) (Services.cmdRun cmdExample 5).1 = [.write [1, 2], .write [3], .control [7], .close] ∧
    (Services.cmdRun cmdExample 5).2 = true := by decide +kernel

end Verif.Props
