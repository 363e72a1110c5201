import Verif.Proofs.Agent
import Verif.Props.System
/-!
C122-C124: file and command services that the server starts by instructions, many at a time, with one limiter: from the message with the instruction
to what the server receives on the channel named in it.
-/
namespace Verif.Agent
open Verif WSClient System
open _root_.Verif.Instructions (Asks Meant Done)

/-- The agent has come to a state by any history from its start, and a message is handled. -/
theorem launched (w : World) (limit : Nat) (before : List Move) (hb : ∀ m ∈ before, m.Small) (env : Env) (l : Launch) {m : Bytes} {n : Int}
    {op : Instructions.Op} {x : Done} (hm : Sent m op) (hx : Meant w.known op [x])
    (hh : (run w (init limit) before).1.client.hung = false) (hf : Free n (run w (init limit) before).1) (prog : Prog) (refusal : List Call)
    (hbg : begun w l (run w (init limit) before).1 x = begin (run w (init limit) before).1 n l.ok prog refusal) (ms : List Move)
    (hfine : ∀ m ∈ ms, m.Fine n) (p : Prog)
    (hp : p = if (Limiter.launch (run w (init limit) before).1.lim l.ok).2 then prog else .calls refusal false)
    (hz : Sized (run w (run w (init limit) before).1 (.event env (.binary m) l :: ms)).2) :
    ∃ sys os, Ready n sys ∧ Steps w n (run w (init limit) before).1.svcs.length (∀ m ∈ ms, m.Keeps n)
      (∀ m ∈ ms, m.ok (run w (init limit) before).1.svcs.length = true) (ms.countP (Move.isThread (run w (init limit) before).1.svcs.length))
      (run w (run w (init limit) before).1 (.event env (.binary m) l :: ms)).2 (run w (run w (init limit) before).1 (.event env (.binary m) l :: ms)).1
      ⟨sys, p⟩ os := by
  have hk : (keys (run w (init limit) before).1.client.channels).Nodup := run_keys' w (init limit) before hb (by simp [init, keys])
  generalize (run w (init limit) before).1 = s at *
  obtain ⟨hl, sender, d, surplus, hd, hkeys, ha⟩ := hm
  have h1 := launch_move w s env l hh hl hd hkeys ha hx
  rw [hbg] at h1
  obtain ⟨g1, g2⟩ := launch_sim w s n l.ok prog refusal hk hf p hp
  simp only [run, sized_append] at hz
  have hw := launch_wire w s env l m n hz.1
  rw [h1] at hz
  obtain ⟨os, k1, k2, k3, k4, k5, k6, k7⟩ := run_sim w ms g1 hfine hz.2
  refine ⟨_, os, g2, ⟨?_, ?_, k3, k4, k5, k6, k7⟩⟩
  · simp only [run, h1]; exact k1
  · simp only [run, wire_append, hw, List.nil_append, h1]; exact k2

theorem free_slot (w : World) (limit : Nat) (before : List Move) (hs : slots (run w (init limit) before).1 < limit) :
    (Limiter.launch (run w (init limit) before).1.lim true).2 = true := by
  obtain ⟨h1, h2, _⟩ := run_counts w before (init_counts limit)
  rw [launch_ok (by omega)]

theorem no_slot (w : World) (limit : Nat) (before : List Move) (ok : Bool) (hs : ok = false ∨ slots (run w (init limit) before).1 = limit) :
    (Limiter.launch (run w (init limit) before).1.lim ok).2 = false := by
  obtain ⟨h1, h2, h3⟩ := run_counts w before (init_counts limit)
  rcases launch_cases (run w (init limit) before).1.lim ok (by omega) with e | ⟨e, hlt⟩
  · rw [e]
  · rcases hs with rfl | hs
    · exfalso
      have : (Limiter.launch (run w (init limit) before).1.lim false).2 = false := by
        simp only [Limiter.launch, Bool.false_eq_true, if_false]
        split
        · rfl
        · split <;> rfl
      rw [e] at this
      exact nomatch this
    · omega

/-! ### C122 -/

/-- C122: after the server has asked for a file on a free channel, it receives on that channel the beginning of that file, then at most one error
report, then at most one request to close: whatever other services it has asked for, whatever they do meanwhile and whatever fails. -/
theorem c122_file (w : World) (limit : Nat) (before : List Move) (hb : ∀ m ∈ before, m.Small) (n : Int) (path : Text) (m : Bytes)
    (hm : Sent m (.readFile (.int n) (.text path))) (content : Bytes) (hc : w.fs (Services.absPath path) = .file content)
    (hr : ∀ f, (w.report f).length ≤ maxSize) (env : Env) (l : Launch) (ms : List Move) :
    let s := (run w (init limit) before).1
    s.client.hung = false → Free n s → slots s < limit → l.ok = true → (∀ m ∈ ms, m.Fine n) →
    Sized (run w s (.event env (.binary m) l :: ms)).2 →
    ∃ (ds : List Bytes) (ctl cl : List Channel.Out), wire n (run w s (.event env (.binary m) l :: ms)).2 = ds.map .sendData ++ ctl ++ cl ∧
      ds.flatten <+: content ∧ (ctl = [] ∨ ∃ r, ctl = [.sendControl r]) ∧ (cl = [] ∨ cl = [.requestClose]) := by
  intro s hh hf hs hl hfine hz
  have hp : Prog.file path .opening = if (Limiter.launch s.lim l.ok).2 then Prog.file path .opening else
      .calls [.write Services.serverBusy, .close] false := by rw [hl, free_slot w limit before hs]; rfl
  obtain ⟨sys, os, g1, g2, g3, g4, g5, g6, g7, g8⟩ := launched w limit before hb env l hm .readFile hh hf _ _ rfl ms hfine _ hp hz
  obtain ⟨fs, k1, k2, _⟩ := own_file w n path os ⟨sys, .opening⟩
  have hcont : w.content path = content := by simp only [World.content, hc]
  rw [g3, k1]
  rw [k1] at g4
  rw [hcont] at g4 ⊢
  exact Props.c102_prefix n content w.report ⟨sys, .opening⟩ fs rfl g1 hr (k2 g5) g4

/-- C122: if nothing fails and the channel is not ended, then after enough statements of the service the server has received the whole file, in pieces
of at most 1 MiB, none of them empty, followed by the request to close and nothing else. -/
theorem c122_arrives (w : World) (limit : Nat) (before : List Move) (hb : ∀ m ∈ before, m.Small) (n : Int) (path : Text) (m : Bytes)
    (hm : Sent m (.readFile (.int n) (.text path))) (content : Bytes) (hc : w.fs (Services.absPath path) = .file content)
    (hr : ∀ f, (w.report f).length ≤ maxSize) (env : Env) (l : Launch) (ms : List Move) :
    let s := (run w (init limit) before).1
    s.client.hung = false → Free n s → slots s < limit → l.ok = true → (∀ m ∈ ms, m.Fine n) →
    Sized (run w s (.event env (.binary m) l :: ms)).2 →
    (∀ m ∈ ms, m.Keeps n) → (∀ m ∈ ms, m.ok s.svcs.length = true) → 4 * content.length + 6 ≤ ms.countP (Move.isThread s.svcs.length) →
    ∃ ds : List Bytes, wire n (run w s (.event env (.binary m) l :: ms)).2 = ds.map .sendData ++ [.requestClose] ∧ ds.flatten = content ∧
      ∀ d ∈ ds, d ≠ [] ∧ d.length ≤ 1048576 := by
  intro s hh hf hs hl hfine hz hkeep hok hlen
  have hp : Prog.file path .opening = if (Limiter.launch s.lim l.ok).2 then Prog.file path .opening else
      .calls [.write Services.serverBusy, .close] false := by rw [hl, free_slot w limit before hs]; rfl
  obtain ⟨sys, os, g1, g2, g3, g4, g5, g6, g7, g8⟩ := launched w limit before hb env l hm .readFile hh hf _ _ rfl ms hfine _ hp hz
  obtain ⟨fs, k1, k2, k3, k4, k5⟩ := own_file w n path os ⟨sys, .opening⟩
  have hcont : w.content path = content := by simp only [World.content, hc]
  rw [g3, k1]
  rw [k1] at g4
  rw [hcont] at g4 ⊢
  exact Props.c102_arrives n content w.report ⟨sys, .opening⟩ fs rfl g1 hr (k2 g5) g4 (k3 (g6 hkeep)) (k4 (g7 hok) ⟨content, hc⟩)
    (Props.c102_ends n content w.report ⟨sys, .opening⟩ fs rfl (by rw [k5, g8]; exact hlen))

/-- C122: if the file can not be opened, the server receives the error report and the request to close, and never anything else. -/
theorem c122_missing (w : World) (limit : Nat) (before : List Move) (hb : ∀ m ∈ before, m.Small) (n : Int) (path : Text) (m : Bytes)
    (hm : Sent m (.readFile (.int n) (.text path))) (f : Services.Fail) (hc : w.fs (Services.absPath path) = .raises f) (hne : f ≠ .webSocket)
    (hr : ∀ f, (w.report f).length ≤ maxSize) (env : Env) (l : Launch) (ms : List Move) :
    let s := (run w (init limit) before).1
    s.client.hung = false → Free n s → slots s < limit → l.ok = true → (∀ m ∈ ms, m.Fine n) →
    Sized (run w s (.event env (.binary m) l :: ms)).2 →
    wire n (run w s (.event env (.binary m) l :: ms)).2 <+: [.sendControl (w.report f), .requestClose] ∧
    ((∀ m ∈ ms, m.Keeps n) → 5 ≤ ms.countP (Move.isThread s.svcs.length) →
      wire n (run w s (.event env (.binary m) l :: ms)).2 = [.sendControl (w.report f), .requestClose]) := by
  intro s hh hf hs hl hfine hz
  have hp : Prog.file path .opening = if (Limiter.launch s.lim l.ok).2 then Prog.file path .opening else
      .calls [.write Services.serverBusy, .close] false := by rw [hl, free_slot w limit before hs]; rfl
  obtain ⟨sys, os, g1, g2, g3, g4, g5, g6, g7, g8⟩ := launched w limit before hb env l hm .readFile hh hf _ _ rfl ms hfine _ hp hz
  obtain ⟨cs, k1, k2, k3, k4⟩ := fails_own w n path f hc os ⟨sys, .opening⟩ ⟨sys, [.control (w.report f), .close], false⟩ rfl hne (.inl ⟨rfl, rfl, rfl⟩)
  simp only at k1 k4
  rw [g3, k1]
  rw [k1] at g4
  have hsmall : ∀ k ∈ [Call.control (w.report f), .close], k.Small := by
    intro k hk
    simp only [List.mem_cons, List.not_mem_nil, or_false] at hk
    rcases hk with rfl | rfl
    · exact hr f
    · trivial
  refine ⟨Props.c109_prefix n sys _ cs g1 hsmall (k2 g5) g4, fun hkeep hlen => ?_⟩
  refine Props.c109_all n sys _ cs g1 hsmall (k2 g5) g4 (k3 (g6 hkeep)) ?_
  have hlen' : 5 ≤ ms.countP (Move.isThread (run w (init limit) before).1.svcs.length) := hlen
  rw [g8] at k4
  simp only [if_true, List.length_cons, List.length_nil] at k4 ⊢
  omega

/-- C122: if the path is not a text, the server receives one error report and nothing else: in particular no request to close (C33). -/
theorem c122_no_text (w : World) (limit : Nat) (before : List Move) (hb : ∀ m ∈ before, m.Small) (n : Int) (path : PyVal) (m : Bytes)
    (hm : Sent m (.readFile (.int n) path)) (hpath : ∀ t, path ≠ .text t) (hr : ∀ f, (w.report f).length ≤ maxSize) (env : Env) (l : Launch)
    (ms : List Move) :
    let s := (run w (init limit) before).1
    s.client.hung = false → Free n s → slots s < limit → l.ok = true → (∀ m ∈ ms, m.Fine n) →
    Sized (run w s (.event env (.binary m) l :: ms)).2 →
    wire n (run w s (.event env (.binary m) l :: ms)).2 <+: [.sendControl (w.report .other)] ∧
    ((∀ m ∈ ms, m.Keeps n) → 2 ≤ ms.countP (Move.isThread s.svcs.length) →
      wire n (run w s (.event env (.binary m) l :: ms)).2 = [.sendControl (w.report .other)]) := by
  intro s hh hf hs hl hfine hz
  have hprog : fileProg w path = .calls [.control (w.report .other)] false := by
    cases path with
    | text t => exact absurd rfl (hpath t)
    | _ => rfl
  have hp : Prog.calls [.control (w.report .other)] false = if (Limiter.launch s.lim l.ok).2 then fileProg w path else
      .calls [.write Services.serverBusy, .close] false := by rw [hl, free_slot w limit before hs, hprog]; rfl
  obtain ⟨sys, os, g1, g2, g3, g4, g5, g6, g7, g8⟩ := launched w limit before hb env l hm .readFile hh hf _ _ rfl ms hfine _ hp hz
  obtain ⟨cs, k1, k2, k3, k4⟩ := own_calls w n os ⟨sys, [.control (w.report .other)], false⟩
  rw [g3, k1]
  rw [k1] at g4
  have hsmall : ∀ k ∈ [Call.control (w.report .other)], k.Small := by
    intro k hk
    rw [List.mem_singleton.1 hk]
    exact hr .other
  refine ⟨Props.c109_prefix n sys _ cs g1 hsmall (k2 g5) g4, fun hkeep hlen => ?_⟩
  refine Props.c109_all n sys _ cs g1 hsmall (k2 g5) g4 (k3 (g6 hkeep)) ?_
  rw [k4, g8]
  exact hlen

/-- C122: if all slots are taken, or the thread can not be started, the server receives on that channel the message SERVER_BUSY and the request to
close. -/
theorem c122_busy (w : World) (limit : Nat) (before : List Move) (hb : ∀ m ∈ before, m.Small) (n : Int) (path : PyVal) (m : Bytes)
    (hm : Sent m (.readFile (.int n) path)) (env : Env) (l : Launch) (ms : List Move) :
    let s := (run w (init limit) before).1
    s.client.hung = false → Free n s → l.ok = false ∨ slots s = limit → (∀ m ∈ ms, m.Fine n) →
    Sized (run w s (.event env (.binary m) l :: ms)).2 →
    wire n (run w s (.event env (.binary m) l :: ms)).2 <+: [.sendData Services.serverBusy, .requestClose] ∧
    ((∀ m ∈ ms, m.Keeps n) → 4 ≤ ms.countP (Move.isThread s.svcs.length) →
      wire n (run w s (.event env (.binary m) l :: ms)).2 = [.sendData Services.serverBusy, .requestClose]) := by
  intro s hh hf hs hfine hz
  have hp : Prog.calls [.write Services.serverBusy, .close] false = if (Limiter.launch s.lim l.ok).2 then fileProg w path else
      .calls [.write Services.serverBusy, .close] false := by rw [no_slot w limit before l.ok hs]; rfl
  obtain ⟨sys, os, g1, g2, g3, g4, g5, g6, g7, g8⟩ := launched w limit before hb env l hm .readFile hh hf _ _ rfl ms hfine _ hp hz
  obtain ⟨cs, k1, k2, k3, k4⟩ := own_calls w n os ⟨sys, [.write Services.serverBusy, .close], false⟩
  rw [g3, k1]
  rw [k1] at g4
  have hsmall : ∀ k ∈ [Call.write Services.serverBusy, .close], k.Small := by
    intro k hk
    simp only [List.mem_cons, List.not_mem_nil, or_false] at hk
    rcases hk with rfl | rfl
    · simp only [Call.Small]; decide +kernel
    · trivial
  refine ⟨Props.c109_prefix n sys _ cs g1 hsmall (k2 g5) g4, fun hkeep hlen => ?_⟩
  refine Props.c109_all n sys _ cs g1 hsmall (k2 g5) g4 (k3 (g6 hkeep)) ?_
  rw [k4, g8]
  exact hlen

/-! ### Cases -/

/-- Two small files; every other one is missing. -/
def exWorld : World where
  fs path := if path = ['/', 'a'] then .file (asc "hello") else if path = ['/', 'b'] then .file (asc "world") else .raises .io
  report _ := asc "missing"
  known := Instructions.worldAt 2

/-- The server asks for the file `/a` on channel 1. -/
def askA : Bytes := asc "li16e0:d6:action9:read-file4:path2:/a4:porti1eee"
/-- It asks for `b` on channel 2. -/
def askB : Bytes := asc "li16e0:d6:action9:read-file4:path1:b4:porti2eee"
/-- It asks for a file that is not there. -/
def askC : Bytes := asc "li16e0:d6:action9:read-file4:path2:/c4:porti1eee"
/-- It asks for a command on channel 3. -/
def askRun : Bytes := asc "li16e0:d6:action11:run-command7:command2:ls4:porti3eee"

theorem has_last (d : List (PyVal × PyVal)) (k : String) (key : Bytes) (v : PyVal) (hk : utf8DecodeIgnore key = k.toList) :
    Instructions.Has (d ++ [(.bytes key, v)]) k (Instructions.readable v) :=
  ⟨d, key, v, [], rfl, hk, (fun _ _ h => nomatch h), rfl⟩

theorem sent_askA : Sent askA (.readFile (.int 1) (.text ['/', 'a'])) := by
  refine ⟨by decide +kernel, [], [(.bytes (asc "action"), .bytes (asc "read-file")), (.bytes (asc "path"), .bytes (asc "/a")),
    (.bytes (asc "port"), .int 1)], [], by decide +kernel, ?_, .readFile ?_ ?_ ?_⟩
  · intro x hx
    simp only [List.mem_cons, List.not_mem_nil, or_false] at hx
    rcases hx with rfl | rfl | rfl <;> exact ⟨_, rfl⟩
  · refine ⟨[], asc "action", .bytes (asc "read-file"), _, rfl, by decide +kernel, ?_, by decide +kernel⟩
    intro key' w' h
    simp only [List.mem_cons, Prod.mk.injEq, PyVal.bytes.injEq, List.not_mem_nil, or_false] at h
    rcases h with ⟨rfl, _⟩ | ⟨rfl, _⟩ <;> decide +kernel
  · exact has_last [(.bytes (asc "action"), .bytes (asc "read-file")), (.bytes (asc "path"), .bytes (asc "/a"))] "port" (asc "port") (.int 1)
      (by decide +kernel)
  · refine ⟨[_], asc "path", .bytes (asc "/a"), _, rfl, by decide +kernel, ?_, by decide +kernel⟩
    intro key' w' h
    simp only [List.mem_cons, Prod.mk.injEq, PyVal.bytes.injEq, List.not_mem_nil, or_false] at h
    obtain ⟨rfl, _⟩ := h
    decide +kernel

/-- Two files are asked for; both services run at the same time, then the first file arrives whole, and so does the second. -/
def both : List Move := [.event {} (.binary askA) {}, .event {} (.binary askB) {}] ++
  (List.replicate 26 [Move.thread 1 none, .thread 0 none]).flatten

example : wire 1 (run exWorld (init 2) both).2 = [.sendData (asc "hello"), .requestClose] ∧
    wire 2 (run exWorld (init 2) both).2 = [.sendData (asc "world"), .requestClose] ∧ slots (run exWorld (init 2) both).1 = 0 ∧
    slots (run exWorld (init 2) (both.take 10)).1 = 2 := by decide +kernel

/-- With one slot the second is refused. -/
example : wire 1 (run exWorld (init 1) both).2 = [.sendData (asc "hello"), .requestClose] ∧
    wire 2 (run exWorld (init 1) both).2 = [.sendData Services.serverBusy, .requestClose] ∧
    (run exWorld (init 1) both).1.lim.value = 0 := by decide +kernel

/-- A file that is not there. -/
example : wire 1 (run exWorld (init 1) (.event {} (.binary askC) {} :: List.replicate 6 (.thread 0 none))).2 =
    [.sendControl (asc "missing"), .requestClose] := by decide +kernel

/-- A path that is a number; and the same if the server closes the channel first. -/
example : wire 1 (run exWorld (init 1) (.event {} (.binary (asc "li16e0:d6:action9:read-file4:pathi7e4:porti1eee")) {} ::
      List.replicate 6 (.thread 0 none))).2 = [.sendControl (asc "missing")] ∧
    wire 1 (run exWorld (init 1) (.event {} (.binary (asc "li16e0:d6:action9:read-file4:pathi7e4:porti1eee")) {} ::
      .event {} (.binary (asc "li19ei1ee")) {} :: List.replicate 6 (.thread 0 none))).2 = [] := by decide +kernel

/-- A channel that is not free: if the server asks for two files on one channel, they are sent both. -/
example : wire 1 (run exWorld (init 2) ([.event {} (.binary askA) {}, .event {} (.binary askA) {}] ++ List.replicate 9 (.thread 0 none) ++
    List.replicate 9 (.thread 1 none))).2 = [.sendData (asc "hello"), .requestClose, .sendData (asc "hello"), .requestClose] := by decide +kernel

/-- A command, while a file is sent. -/
example : wire 3 (run exWorld (init 2) (.event {} (.binary askRun) { script := [.write (asc "out"), .control (asc "0"), .close] } ::
    .event {} (.binary askA) {} :: (List.replicate 8 [Move.thread 1 none, .thread 0 none]).flatten)).2 =
    [.sendData (asc "out"), .sendControl (asc "0"), .requestClose] := by decide +kernel

theorem decoded_askB : decoded askB = .int 16 :: .bytes [] :: .dict [(.bytes (asc "action"), .bytes (asc "read-file")),
    (.bytes (asc "path"), .bytes (asc "b")), (.bytes (asc "port"), .int 2)] :: [] := by decide +kernel

/-- The hypotheses of `c122_arrives` can be met. -/
example : ∃ ds : List Bytes, wire 1 (run exWorld (init 2) (.event {} (.binary askA) {} :: (.event {} (.binary askB) {} ::
      (List.replicate 26 [Move.thread 1 none, .thread 0 none]).flatten))).2 = ds.map .sendData ++ [.requestClose] ∧ ds.flatten = asc "hello" ∧
    ∀ d ∈ ds, d ≠ [] ∧ d.length ≤ 1048576 := by
  have hmem : ∀ m ∈ Move.event {} (.binary askB) {} :: (List.replicate 26 [Move.thread 1 none, .thread 0 none]).flatten,
      m = .event {} (.binary askB) {} ∨ m = .thread 1 none ∨ m = .thread 0 none := by
    intro m hm
    rcases List.mem_cons.1 hm with rfl | hm
    · exact .inl rfl
    · obtain ⟨l, hl, hm⟩ := List.mem_flatten.1 hm
      rw [List.eq_of_mem_replicate hl] at hm
      simp only [List.mem_cons, List.not_mem_nil, or_false] at hm
      exact .inr hm
  refine c122_arrives exWorld 2 [] (fun _ h => nomatch h) 1 ['/', 'a'] askA sent_askA (asc "hello") (by decide +kernel) ?_ {} {} _ rfl ?_ (by decide +kernel)
    rfl ?_ ?_ ?_ ?_ (by decide +kernel)
  · intro f; simp only [exWorld]; decide +kernel
  · exact ⟨fun _ h => (nomatch h), fun _ h => (nomatch h)⟩
  · intro m hm
    rcases hmem m hm with rfl | rfl | rfl
    · refine ⟨⟨fun _ h => (nomatch h), fun data h => ?_⟩, ?_⟩
      · injection h with h
        subst h
        decide +kernel
      · rintro ⟨sender, d, v, h1, h2⟩
        have h3 : Instructions.requestIn (.binary askB) = some (.instruction [] [(.bytes (asc "action"), .bytes (asc "read-file")),
          (.bytes (asc "path"), .bytes (asc "b")), (.bytes (asc "port"), .int 2)]) :=
          Instructions.requestOf_list askB (.instruction [] _) [] decoded_askB
        rw [h3] at h1
        injection h1 with h1
        injection h1 with _ h1
        subst h1
        have hport : ∀ v, Instructions.Has [(.bytes (asc "action"), .bytes (asc "read-file")), (.bytes (asc "path"), .bytes (asc "b")),
            (.bytes (asc "port"), .int 2)] "port" v → v = .int 2 := by
          rintro v ⟨pre, key, x, post, e, hk, hp, rfl⟩
          have hmem := List.mem_append_right pre (List.mem_cons_self (a := (PyVal.bytes key, x)) (l := post))
          rw [← e] at hmem
          simp only [List.mem_cons, Prod.mk.injEq, PyVal.bytes.injEq, List.not_mem_nil, or_false] at hmem
          rcases hmem with ⟨rfl, _⟩ | ⟨rfl, _⟩ | ⟨_, rfl⟩
          · exact absurd hk (by decide +kernel)
          · exact absurd hk (by decide +kernel)
          · rfl
        rcases h2 with h2 | h2
        · cases h2 with
          | readFile _ h5 _ => exact absurd (PyVal.int.inj (hport _ h5)) (by decide)
        · cases h2 with
          | runCommand _ h5 _ => exact absurd (PyVal.int.inj (hport _ h5)) (by decide)
    · trivial
    · trivial
  · intro x hx
    revert x
    decide +kernel
  · intro m hm
    rcases hmem m hm with rfl | rfl | rfl
    · rintro (h | ⟨data, h, hc⟩)
      · exact nomatch h
      · injection h with h
        subst h
        rcases hc with ⟨surplus, h⟩ | ⟨b, r, h, _⟩
        · rw [decoded_askB] at h
          injection h with h
          exact absurd (PyVal.int.inj h) (by decide)
        · have : decodedBytes askB = [] := by decide +kernel
          rw [this] at h
          exact nomatch h
    · trivial
    · trivial
  · intro m hm
    rcases hmem m hm with rfl | rfl | rfl <;> rfl

/-! ### C123 -/

/-- C123: after the server has asked for a command on a free channel, what it receives there is the beginning of what the thread of the service sends,
and all of it once the thread has done it if the channel is not ended. -/
theorem c123_calls (w : World) (limit : Nat) (before : List Move) (hb : ∀ m ∈ before, m.Small) (n : Int) (command : PyVal) (m : Bytes)
    (hm : Sent m (.runCommand (.int n) command)) (env : Env) (l : Launch) (hk : ∀ k ∈ l.script, k.Small) (ms : List Move) :
    let s := (run w (init limit) before).1
    s.client.hung = false → Free n s → slots s < limit → l.ok = true → (∀ m ∈ ms, m.Fine n) →
    Sized (run w s (.event env (.binary m) l :: ms)).2 →
    wire n (run w s (.event env (.binary m) l :: ms)).2 <+: l.script.map Call.msg ∧
    ((∀ m ∈ ms, m.Keeps n) → 2 * l.script.length ≤ ms.countP (Move.isThread s.svcs.length) →
      wire n (run w s (.event env (.binary m) l :: ms)).2 = l.script.map Call.msg) := by
  intro s hh hf hs hl hfine hz
  have hp : Prog.calls l.script false = if (Limiter.launch s.lim l.ok).2 then Prog.calls l.script false else
      .calls [.control l.error, .close] false := by rw [hl, free_slot w limit before hs]; rfl
  obtain ⟨sys, os, g1, g2, g3, g4, g5, g6, g7, g8⟩ := launched w limit before hb env l hm .runCommand hh hf _ _ rfl ms hfine _ hp hz
  obtain ⟨cs, k1, k2, k3, k4⟩ := own_calls w n os ⟨sys, l.script, false⟩
  rw [g3, k1]
  rw [k1] at g4
  refine ⟨Props.c109_prefix n sys _ cs g1 hk (k2 g5) g4, fun hkeep hlen => ?_⟩
  refine Props.c109_all n sys _ cs g1 hk (k2 g5) g4 (k3 (g6 hkeep)) ?_
  rw [k4, g8]
  exact hlen

/-- C123: if the service runs a command, then at every moment the data received on the channel is the beginning of its standard output. -/
theorem c123_output (w : World) (limit : Nat) (before : List Move) (hb : ∀ m ∈ before, m.Small) (n : Int) (command : PyVal) (m : Bytes)
    (hm : Sent m (.runCommand (.int n) command)) (env : Env) (l : Launch) (cmd : Services.CmdEnv) (fuel : Nat) (report : String → Bytes)
    (done : Option Int → Bytes) (hl : l.script = serviceCalls report done (Services.cmdRun cmd fuel).1)
    (hk : ∀ k ∈ serviceCalls report done (Services.cmdRun cmd fuel).1, k.Small) (ms : List Move) :
    let s := (run w (init limit) before).1
    s.client.hung = false → Free n s → slots s < limit → l.ok = true → (∀ m ∈ ms, m.Fine n) →
    Sized (run w s (.event env (.binary m) l :: ms)).2 →
    (dataOf (wire n (run w s (.event env (.binary m) l :: ms)).2)).flatten <+: Services.outputRead (Services.cmdRun cmd fuel).1 := by
  intro s hh hf hs hlo hfine hz
  have hp : Prog.calls l.script false = if (Limiter.launch s.lim l.ok).2 then Prog.calls l.script false else
      .calls [.control l.error, .close] false := by rw [hlo, free_slot w limit before hs]; rfl
  obtain ⟨sys, os, g1, g2, g3, g4, g5, g6, g7, g8⟩ := launched w limit before hb env l hm .runCommand hh hf _ _ rfl ms hfine _ hp hz
  rw [hl] at g3 g4
  obtain ⟨cs, k1, k2, k3, k4⟩ := own_calls w n os ⟨sys, serviceCalls report done (Services.cmdRun cmd fuel).1, false⟩
  rw [g3, k1]
  rw [k1] at g4
  exact Props.c110_prefix cmd fuel report done n sys cs g1 hk (k2 g5) g4

/-- C123: if the command could be started and has ended, the thread has done its work and the channel is not ended, the server has received all the
output, after it the message with the return code, and last the request to close. -/
theorem c123_arrives (w : World) (limit : Nat) (before : List Move) (hb : ∀ m ∈ before, m.Small) (n : Int) (command : PyVal) (m : Bytes)
    (hm : Sent m (.runCommand (.int n) command)) (env : Env) (l : Launch) (cmd : Services.CmdEnv) (fuel : Nat) (report : String → Bytes)
    (done : Option Int → Bytes) (hl : l.script = serviceCalls report done (Services.cmdRun cmd fuel).1)
    (hk : ∀ k ∈ serviceCalls report done (Services.cmdRun cmd fuel).1, k.Small)
    (hpo : cmd.popen = true) (he : (Services.cmdRun cmd fuel).2 = true) (ms : List Move) :
    let s := (run w (init limit) before).1
    s.client.hung = false → Free n s → slots s < limit → l.ok = true → (∀ m ∈ ms, m.Fine n) →
    Sized (run w s (.event env (.binary m) l :: ms)).2 →
    (∀ m ∈ ms, m.Keeps n) → 2 * l.script.length ≤ ms.countP (Move.isThread s.svcs.length) →
    ∃ front, wire n (run w s (.event env (.binary m) l :: ms)).2 = front ++ [.sendControl (done cmd.status1), .requestClose] ∧
      (dataOf front).flatten = Services.outputRead (Services.cmdRun cmd fuel).1 ∧
      ∀ o ∈ front, (∃ d, o = .sendData d) ∨ ∃ e, o = .sendControl (report e) := by
  intro s hh hf hs hlo hfine hz hkeep hlen
  have hp : Prog.calls l.script false = if (Limiter.launch s.lim l.ok).2 then Prog.calls l.script false else
      .calls [.control l.error, .close] false := by rw [hlo, free_slot w limit before hs]; rfl
  obtain ⟨sys, os, g1, g2, g3, g4, g5, g6, g7, g8⟩ := launched w limit before hb env l hm .runCommand hh hf _ _ rfl ms hfine _ hp hz
  rw [hl] at g3 g4 hlen
  obtain ⟨cs, k1, k2, k3, k4⟩ := own_calls w n os ⟨sys, serviceCalls report done (Services.cmdRun cmd fuel).1, false⟩
  rw [g3, k1]
  rw [k1] at g4
  exact Props.c110_arrives cmd fuel report done n sys cs hpo he g1 hk (k2 g5) g4 (k3 (g6 hkeep)) (by rw [k4, g8]; exact hlen)

/-- C123: if all slots are taken, or the thread can not be started, the server receives an error message and the request to close. -/
theorem c123_busy (w : World) (limit : Nat) (before : List Move) (hb : ∀ m ∈ before, m.Small) (n : Int) (command : PyVal) (m : Bytes)
    (hm : Sent m (.runCommand (.int n) command)) (env : Env) (l : Launch) (he : l.error.length ≤ maxSize) (ms : List Move) :
    let s := (run w (init limit) before).1
    s.client.hung = false → Free n s → l.ok = false ∨ slots s = limit → (∀ m ∈ ms, m.Fine n) →
    Sized (run w s (.event env (.binary m) l :: ms)).2 →
    wire n (run w s (.event env (.binary m) l :: ms)).2 <+: [.sendControl l.error, .requestClose] ∧
    ((∀ m ∈ ms, m.Keeps n) → 4 ≤ ms.countP (Move.isThread s.svcs.length) →
      wire n (run w s (.event env (.binary m) l :: ms)).2 = [.sendControl l.error, .requestClose]) := by
  intro s hh hf hs hfine hz
  have hp : Prog.calls [.control l.error, .close] false = if (Limiter.launch s.lim l.ok).2 then Prog.calls l.script false else
      .calls [.control l.error, .close] false := by rw [no_slot w limit before l.ok hs]; rfl
  obtain ⟨sys, os, g1, g2, g3, g4, g5, g6, g7, g8⟩ := launched w limit before hb env l hm .runCommand hh hf _ _ rfl ms hfine _ hp hz
  obtain ⟨cs, k1, k2, k3, k4⟩ := own_calls w n os ⟨sys, [.control l.error, .close], false⟩
  rw [g3, k1]
  rw [k1] at g4
  have hsmall : ∀ k ∈ [Call.control l.error, .close], k.Small := by
    intro k hk
    simp only [List.mem_cons, List.not_mem_nil, or_false] at hk
    rcases hk with rfl | rfl
    · exact he
    · trivial
  refine ⟨Props.c109_prefix n sys _ cs g1 hsmall (k2 g5) g4, fun hkeep hlen => ?_⟩
  refine Props.c109_all n sys _ cs g1 hsmall (k2 g5) g4 (k3 (g6 hkeep)) ?_
  rw [k4, g8]
  exact hlen

/-! ### C124 -/

/-- C124: in every history the value of the limiter is the number of slots that services hold, and there are never more of them than the limit. -/
theorem c124_limit (w : World) (limit : Nat) (ms : List Move) :
    let s := (run w (init limit) ms).1
    s.lim.value = slots s ∧ slots s ≤ limit := by
  obtain ⟨_, h2, h3⟩ := run_counts w ms (init_counts limit)
  exact ⟨h2, h3⟩

/-- C124: a file service gives its slot back, whatever fails and whatever happens to its channel. -/
theorem c124_file (w : World) (limit : Nat) (before : List Move) (n : Int) (path : Text) (m : Bytes)
    (hm : Sent m (.readFile (.int n) (.text path))) (env : Env) (l : Launch) (ms : List Move) :
    let s := (run w (init limit) before).1
    s.client.hung = false → 7 ≤ ms.countP (Move.isThread s.svcs.length) →
    (∀ content, w.fs (Services.absPath path) = .file content → 4 * content.length + 7 ≤ ms.countP (Move.isThread s.svcs.length)) →
    (run w s (.event env (.binary m) l :: ms)).1.svcs[s.svcs.length]?.map Svc.slot = some false := by
  intro s hh h7 hlen
  obtain ⟨hl, sender, d, surplus, hd, hkeys, ha⟩ := hm
  have h1 := launch_move w s env l hh hl hd hkeys ha .readFile
  simp only [run, h1]
  have hv : (begun w l s (.fileSent (.int n) (.text path))).svcs[s.svcs.length]? =
      some (if (Limiter.launch s.lim l.ok).2 then ⟨n, .file path .opening, true, none⟩ else
        ⟨n, .calls [.write Services.serverBusy, .close] false, false, none⟩) := by simp [begun, begin, fileProg]
  refine run_released w ms hv ?_
  split
  · simp only [svcLeft, progLeft, fileLeft, if_true]
    cases hf : w.fs (Services.absPath path) with
    | file content => simp only [World.content, hf]; exact hlen content hf
    | raises f => simp only [World.content, hf, List.length_nil]; omega
  · simp only [svcLeft, progLeft, List.length_cons, List.length_nil, Bool.false_eq_true, if_false]; omega

/-- C124: so does a command service. -/
theorem c124_command (w : World) (limit : Nat) (before : List Move) (n : Int) (command : PyVal) (m : Bytes)
    (hm : Sent m (.runCommand (.int n) command)) (env : Env) (l : Launch) (ms : List Move) :
    let s := (run w (init limit) before).1
    s.client.hung = false → 4 ≤ ms.countP (Move.isThread s.svcs.length) →
    2 * l.script.length + 1 ≤ ms.countP (Move.isThread s.svcs.length) →
    (run w s (.event env (.binary m) l :: ms)).1.svcs[s.svcs.length]?.map Svc.slot = some false := by
  intro s hh h7 hlen
  obtain ⟨hl, sender, d, surplus, hd, hkeys, ha⟩ := hm
  have h1 := launch_move w s env l hh hl hd hkeys ha .runCommand
  simp only [run, h1]
  have hv : (begun w l s (.commandRun (.int n) command)).svcs[s.svcs.length]? =
      some (if (Limiter.launch s.lim l.ok).2 then ⟨n, .calls l.script false, true, none⟩ else
        ⟨n, .calls [.control l.error, .close] false, false, none⟩) := by simp [begun, begin]
  refine run_released w ms hv ?_
  split
  · simp only [svcLeft, progLeft, if_true, Bool.false_eq_true, if_false]; omega
  · simp only [svcLeft, progLeft, List.length_cons, List.length_nil, Bool.false_eq_true, if_false]; omega

end Verif.Agent
