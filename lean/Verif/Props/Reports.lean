import Verif.Model.Reports
import Verif.Spec.Reports
import Verif.Props.Agent
import Verif.Props.JsonText
/-!
C154: what the control messages of file and command services say to the server.
-/
namespace Verif.Agent
open Verif WSClient System JsonText Reports

theorem says_control (l : List (Text × Json)) (hf : floatsObj l = []) (fields : List (String × Json)) (h : ∀ f ∈ fields, lookup l f.1.toList = some f.2) :
    Says (controlText l) fields :=
  fun fval => ⟨_, l, rfl, c151_writes _ fval (.obj l) (by rw [floats, hf]; intro a h; exact (nomatch h)), h⟩

theorem says_error (service status msg : Text) :
    Says (sendError service status msg) [("service", .str service), ("type", str "error"), ("status", .str status), ("msg", .str msg)] := by
  refine says_control _ rfl _ ?_
  have h1 : sService ≠ sType ∧ sService ≠ sStatus ∧ sService ≠ sMsg ∧ sType ≠ sStatus ∧ sType ≠ sMsg ∧ sStatus ≠ sMsg := by decide
  obtain ⟨a, b, c, d, e, f⟩ := h1
  refine List.forall_mem_cons.2 ⟨?_, List.forall_mem_cons.2 ⟨?_, List.forall_mem_cons.2 ⟨?_, List.forall_mem_cons.2 ⟨?_, fun _ h => (nomatch h)⟩⟩⟩⟩
  · show lookup _ sService = _
    simp only [lookup, a.symm, b.symm, c.symm, if_false, if_true]
  · show lookup _ sType = _
    simp only [lookup, d.symm, e.symm, if_false, if_true]
    rfl
  · show lookup _ sStatus = _
    simp only [lookup, f.symm, if_false, if_true]
  · show lookup _ sMsg = _
    simp only [lookup, if_true]

theorem says_complete (code : Option Int) :
    Says (completeReport code) [("service", str "command"), ("type", str "complete"), ("returncode", number code)] := by
  refine says_control _ (by cases code <;> rfl) _ ?_
  have h1 : sService ≠ sType ∧ sService ≠ sReturncode ∧ sType ≠ sReturncode := by decide
  obtain ⟨a, b, c⟩ := h1
  refine List.forall_mem_cons.2 ⟨?_, List.forall_mem_cons.2 ⟨?_, List.forall_mem_cons.2 ⟨?_, fun _ h => (nomatch h)⟩⟩⟩
  · show lookup _ sService = _
    simp only [lookup, a.symm, b.symm, if_false, if_true]
    rfl
  · show lookup _ sType = _
    simp only [lookup, c.symm, if_false, if_true]
    rfl
  · show lookup _ sReturncode = _
    simp only [lookup, if_true]
    cases code <;> rfl

/-- C154: if the server asks for a file that can not be opened, then what it receives is an object of JSON that says so, and the request to close. -/
theorem c154_file (w : World) (hw : w.report = fileReport) (limit : Nat) (before : List Move) (hb : ∀ m ∈ before, m.Small) (n : Int) (path : Text)
    (m : Bytes) (hm : Sent m (.readFile (.int n) (.text path))) (hc : w.fs (Services.absPath path) = .raises .io) (env : Env) (l : Launch)
    (ms : List Move) :
    let s := (run w (init limit) before).1
    s.client.hung = false → Free n s → slots s < limit → l.ok = true → (∀ m ∈ ms, m.Fine n) →
    Sized (run w s (.event env (.binary m) l :: ms)).2 →
    ∃ r, Says r [("service", str "remote-file"), ("type", str "error"), ("status", str "ioerror"), ("msg", str "unable to open file")] ∧
      wire n (run w s (.event env (.binary m) l :: ms)).2 <+: [.sendControl r, .requestClose] ∧
      ((∀ m ∈ ms, m.Keeps n) → 5 ≤ ms.countP (Move.isThread s.svcs.length) →
        wire n (run w s (.event env (.binary m) l :: ms)).2 = [.sendControl r, .requestClose]) := by
  intro s h1 h2 h3 h4 h5 h6
  refine ⟨w.report .io, ?_, c122_missing w limit before hb n path m hm .io hc (by decide) ?_ env l ms h1 h2 h3 h4 h5 h6⟩
  · rw [hw]; exact says_error _ _ _
  · intro f; rw [hw]; cases f <;> decide +kernel

/-- C154: if the command could be started and has ended, and nobody ends the channel, then the server has received all the output, between it nothing
but objects of JSON that report an error, after it an object of JSON with the return code, and last the request to close. -/
theorem c154_command (w : World) (limit : Nat) (before : List Move) (hb : ∀ m ∈ before, m.Small) (n : Int) (command : PyVal) (m : Bytes)
    (hm : Sent m (.runCommand (.int n) command)) (env : Env) (l : Launch) (cmd : Services.CmdEnv) (fuel : Nat)
    (hl : l.script = serviceCalls commandReport completeReport (Services.cmdRun cmd fuel).1) (hk : ∀ k ∈ l.script, k.Small)
    (hpo : cmd.popen = true) (he : (Services.cmdRun cmd fuel).2 = true) (ms : List Move) :
    let s := (run w (init limit) before).1
    s.client.hung = false → Free n s → slots s < limit → l.ok = true → (∀ m ∈ ms, m.Fine n) →
    Sized (run w s (.event env (.binary m) l :: ms)).2 →
    (∀ m ∈ ms, m.Keeps n) → 2 * l.script.length ≤ ms.countP (Move.isThread s.svcs.length) →
    ∃ front r, wire n (run w s (.event env (.binary m) l :: ms)).2 = front ++ [.sendControl r, .requestClose] ∧
      (dataOf front).flatten = Services.outputRead (Services.cmdRun cmd fuel).1 ∧
      (∀ o ∈ front, (∃ d, o = .sendData d) ∨ ∃ e, o = .sendControl e ∧ Says e [("service", str "command"), ("type", str "error")]) ∧
      Says r [("service", str "command"), ("type", str "complete"), ("returncode", number cmd.status1)] := by
  intro s h1 h2 h3 h4 h5 h6 h7 h8
  obtain ⟨front, g1, g2, g3⟩ := c123_arrives w limit before hb n command m hm env l cmd fuel commandReport completeReport hl (hl ▸ hk) hpo he ms
    h1 h2 h3 h4 h5 h6 h7 h8
  refine ⟨front, _, g1, g2, fun o ho => ?_, says_complete _⟩
  rcases g3 o ho with h | ⟨e, h⟩
  · exact .inl h
  · refine .inr ⟨_, h, fun fval => ?_⟩
    obtain ⟨t, l, k1, k2, k3⟩ := says_error sCommand e.toList "error running command".toList fval
    exact ⟨t, l, k1, k2, List.forall_mem_cons.2 ⟨k3 _ (.head _), List.forall_mem_cons.2 ⟨k3 _ (.tail _ (.head _)), fun _ h => (nomatch h)⟩⟩⟩

/-- C154: if a command is refused for want of a slot or of a thread, the server receives an object of JSON with the text of the error, and the request
to close. -/
theorem c154_refused (w : World) (limit : Nat) (before : List Move) (hb : ∀ m ∈ before, m.Small) (n : Int) (command : PyVal) (m : Bytes)
    (hm : Sent m (.runCommand (.int n) command)) (env : Env) (l : Launch) (error : Text) (hl : l.error = launchReport error)
    (he : l.error.length ≤ maxSize) (ms : List Move) :
    let s := (run w (init limit) before).1
    s.client.hung = false → Free n s → l.ok = false ∨ slots s = limit → (∀ m ∈ ms, m.Fine n) →
    Sized (run w s (.event env (.binary m) l :: ms)).2 →
    ∃ r, Says r [("service", str "command"), ("type", str "error"), ("status", str "error"), ("msg", .str error)] ∧
      wire n (run w s (.event env (.binary m) l :: ms)).2 <+: [.sendControl r, .requestClose] ∧
      ((∀ m ∈ ms, m.Keeps n) → 4 ≤ ms.countP (Move.isThread s.svcs.length) →
        wire n (run w s (.event env (.binary m) l :: ms)).2 = [.sendControl r, .requestClose]) := by
  intro s h1 h2 h3 h4 h5
  exact ⟨l.error, hl ▸ says_error _ _ _, c123_busy w limit before hb n command m hm env l he ms h1 h2 h3 h4 h5⟩

/-- The bytes. -/
example : fileReport .io = asc "{\"service\": \"remote-file\", \"type\": \"error\", \"status\": \"ioerror\", \"msg\": \"unable to open file\"}" ∧
    fileReport .other = asc "{\"service\": \"remote-file\", \"type\": \"error\", \"status\": \"error\", \"msg\": \"internal error, see agent logs\"}" ∧
    completeReport (some (-9)) = asc "{\"service\": \"command\", \"type\": \"complete\", \"returncode\": -9}" ∧
    completeReport none = asc "{\"service\": \"command\", \"type\": \"complete\", \"returncode\": null}" ∧
    launchReport "can't \"start\"".toList = asc "{\"service\": \"command\", \"type\": \"error\", \"status\": \"error\", \"msg\": \"can't \\\"start\\\"\"}" := by
  decide +kernel

/-- A message that says something else does not say this. -/
example : ¬ Says (completeReport (some 0)) [("returncode", .int 1)] := by
  intro h
  obtain ⟨t, l, h1, h2, h3⟩ := h readHalves
  have e1 := c151_bytes readHalves (fun _ _ => none) t _ h2
  have e2 : loadsBytes readHalves (fun _ _ => none) (completeReport (some 0)) = some (.obj [(sService, .str sCommand), (sType, .str sComplete), (sReturncode, .int 0)]) := by
    decide +kernel
  rw [← h1, e2] at e1
  injection e1 with e1
  injection e1 with e1
  have := h3 _ (.head _)
  rw [← e1] at this
  exact absurd this (by decide +kernel)

/-- An agent with these messages: a file that is not there, and a command that prints and ends with 2. -/
example : wire 1 (run { exWorld with report := fileReport } (init 1) (.event {} (.binary askC) {} :: List.replicate 6 (.thread 0 none))).2 =
      [.sendControl (fileReport .io), .requestClose] ∧
    (let cmd : Services.CmdEnv := ⟨true, fun k => if k = 0 then some [⟨true, true, false, .data (asc "out"), none⟩] else
      some [⟨true, true, false, .data [], none⟩], fun _ => false, some 2, some 2⟩
    wire 3 (run exWorld (init 2) (.event {} (.binary askRun) { script := serviceCalls commandReport completeReport (Services.cmdRun cmd 5).1 } ::
      List.replicate 6 (.thread 0 none))).2 =
      [.sendData (asc "out"), .sendControl (asc "{\"service\": \"command\", \"type\": \"complete\", \"returncode\": 2}"), .requestClose]) := by
  decide +kernel

end Verif.Agent
