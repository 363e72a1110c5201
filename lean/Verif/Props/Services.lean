import Verif.Proofs.Services
/-!
C31-C37: launching services, the file, command and echo services.
-/
namespace Verif.Services
open Verif

theorem serverBusy_ne : serverBusy ≠ [] := by decide +kernel
theorem launchFailed_ne : asc "Failed to launch remote process\n" ≠ [] := by decide +kernel

/-! ### C31 -/

/-- C31: a service that can not be launched (limit reached, or the thread does not start) tells the remote side, requests the close
of the channel as its last action, and leaves the number of slots in use as it was. -/
theorem c31_refused (k : Kind) (closed : Bool) (l : Limiter.Lim) (startOk : Bool) (h0 : 0 ≤ l.value)
    (h : l.value ≥ l.limit ∨ startOk = false) :
    (start k closed l startOk).1 = l ∧ ∃ a, a.tells = true ∧ (start k closed l startOk).2 = [a, .close] := by
  have hl : Limiter.launch l startOk = (l, false) := by
    simp only [Limiter.launch, Limiter.increment]
    by_cases hv : l.value ≥ l.limit
    · simp [hv]
    · have hs : startOk = false := by rcases h with h | h; exact absurd h hv; exact h
      have h1 : ¬ (l.value + 1 ≤ 0) := by omega
      simp only [hv, if_false, hs, Limiter.decrement, h1]
      simp
  simp only [start, hl]
  refine ⟨trivial, ?_⟩
  cases k
  · exact ⟨_, by simp [Act.tells, serverBusy_ne, launchFailed_ne], rfl⟩
  · exact ⟨_, rfl, rfl⟩
  · exact ⟨_, by simp [Act.tells, serverBusy_ne, launchFailed_ne], rfl⟩
  · exact ⟨_, by simp [Act.tells, serverBusy_ne, launchFailed_ne], rfl⟩
  · exact ⟨_, by simp [Act.tells, serverBusy_ne, launchFailed_ne], rfl⟩

/-- C31: on an open channel what is written does reach the server. -/
theorem c31_reaches (k : Kind) (l : Limiter.Lim) (h : l.value ≥ l.limit) (hk : k ≠ .command) (startOk : Bool) :
    sentBytes (start k false l startOk).2 ≠ [] := by
  have hl : Limiter.launch l startOk = (l, false) := by simp [Limiter.launch, Limiter.increment, h]
  simp only [start, hl]
  cases k
  · simp [onLaunchError, sentBytes, serverBusy_ne]
  · exact absurd rfl hk
  · simp [onLaunchError, sentBytes, serverBusy_ne]
  · simp [onLaunchError, sentBytes, serverBusy_ne]
  · simp [onLaunchError, sentBytes, launchFailed_ne]

/-- C31: a browser whose request for a file or a forwarded port is refused gets an HTTP response that says so, and nothing after it. -/
theorem c31_http (k : Kind) (l : Limiter.Lim) (h : l.value ≥ l.limit) (hk : k = .file ∨ k = .forward ∨ k = .redirect) (startOk : Bool) :
    Unavailable (sentBytes (start k false l startOk).2) := by
  have hl : Limiter.launch l startOk = (l, false) := by simp [Limiter.launch, Limiter.increment, h]
  have hs : sentBytes (start k false l startOk).2 = serverBusy := by
    simp only [start, hl]
    rcases hk with rfl | rfl | rfl <;> simp only [Bool.false_eq_true, if_false, onLaunchError, sentBytes, Bool.not_false, List.flatMap_cons, List.flatMap_nil, List.append_nil]
  rw [hs]
  exact ⟨asc "Device Busy", serverBusy.drop 28, by decide +kernel, by decide +kernel⟩

/-- C31, the other direction: a service that is launched takes one slot and says nothing. -/
theorem c31_launched (k : Kind) (closed : Bool) (l : Limiter.Lim) (h : l.value < l.limit) :
    start k closed l true = ({ l with value := l.value + 1 }, []) := by
  have : ¬ l.value ≥ l.limit := by omega
  simp [start, Limiter.launch, Limiter.increment, this]

/-- A full limiter and a file request. -/
example : start .file false { limit := 1, value := 1 } true = ({ limit := 1, value := 1 }, [.write serverBusy true, .close]) := by
  simp [start, Limiter.launch, Limiter.increment, onLaunchError]

/-! ### C32 and C33 -/

theorem chunk_pos : 0 < chunkSize := by decide

/-- C32: a file that can be read, sent over a channel that stays open, arrives complete and unchanged. -/
theorem c32_intact (env : FileEnv) (path : Text) (content : Bytes) (hf : env.fs (absPath path) = .file content) (h : env.Good) :
    sentBytes (fileRun env (some path)) = content := by
  simp only [fileRun, fileBody, hf, fileLoop_good env h, sentBytes_append, onFail_sent, sentBytes_map,
    chunksOf_flatten chunkSize chunk_pos content.length content (Nat.le_refl _)]
  simp [sentBytes]

/-- C32: whenever the channel closes and whatever else fails, what is sent is a prefix of the file. -/
theorem c32_prefix (env : FileEnv) (path : Text) (content : Bytes) (hf : env.fs (absPath path) = .file content)
    (hm : Mono env.closed) : sentBytes (fileRun env (some path)) <+: content := by
  have h := fileLoop_prefix env hm 0 (chunksOf chunkSize content.length content)
  rw [chunksOf_flatten chunkSize chunk_pos content.length content (Nat.le_refl _)] at h
  simp only [fileRun, fileBody, hf, sentBytes_append, onFail_sent]
  simpa [sentBytes] using h

/-- C32: every message holds between 1 and 1048576 bytes. -/
theorem c32_sizes (env : FileEnv) (path : Option Text) (d : Bytes) (b : Bool) (h : Act.write d b ∈ fileRun env path) :
    1 ≤ d.length ∧ d.length ≤ 1048576 := by
  simp only [fileRun, List.mem_append] at h
  rcases h with (h | h) | h
  · cases path with
    | none => simp [fileBody] at h
    | some path =>
      simp only [fileBody] at h
      split at h
      · simp only [List.mem_append] at h
        rcases h with h | h
        · obtain ⟨s, hs⟩ := onFail_mem _ _ h; simp at hs
        · simp at h
      · simp only [List.mem_append] at h
        rcases h with (h | h) | h
        · obtain ⟨c, hc, b', he⟩ := fileLoop_mem _ _ _ _ h
          simp at he
          rw [he.1]
          exact chunksOf_size chunkSize chunk_pos _ _ c hc
        · obtain ⟨s, hs⟩ := onFail_mem _ _ h; simp at hs
        · simp at h
  · split at h <;> simp at h
  · simp at h

/-- C32: the file that is sent is the one named, taken as an absolute path. -/
theorem c32_path (env env' : FileEnv) (path : Text) (h : env.fs (absPath path) = env'.fs (absPath path))
    (hr : env.read = env'.read) (hw : env.write = env'.write) (hc : env.closed = env'.closed) :
    fileRun env (some path) = fileRun env' (some path) := by
  have loop : ∀ (cs : List Bytes) (k : Nat), fileLoop env k cs = fileLoop env' k cs := by
    intro cs
    induction cs with
    | nil => intro k; simp [fileLoop, hr]
    | cons c cs ih => intro k; simp [fileLoop, hr, hw, hc, ih]
  simp [fileRun, fileBody, h, loop]

/-- What `c32_path` reads is absolute: it starts with a slash, and an absolute path is kept. -/
theorem c32_absolute (path : Text) : (absPath path).head? = some '/' ∧ (path.head? = some '/' → absPath path = path) ∧
    (path.head? ≠ some '/' → absPath path = '/' :: path) := by
  refine ⟨?_, ?_, ?_⟩
  · simp only [absPath]; split <;> simp_all
  · intro h; simp [absPath, h]
  · intro h; simp [absPath, h]

/-- C33 for paths that are strings: the last call on the channel is `close` and it is the only one, and the slot is given back
exactly once, at the very end.  Missing for the full property: see `c33_counterexample`. -/
theorem c33_close_last_partial (env : FileEnv) (path : Text) :
    ∃ acts, fileRun env (some path) = acts ++ [.close, .release] ∧ (∀ a ∈ acts, (∃ d b, a = .write d b) ∨ ∃ s, a = .error s) := by
  cases hfs : env.fs (absPath path) with
  | raises f =>
    simp only [fileRun, fileBody, hfs]
    refine ⟨onFail (some f), by simp, ?_⟩
    intro a ha
    exact .inr (onFail_mem _ a ha)
  | file content =>
    simp only [fileRun, fileBody, hfs]
    refine ⟨(fileLoop env 0 (chunksOf chunkSize content.length content)).1 ++
      onFail (fileLoop env 0 (chunksOf chunkSize content.length content)).2, by simp, ?_⟩
    intro a ha
    rcases List.mem_append.mp ha with h | h
    · obtain ⟨c, -, b, he⟩ := fileLoop_mem _ _ _ _ h
      exact .inl ⟨c, b, he⟩
    · exact .inr (onFail_mem _ a h)

/-- C33: a file that can not be opened is reported with an `ioerror` control message, and nothing of it is sent. -/
theorem c33_ioerror_open (env : FileEnv) (path : Text) (hf : env.fs (absPath path) = .raises .io) :
    fileRun env (some path) = [.error "ioerror", .close, .release] := by
  simp [fileRun, fileBody, hf, onFail]

/-- C33: a file whose `k`-th chunk can not be read is reported with an `ioerror` control message after the chunks before it. -/
theorem c33_ioerror_read (env : FileEnv) (path : Text) (content : Bytes) (k : Nat) (hf : env.fs (absPath path) = .file content)
    (ho : ∀ n, env.closed n = false) (hw : ∀ n, env.write n = none) (hb : ∀ j, j < k → env.read j = none)
    (hk : env.read k = some .io) (hlen : k ≤ (chunksOf chunkSize content.length content).length) :
    fileRun env (some path) =
      ((chunksOf chunkSize content.length content).take k).map (fun c => .write c true) ++ [.error "ioerror", .close, .release] := by
  have loop : ∀ (cs : List Bytes) (m j : Nat), j + m = k → m ≤ cs.length →
      fileLoop env j cs = ((cs.take m).map (fun c => Act.write c true), some .io) := by
    intro cs m
    induction m generalizing cs with
    | zero =>
      intro j hj _
      have : j = k := by omega
      subst this
      cases cs <;> simp [fileLoop, hk]
    | succ m ih =>
      intro j hj hm
      cases cs with
      | nil => simp at hm
      | cons c cs =>
        simp only [fileLoop, hb j (by omega), ho, hw]
        rw [ih cs (j + 1) (by omega) (by simpa using hm)]
        simp
  simp only [fileRun, fileBody, hf]
  rw [loop _ k 0 (by omega) hlen]
  simp [onFail]

/-- C33 fails as stated: if the path in the instruction is not a string (an integer, say), `path.startswith` raises before the `try`
block; the error is reported but the channel is never closed. -/
theorem c33_counterexample (env : FileEnv) : fileRun env none = [.error "error", .release] ∧ Act.close ∉ fileRun env none := by
  refine ⟨rfl, ?_⟩
  have : fileRun env none = [.error "error", .release] := rfl
  rw [this]
  simp

/-- C33: exactly when the channel is closed: if the path is a string; and then once. -/
theorem c33_iff (env : FileEnv) (path : Option Text) : (fileRun env path).count .close = if path.isSome then 1 else 0 := by
  cases path with
  | none =>
    have : fileRun env none = [.error "error", .release] := rfl
    rw [this]; rfl
  | some path =>
    obtain ⟨acts, h1, h2⟩ := c33_close_last_partial env path
    rw [h1]
    have : acts.count .close = 0 := by
      rw [List.count_eq_zero]
      intro h
      rcases h2 _ h with ⟨d, b, h⟩ | ⟨s, h⟩ <;> nomatch h
    rw [List.count_append, this]
    rfl

/-- The slot is given back in every case. -/
theorem c33_released (env : FileEnv) (path : Option Text) : (fileRun env path).count .release = 1 ∧
    (fileRun env path).getLast? = some .release := by
  cases path with
  | none =>
    have : fileRun env none = [.error "error", .release] := rfl
    rw [this]; decide
  | some path =>
    obtain ⟨acts, h1, h2⟩ := c33_close_last_partial env path
    rw [h1]
    have : acts.count .release = 0 := by
      rw [List.count_eq_zero]
      intro h
      rcases h2 _ h with ⟨d, b, h⟩ | ⟨s, h⟩ <;> simp at h
    refine ⟨?_, ?_⟩
    · rw [List.count_append, this]; decide
    · simp

/-- A small file over a channel that closes after the first look. -/
example : fileRun { fs := fun p => if p = "/a".toList then .file [1, 2] else .raises .io, read := fun _ => none, write := fun _ => none,
                    closed := fun n => decide (1 ≤ n) } (some "a".toList) = [.write [1, 2] false, .close, .release] := by decide +kernel
/-- The same file over an open channel, and a missing file. -/
example : fileRun { fs := fun p => if p = "/a".toList then .file [1, 2] else .raises .io, read := fun _ => none, write := fun _ => none,
                    closed := fun _ => false } (some "a".toList) = [.write [1, 2] true, .close, .release] := by decide +kernel
example : fileRun { fs := fun p => if p = "/a".toList then .file [1, 2] else .raises .io, read := fun _ => none, write := fun _ => none,
                    closed := fun _ => false } (some "b".toList) = [.error "ioerror", .close, .release] := by decide +kernel

/-! ### C34-C36 -/

theorem cmdTail (env : CmdEnv) (fin : Fin) : written (onCmdFail fin ++ cmdFinally env ++ [.release]) = [] ∧
    outputRead (onCmdFail fin ++ cmdFinally env ++ [.release]) = [] ∧ sentBytes (onCmdFail fin ++ cmdFinally env ++ [.release]) = [] := by
  have : ∀ a ∈ onCmdFail fin ++ cmdFinally env ++ [Act.release], (∃ s, a = .error s) ∨ (∃ r, a = .complete r) ∨ a = .close ∨ a = .kill
      ∨ a = .release := by
    intro a ha
    simp only [onCmdFail, cmdFinally, List.mem_append] at ha
    rcases ha with (ha | ha | ha) | ha
    · split at ha <;> simp at ha; exact .inl ⟨_, ha⟩
    · simp at ha; rcases ha with rfl | rfl <;> simp
    · split at ha <;> simp at ha; subst ha; simp
    · simp at ha; subst ha; simp
  simp only [written, outputRead, sentBytes, List.flatMap_eq_nil_iff]
  refine ⟨?_, ?_, ?_⟩ <;> intro a ha <;> rcases this a ha with ⟨s, rfl⟩ | ⟨r, rfl⟩ | rfl | rfl | rfl <;> rfl

/-- C34: at every moment what was written to the channel is what was read from the standard output, in order; nothing else, and in
particular nothing of standard error, is written. -/
theorem c34_written (env : CmdEnv) (fuel : Nat) : written (cmdRun env fuel).1 = outputRead (cmdRun env fuel).1 := by
  simp only [cmdRun]
  split
  · have h := cmdLoop_read env fuel 0 0
    split
    · rename_i hq; rw [hq] at h; exact h
    · rename_i fin _ hq
      rw [hq] at h
      rw [List.append_assoc, List.append_assoc, written_append, outputRead_append, h, ← List.append_assoc, (cmdTail env fin).1,
        (cmdTail env fin).2.1]
  · rfl

/-- C34: on a channel that stays open all of it reaches the server. -/
theorem c34_sent (env : CmdEnv) (fuel : Nat) (ho : ∀ n, env.closed n = false)
    (hw : ∀ k es, env.poll k = some es → ∀ e ∈ es, e.write = none) :
    sentBytes (cmdRun env fuel).1 = outputRead (cmdRun env fuel).1 := by
  rw [← c34_written]
  simp only [cmdRun]
  split
  · have h := cmdLoop_sent env ho hw fuel 0 0
    split
    · rename_i hq; rw [hq] at h; exact h
    · rename_i fin _ hq
      rw [hq] at h
      rw [List.append_assoc, List.append_assoc, sentBytes_append, written_append, h, ← List.append_assoc, (cmdTail env fin).1,
        (cmdTail env fin).2.2]
  · rfl

/-- C34: on a channel that closes at some moment a prefix of it reaches the server. -/
theorem c34_prefix (env : CmdEnv) (fuel : Nat) (hm : Mono env.closed) :
    sentBytes (cmdRun env fuel).1 <+: outputRead (cmdRun env fuel).1 := by
  rw [← c34_written]
  simp only [cmdRun]
  split
  · have h := cmdLoop_prefix env hm fuel 0 0
    split
    · rename_i hq; rw [hq] at h; exact h
    · rename_i fin _ hq
      rw [hq] at h
      rw [List.append_assoc, List.append_assoc, sentBytes_append, written_append, ← List.append_assoc, (cmdTail env fin).1,
        (cmdTail env fin).2.2, List.append_nil, List.append_nil]
      exact h
  · exact List.prefix_refl _

/-- C35, when the child process could be created: the run ends with the complete message, the close of the channel, the kill of the
child exactly if it still runs, and the release of the slot; nothing of this happens before.  Missing for the full property: see
`c35_counterexample`. -/
theorem c35_end_partial (env : CmdEnv) (fuel : Nat) (hp : env.popen = true) (he : (cmdRun env fuel).2 = true) :
    ∃ acts, (cmdRun env fuel).1 = acts ++ [.complete env.status1, .close] ++ (if env.status2 = none then [.kill] else []) ++ [.release] ∧
      ∀ a ∈ acts, (∃ d b, a = .write d b) ∨ (∃ d, a = .readOut d) ∨ (∃ d, a = .readErr d) ∨ ∃ s, a = .error s := by
  simp only [cmdRun, hp, if_true] at he ⊢
  have h := cmdLoop_mem env fuel 0 0
  split
  · rename_i hq; simp [hq] at he
  · rename_i acts fin _ hq
    rw [hq] at h
    refine ⟨acts ++ onCmdFail fin, ?_, ?_⟩
    · simp only [cmdFinally]
      cases env.status2 <;> simp
    · intro a ha
      rcases List.mem_append.mp ha with ha | ha
      · rcases h a ha with h | h | h
        · exact .inl h
        · exact .inr (.inl h)
        · exact .inr (.inr (.inl h))
      · simp only [onCmdFail] at ha
        split at ha <;> simp at ha
        exact .inr (.inr (.inr ⟨_, ha⟩))

/-- C35 fails as stated: if the child process can not be created, no complete message is sent and the channel is not closed. -/
theorem c35_counterexample (env : CmdEnv) (fuel : Nat) (hp : env.popen = false) :
    cmdRun env fuel = ([.error "error", .release], true) := by
  simp [cmdRun, hp]

/-- C35: exactly when the complete message is sent and the channel closed by a run that has ended: if the child process could be created; and
the child is killed exactly if it could be created and still runs. -/
theorem c35_iff (env : CmdEnv) (fuel : Nat) (he : (cmdRun env fuel).2 = true) :
    ((∃ st, .complete st ∈ (cmdRun env fuel).1) ↔ env.popen = true) ∧ (.close ∈ (cmdRun env fuel).1 ↔ env.popen = true) ∧
    (.kill ∈ (cmdRun env fuel).1 ↔ env.popen = true ∧ env.status2 = none) := by
  cases hp : env.popen with
  | false =>
    rw [c35_counterexample env fuel hp]
    refine ⟨⟨?_, (fun h => nomatch h)⟩, ⟨?_, (fun h => nomatch h)⟩, ⟨?_, (fun h => nomatch h.1)⟩⟩
    · rintro ⟨st, h⟩
      rcases List.mem_cons.1 h with h | h
      · nomatch h
      · nomatch List.mem_singleton.1 h
    · intro h
      rcases List.mem_cons.1 h with h | h
      · nomatch h
      · nomatch List.mem_singleton.1 h
    · intro h
      rcases List.mem_cons.1 h with h | h
      · nomatch h
      · nomatch List.mem_singleton.1 h
  | true =>
    obtain ⟨acts, h1, h2⟩ := c35_end_partial env fuel hp he
    rw [h1]
    refine ⟨⟨fun _ => rfl, fun _ => ⟨env.status1, by simp⟩⟩, ⟨fun _ => rfl, fun _ => by simp⟩, ?_⟩
    cases hk : env.status2 with
    | none => simp
    | some k =>
      have : Act.kill ∉ acts := by
        intro h
        rcases h2 _ h with ⟨d, b, h⟩ | ⟨d, h⟩ | ⟨d, h⟩ | ⟨s, h⟩ <;> nomatch h
      simp [this]

/-- The slot is given back exactly once in every run that ends, and not before the end. -/
theorem c35_released (env : CmdEnv) (fuel : Nat) :
    (cmdRun env fuel).1.count .release = if (cmdRun env fuel).2 then 1 else 0 := by
  cases hp : env.popen with
  | false => simp [cmdRun, hp]
  | true =>
    have h0 : ∀ (l : List Act), (∀ a ∈ l, (∃ d b, a = .write d b) ∨ (∃ d, a = .readOut d) ∨ (∃ d, a = .readErr d) ∨ ∃ s, a = .error s) →
        l.count .release = 0 := by
      intro l hl
      rw [List.count_eq_zero]
      intro h
      rcases hl _ h with ⟨d, b, h⟩ | ⟨d, h⟩ | ⟨d, h⟩ | ⟨s, h⟩ <;> simp at h
    cases he : (cmdRun env fuel).2 with
    | true =>
      obtain ⟨acts, h1, h2⟩ := c35_end_partial env fuel hp he
      rw [h1, List.count_append, List.count_append, List.count_append, h0 acts h2]
      cases env.status2 <;> simp
    | false =>
      simp only [cmdRun, hp, if_true] at he ⊢
      have h := cmdLoop_mem env fuel 0 0
      split at he
      · rename_i hq
        rw [hq] at h
        simp only [hq]
        refine h0 _ ?_
        intro a ha
        rcases h a ha with h | h | h
        · exact .inl h
        · exact .inr (.inl h)
        · exact .inr (.inr (.inl h))
      · simp at he

/-- Poll results for an example: "a", a line of standard error, "b", the end. -/
def examplePolls (k : Nat) : Option (List PollEvent) :=
  if k = 0 then some [{ stdout := true, readable := true, error := false, read := .data [97] },
                      { stdout := false, readable := true, error := false, read := .data [33] }]
  else if k = 1 then some [{ stdout := true, readable := true, error := true, read := .data [98] }]
  else some [{ stdout := true, readable := true, error := true, read := .data [] }]

/-- The output "ab" in two reads with a line of standard error between them; the child has ended with status 0. -/
example : cmdRun { popen := true, closed := fun _ => false, status1 := some 0, status2 := some 0, poll := examplePolls } 5 =
    ([.readOut [97], .write [97] true, .readErr [33], .readOut [98], .write [98] true, .readOut [],
      .complete (some 0), .close, .release], true) := by decide +kernel

/-- C36 fails: on Linux a pipe whose writers are gone and which is drained is reported with `POLLHUP` alone.  The loop then neither reads
(and so never sees the end of the output) nor leaves: if from some poll on only such results come and the channel stays open, the
service never ends, however long it runs, unless it ended before. -/
theorem c36_counterexample (env : CmdEnv) (hp : env.popen = true) (ho : ∀ n, env.closed n = false)
    (h : ∀ k, ∃ es, env.poll k = some es ∧ hangUpOnly es) (fuel : Nat) : cmdRun env fuel = ([], false) := by
  simp [cmdRun, hp, cmdLoop_hangUp env 0 (fun k _ => h k) ho fuel 0 0 (Nat.le_refl _)]

/-- One byte of output, then the hang-ups of both pipes. -/
def drainedPolls (k : Nat) : Option (List PollEvent) :=
  if k = 0 then some [{ stdout := true, readable := true, error := true, read := .data [97] }]
  else some [{ stdout := true, readable := false, error := true }, { stdout := false, readable := false, error := true }]

/-- C36, a concrete case: after one byte of output and the end of the command the service never ends. -/
theorem c36_counterexample' (fuel : Nat) :
    (cmdRun { popen := true, closed := fun _ => false, status1 := some 0, status2 := some 0, poll := drainedPolls } fuel).2 = false := by
  cases fuel with
  | zero => rfl
  | succ fuel =>
    have h := cmdLoop_hangUp { popen := true, closed := fun _ => false, status1 := some 0, status2 := some 0, poll := drainedPolls } 1
      (fun k hk => ⟨_, if_neg (by omega), by intro e he; simp at he; rcases he with rfl | rfl <;> rfl⟩) (fun _ => rfl) fuel 1 2 (Nat.le_refl _)
    simp [cmdRun, cmdLoop, drainedPolls, pollEvents] at h ⊢
    simp [h]

/-- The inner loop ends the service exactly on the results described. -/
theorem pollEvents_more_iff (closed : Nat → Bool) : ∀ (es : List PollEvent) (n : Nat), (pollEvents closed n es).2.2 = .more ↔ ¬ Finishing es
  | [], n => by
    refine ⟨fun _ h => ?_, fun _ => rfl⟩
    obtain ⟨pre, e, post, h, _⟩ := h
    cases pre <;> exact nomatch h
  | e :: es, n => by
    have hcons : Finishing (e :: es) ↔ Ending e ∨ e.error = false ∧ Finishing es := by
      constructor
      · rintro ⟨pre, x, post, h, hp, hx⟩
        cases pre with
        | nil =>
          injection h with h1 h2
          exact .inl (h1 ▸ hx)
        | cons y pre =>
          injection h with h1 h2
          exact .inr ⟨h1 ▸ hp y List.mem_cons_self, pre, x, post, h2, fun z hz => hp z (List.mem_cons_of_mem _ hz), hx⟩
      · rintro (h | ⟨h1, pre, x, post, h, hp, hx⟩)
        · exact ⟨[], e, es, rfl, fun _ h => (nomatch h), h⟩
        · refine ⟨e :: pre, x, post, by rw [h]; rfl, fun z hz => ?_, hx⟩
          rcases List.mem_cons.1 hz with rfl | hz
          · exact h1
          · exact hp z hz
    rw [hcons]
    have hno : e.readable = false → ¬ Ending e := fun h h' => nomatch (h.symm.trans h'.1)
    simp only [pollEvents]
    cases hr : e.readable with
    | false =>
      simp only [Bool.false_eq_true, if_false, hno hr, false_or]
      cases he : e.error with
      | true => simp
      | false =>
        simp only [Bool.false_eq_true, if_false, true_and]
        exact pollEvents_more_iff closed es n
    | true =>
      simp only [if_true]
      cases hd : e.read with
      | raises f =>
        have : Ending e := ⟨hr, .inl ⟨f, hd⟩⟩
        simp [this]
      | data d =>
        cases hs : e.stdout with
        | false =>
          have : ¬ Ending e := by
            rintro ⟨_, ⟨f, h⟩ | ⟨h, _⟩⟩
            · rw [hd] at h; exact nomatch h
            · rw [hs] at h; exact nomatch h
          simp only [Bool.false_eq_true, if_false, this, false_or]
          cases he : e.error with
          | true => simp
          | false =>
            simp only [Bool.false_eq_true, if_false, true_and]
            exact pollEvents_more_iff closed es n
        | true =>
          cases d with
          | nil =>
            have : Ending e := ⟨hr, .inr ⟨hs, .inl hd⟩⟩
            simp [this]
          | cons b d =>
            cases hw : e.write with
            | some f =>
              have : Ending e := ⟨hr, .inr ⟨hs, .inr ⟨f, hw⟩⟩⟩
              simp [this]
            | none =>
              have : ¬ Ending e := by
                rintro ⟨_, ⟨f, h⟩ | ⟨_, h | ⟨f, h⟩⟩⟩
                · rw [hd] at h; exact nomatch h
                · rw [hd] at h; exact nomatch h
                · rw [hw] at h; exact nomatch h
              simp only [List.isEmpty_cons, Bool.false_eq_true, if_false, if_true, this, false_or]
              cases he : e.error with
              | true => simp
              | false =>
                simp only [Bool.false_eq_true, if_false, true_and]
                exact pollEvents_more_iff closed es (n + 1)

theorem cmdLoop_more_iff (env : CmdEnv) (ho : ∀ n, env.closed n = false) : ∀ fuel k n,
    (cmdLoop env fuel k n).2 = .more ↔ ∀ i, i < fuel → ∃ es, env.poll (k + i) = some es ∧ ¬ Finishing es
  | 0, k, n => ⟨fun _ i hi => by omega, fun _ => rfl⟩
  | fuel + 1, k, n => by
    have split : (∀ i, i < fuel + 1 → ∃ es, env.poll (k + i) = some es ∧ ¬ Finishing es) ↔
        (∃ es, env.poll k = some es ∧ ¬ Finishing es) ∧ ∀ i, i < fuel → ∃ es, env.poll (k + 1 + i) = some es ∧ ¬ Finishing es := by
      constructor
      · intro h
        exact ⟨h 0 (by omega), fun i hi => by have := h (i + 1) (by omega); rwa [show k + (i + 1) = k + 1 + i by omega] at this⟩
      · rintro ⟨h1, h2⟩ i hi
        cases i with
        | zero => exact h1
        | succ i => rw [show k + (i + 1) = k + 1 + i by omega]; exact h2 i (by omega)
    rw [split, cmdLoop]
    cases hq : env.poll k with
    | none => simp
    | some es =>
      have hm := pollEvents_more_iff env.closed es n
      rcases hr : pollEvents env.closed n es with ⟨acts, n', fin⟩
      rw [hr] at hm
      simp only at hm
      simp only [hr]
      cases fin with
      | done =>
        have : Finishing es := Classical.byContradiction (fun h => nomatch (hm.2 h))
        simp [this]
      | raised f =>
        have : Finishing es := Classical.byContradiction (fun h => nomatch (hm.2 h))
        simp [this]
      | more =>
        simp only [ho n', Bool.false_eq_true, if_false]
        rw [cmdLoop_more_iff env ho fuel (k + 1) (n' + 1)]
        have := hm.1 rfl
        simp [this]

/-- C36, exactly when the service leaves its loop while the channel stays open: a poll raises or its result is `Finishing`. -/
theorem c36_iff (env : CmdEnv) (hp : env.popen = true) (ho : ∀ n, env.closed n = false) (fuel : Nat) :
    (cmdRun env fuel).2 = true ↔ ∃ k, k < fuel ∧ ∀ es, env.poll k = some es → Finishing es := by
  have h := cmdLoop_more_iff env ho fuel 0 0
  have hrun : (cmdRun env fuel).2 = true ↔ ¬ (cmdLoop env fuel 0 0).2 = .more := by
    simp only [cmdRun, hp, if_true]
    rcases cmdLoop env fuel 0 0 with ⟨acts, fin⟩
    cases fin <;> simp
  rw [hrun, h]
  constructor
  · intro hn
    apply Classical.byContradiction
    intro hno
    apply hn
    intro i hi
    rw [Nat.zero_add]
    cases hq : env.poll i with
    | none => exact absurd ⟨i, hi, fun es he => by rw [hq] at he; exact nomatch he⟩ hno
    | some es =>
      refine ⟨es, rfl, fun hf => hno ⟨i, hi, fun es' he => ?_⟩⟩
      rw [hq] at he
      injection he with he
      exact he ▸ hf
  · rintro ⟨k, hk, hf⟩ hall
    obtain ⟨es, he, hn⟩ := hall k hk
    rw [Nat.zero_add] at he
    exact hn (hf es he)

/-- Both kinds of results, as a terminal and a pipe that was read to its end give them. -/
example : Finishing [{ stdout := false, readable := true, error := false, read := .data [1] },
    { stdout := true, readable := true, error := true, read := .data [] }] :=
  ⟨[_], _, [], rfl, by intro x hx; simp at hx; subst hx; rfl, rfl, .inr ⟨rfl, .inl rfl⟩⟩
example : ¬ Finishing [{ stdout := true, readable := false, error := true }] := by
  rw [← pollEvents_more_iff (fun _ => false) _ 0]; rfl

/-- C36 where it holds: if some poll reports standard output as readable at its end (before any error event in the same result), or
the channel is found closed after some poll, or a poll raises, the service ends after that many polls.  Missing for the full
property: the hang-up without readability of `c36_counterexample`. -/
theorem c36_ends_partial (env : CmdEnv) (k : Nat)
    (h : env.poll k = none ∨ (∃ e es, env.poll k = some (e :: es) ∧ e.stdout = true ∧ e.readable = true ∧ e.read = .data []) ∨
      ∃ n, Mono env.closed ∧ env.closed n = true ∧ n ≤ k) :
    (cmdRun env (k + 1)).2 = true := by
  cases hp : env.popen with
  | false => simp [cmdRun, hp]
  | true =>
    have hloop : (cmdLoop env (k + 1) 0 0).2 ≠ .more := by
      rcases h with h | ⟨e, es, h, h1, h2, h3⟩ | ⟨n, hm, hn, hk⟩
      · have gen : ∀ m j n, j + m = k → (cmdLoop env (m + 1) j n).2 ≠ .more := by
          intro m
          induction m with
          | zero => intro j n hj; have : j = k := by omega
                    subst this; simp [cmdLoop, h]
          | succ m ih =>
            intro j n hj
            rw [cmdLoop]
            cases hq : env.poll j with
            | none => simp
            | some es =>
              rcases hr : pollEvents env.closed n es with ⟨acts, n', fin⟩
              simp only [hr]
              cases fin with
              | done => simp
              | raised f => simp
              | more =>
                by_cases hc : env.closed n' = true
                · simp [hc]
                · simp only [hc]
                  exact ih (j + 1) _ (by omega)
        exact gen k 0 0 (by omega)
      · refine cmdLoop_ends env k 0 0 (fun n => ⟨e :: es, by simpa using h, ?_⟩)
        simp [pollEvents, h1, h2, h3]
      · have gen : ∀ m j i, j + m = k → j ≤ i → (cmdLoop env (m + 1) j i).2 ≠ .more := by
          intro m
          induction m with
          | zero =>
            intro j i hj hi
            rw [cmdLoop]
            cases hq : env.poll j with
            | none => simp
            | some es =>
              have hle := (pollEvents_prefix env.closed hm i es).1
              rcases hr : pollEvents env.closed i es with ⟨acts, n', fin⟩
              rw [hr] at hle
              simp only [hr]
              cases fin with
              | done => simp
              | raised f => simp
              | more =>
                have : env.closed n' = true := hm n n' (by simp only at hle; omega) hn
                simp [this]
          | succ m ih =>
            intro j i hj hi
            rw [cmdLoop]
            cases hq : env.poll j with
            | none => simp
            | some es =>
              have hle := (pollEvents_prefix env.closed hm i es).1
              rcases hr : pollEvents env.closed i es with ⟨acts, n', fin⟩
              rw [hr] at hle
              simp only [hr]
              cases fin with
              | done => simp
              | raised f => simp
              | more =>
                by_cases hc : env.closed n' = true
                · simp [hc]
                · simp only [hc]
                  exact ih (j + 1) _ (by omega) (by simp only at hle; omega)
        exact gen k 0 0 (by omega) (Nat.le_refl _)
    rcases hq : cmdLoop env (k + 1) 0 0 with ⟨acts, fin⟩
    rw [hq] at hloop
    cases fin with
    | more => exact absurd rfl hloop
    | done => simp [cmdRun, hp, hq]
    | raised f => simp [cmdRun, hp, hq]

/-! ### C37 -/

/-- The state of a channel on which only the echo service works. -/
theorem echo_state (echo : Nat) (ops : List Channel.Op) (hops : ∀ op ∈ ops, fromServer op = true) (c : Channel.Ch)
    (hc : c.dataCb = some echo) (hp : c.pendingWrites = []) :
    sentMessages (echoRun echo c ops).2 = if c.closed then [] else echoed ops := by
  induction ops generalizing c with
  | nil => simp [echoRun, sentMessages, echoed]
  | cons op ops ih =>
    have ih := ih (fun o ho => hops o (by simp [ho]))
    have happ : ∀ a b : List Channel.Out, sentMessages (a ++ b) = sentMessages a ++ sentMessages b := by
      intro a b; simp [sentMessages]
    have hop := hops op (by simp)
    cases hcl : c.closed with
    | true =>
      cases op <;> simp [fromServer] at hop
      all_goals simp only [echoRun, Channel.step, hcl, if_true, echoReact, happ, List.append_nil]
      all_goals rw [ih _ hc hp]; simp [hcl, sentMessages]
    | false =>
      cases op <;> simp [fromServer] at hop
      · rename_i d
        have hs : Channel.step c (.data d) = (c, [.dataCall echo d]) := by simp [Channel.step, hcl, hc]
        have he : echoReact echo c [.dataCall echo d] = (c, [.sendData d]) := by
          rcases c with ⟨_, _, _, _, _, _, pw, _, _⟩
          simp only at hp hcl
          simp [echoReact, Channel.run, Channel.step, hcl, hp]
        simp only [echoRun, hs, he, happ]
        rw [ih c hc hp]
        simp [hcl, sentMessages, echoed]
      · rename_i d
        simp only [echoRun, Channel.step, hcl]
        simp only [Bool.false_eq_true, if_false]
        cases hct : c.ctrlCb with
        | none => simp only [echoReact, happ]; rw [ih _ hc hp]; simp [hcl, sentMessages, echoed]
        | some f => simp only [echoReact, happ]; rw [ih _ hc hp]; simp [hcl, sentMessages, echoed]
      · simp only [echoRun, Channel.step, hcl]
        simp only [Bool.false_eq_true, if_false]
        cases hct : c.closeCb with
        | none => simp only [echoReact, happ]; rw [ih _ (by exact hc) (by exact hp)]; simp [sentMessages, echoed]
        | some f => simp only [echoReact, happ]; rw [ih _ (by exact hc) (by exact hp)]; simp [sentMessages, echoed]

/-- C37: after the echo service is opened on an open channel, the messages sent over it are exactly those that arrive before it
closes, unchanged, once each and in order. -/
theorem c37_echo (echo : Nat) (ops : List Channel.Op) (hops : ∀ op ∈ ops, fromServer op = true) (c : Channel.Ch)
    (hp : c.pendingWrites = []) (hc : c.closed = false) :
    sentMessages (echoRun echo (echoOpen echo c) ops).2 = echoed ops := by
  rw [echo_state echo ops hops (echoOpen echo c) rfl hp]
  simp [echoOpen, Channel.step, hc]

/-- Two messages, a control message, the close, and a message that comes too late. -/
example : sentMessages (echoRun 7 (echoOpen 7 {}) [.data [1, 2], .control [9], .data [3], .onClose, .data [4]]).2 = [[1, 2], [3]] := by
  decide +kernel

end Verif.Services
