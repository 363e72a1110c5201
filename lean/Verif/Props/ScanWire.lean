import Verif.Proofs.ScanRun
/-!
C120: the server asks for a scan of the remote directory, is told that it succeeded, and reads the result over the connection.
-/
namespace Verif.ScanWire
open Verif WSClient RemoteDirectory Instructions Path

deriving instance DecidableEq for Request

theorem scanJson_decode : utf8Decode scanJson = some (Char.ofNat 0 :: "scan.json".toList) := by decide +kernel

theorem scanJson_file (c : Cfg) : uploadFile c (Char.ofNat 0 :: "scan.json".toList) = .ok (scanPath c) := by
  unfold uploadFile
  rw [if_pos (by decide +kernel), if_pos rfl]
  rfl

/-- C120, the part that holds: from the start of the agent, thread `t` reports success to the server and no later scan does; and at the time
of opening the server has received as many results as it has sent scan requests (it gave no instruction to scan, and nobody else touched the
scan file).  Then, if it is told size `n` with code 0 on opening the result, `n` is the length of the JSON that the scan of this thread gave,
and whatever happens afterwards, as long as the snapshot is not disturbed, its read requests are answered, in order and one by one, with
exactly the bytes of this JSON. -/
theorem c120_settled_partial (c : Cfg) (hs : c.Sane) (id : Text) (hp : Tame id) (hid : (utf8Encode id).length ≤ maxSize)
    (hsep : ¬ scanKey c <+: snapKey c id) (client : St) (hh : client.hung = false) (fs : FS) (t : Nat) (before between after : List Move)
    (env : RemoteFiles.Env) (start : Option Text) (e : Ev) (n : Int)
    (hfair : ∀ m ∈ before ++ .thread (.report t true) :: (between ++ .event env start e :: after), m.fair)
    (hz : Sized (run c (init client fs) (before ++ .thread (.report t true) :: (between ++ .event env start e :: after))).2)
    (hni : ∀ m ∈ before ++ .thread (.report t true) :: between, m.noInstruction)
    (hun : Undisturbed c (scanKey c) (init client fs) (before ++ .thread (.report t true) :: between))
    (hsays : results (step c (run c (init client fs) before).1 (.thread (.report t true))).2 = [[]])
    (hlast : [] ∉ results (run c (step c (run c (init client fs) before).1 (.thread (.report t true))).1 between).2)
    (hall : (results (run c (init client fs) (before ++ .thread (.report t true) :: between)).2).length =
      (before ++ .thread (.report t true) :: between).countP Move.asks)
    (hopen : requestIn e = some (.openFile (utf8Encode id) scanJson))
    (hans : RemoteFiles.openAnswers (utf8Encode id)
      (step c (run c (init client fs) (before ++ .thread (.report t true) :: between)).1 (.event env start e)).2 = [(n, 0)])
    (hsn : Undisturbed c (snapKey c id)
      (step c (run c (init client fs) (before ++ .thread (.report t true) :: between)).1 (.event env start e)).1 after)
    (hok : ∀ m ∈ after, m.readsOk (utf8Encode id)) :
    ∃ json, .thread (.scan t (some json)) ∈ before ∧ n = json.length ∧ (json.length ≤ maxSize →
      RemoteFiles.readAnswers (utf8Encode id)
        (run c (step c (run c (init client fs) (before ++ .thread (.report t true) :: between)).1 (.event env start e)).1 after).2 =
      (readRequests (utf8Encode id) after).map (fun r => ⟨r.1, r.2, RemoteFiles.slice json r.1 r.2, 0⟩)) := by
  -- the parts of the run
  have hz' : Sized (run c (init client fs) (before ++ .thread (.report t true) :: between)).2 ∧
      Sized (run c (run c (init client fs) (before ++ .thread (.report t true) :: between)).1 (.event env start e :: after)).2 := by
    rw [show before ++ .thread (.report t true) :: (between ++ .event env start e :: after) =
      (before ++ .thread (.report t true) :: between) ++ .event env start e :: after by simp, run_append] at hz
    rwa [sized_append] at hz
  have hu' := undisturbed_append.1 hun
  have hzb : Sized (run c (init client fs) before).2 ∧ Sized (run c (run c (init client fs) before).1 (.thread (.report t true) :: between)).2 := by
    have := hz'.1
    rw [run_append] at this
    rwa [sized_append] at this
  have hzc : Sized (step c (run c (init client fs) before).1 (.thread (.report t true))).2 ∧
      Sized (run c (step c (run c (init client fs) before).1 (.thread (.report t true))).1 between).2 := by
    have := hzb.2
    simp only [run] at this
    rwa [sized_append] at this
  have fb : ∀ m ∈ before, m.fair := fun m hm => hfair m (by simp [hm])
  have fm : ∀ m ∈ between, m.fair := fun m hm => hfair m (by simp [hm])
  have nb : ∀ m ∈ before, m.noInstruction := fun m hm => hni m (by simp [hm])
  have nm : ∀ m ∈ between, m.noInstruction := fun m hm => hni m (by simp [hm])
  -- up to the report
  obtain ⟨b1, -, -, b4⟩ := run_good c before _ (good_init c client fs hh) fb nb hzb.1 hu'.1
  generalize hs1 : (run c (init client fs) before).1 = s1 at *
  have hop : ∀ p st, DirectoryScanner.Op.report t true ≠ .request p st := by intro p st; simp
  have hchanged : (ScanWire.after c s1 (.report t true)).replies ≠ s1.scan.replies := by
    intro he
    rw [step_thread c s1 _ hop] at hsays
    dsimp only at hsays
    rw [if_pos he] at hsays
    simp [results, sentOf] at hsays
  obtain ⟨json, hw, hfile⟩ : ∃ json, s1.scan.phase t = .written json ∧ (ScanWire.after c s1 (.report t true)).file = fileAt c s1.files.fs := by
    rcases DirectoryScanner.step_replies { s1.scan with file := fileAt c s1.files.fs } _ (allowed_not_request c s1.files.fs _ hop) with h | ⟨u, json, h1, h2, -, h4⟩
    · exact absurd h hchanged
    · have : u = t := by
        have h1' : DirectoryScanner.Op.report t true = .report u true := h1
        injection h1' with h1'
        exact h1'.symm
      subst this
      exact ⟨json, h2, h4⟩
  have hj : fileAt c s1.files.fs = some json := b1.inv.written t json hw
  obtain ⟨m1, -, -, -⟩ := thread_step c s1 b1 (.report t true)
  have hj2 : fileAt c (step c s1 (.thread (.report t true))).1.files.fs = some json := by
    rw [thread_file c s1 _ hop, step_thread c s1 _ hop]
    exact hfile.trans hj
  -- up to the opening
  have hclean := run_clean c json between _ m1 fm nm hzc.2 hu'.2.2 hlast (.inl hj2)
  obtain ⟨g1, g2, g3, -⟩ := run_good c _ _ (good_init c client fs hh) (fun m hm => hfair m (by
    simp only [List.mem_append, List.mem_cons] at hm ⊢; rcases hm with h | h | h <;> simp [h])) hni hz'.1 hun
  have hend : (run c (init client fs) (before ++ .thread (.report t true) :: between)).1 =
      (run c (step c s1 (.thread (.report t true))).1 between).1 := by
    rw [run_append, hs1]
    simp only [run]
  have hnext : (run c (init client fs) (before ++ .thread (.report t true) :: between)).1.scan.next ≤
      (run c (init client fs) (before ++ .thread (.report t true) :: between)).1.scan.replies.length := by
    have e0 : (init client fs).scan.next = 0 := rfl
    have e1 : (init client fs).scan.replies.length = 0 := rfl
    omega
  have hnd := DirectoryScanner.settled g1.inv hnext
  have hj3 : fileAt c (run c (init client fs) (before ++ .thread (.report t true) :: between)).1.files.fs = some json := by
    rw [hend]
    rcases hclean with h | ⟨u, h⟩
    · exact h
    · refine absurd h ?_
      have := hnd u
      rw [hend] at this
      exact this
  generalize hs3 : (run c (init client fs) (before ++ .thread (.report t true) :: between)).1 = s3 at *
  have hfs : s3.files.fs (scanKey c) = some (.file json) := by
    unfold fileAt at hj3
    split at hj3
    · rename_i d hd
      injection hj3 with hj3
      rw [hd, hj3]
    · exact (nomatch hj3)
  -- the reading
  have hze : Sized (step c s3 (.event env start e)).2 ∧ Sized (run c (step c s3 (.event env start e)).1 after).2 := by
    have := hz'.2
    simp only [run] at this
    rwa [sized_append] at this
  obtain ⟨ms', l1, l2, l3, l4, l5, l6, l7⟩ := lower_run c (utf8Encode id) (snapKey c id) hsep after (step c s3 (.event env start e)).1
    (fun m hm => hfair m (by simp [hm])) hok hsn hze.2
  have hstep : (step c s3 (.event env start e)).1.files = (RemoteFiles.step c s3.files (.event
      { env with client := { env.client with scanError := if s3.scan.lock = none then start else none } } e)).1 := rfl
  rw [hstep] at l1 l2 l6 l7
  obtain ⟨p, f, d, h1, h2, h3, h4, h5⟩ := RemoteFiles.c111_snapshot c hs id hp hid s3.files g1.hung
    { env with client := { env.client with scanError := if s3.scan.lock = none then start else none } } e scanJson hopen n ms'
    (by intro m hm
        rcases List.mem_cons.1 hm with rfl | hm
        · exact hfair (.event env start e) (by simp)
        · exact l3 m hm)
    (by simp only [RemoteFiles.run]; rw [sized_append]; exact ⟨hze.1, l6⟩) hans l2 l4
  rw [scanJson_decode] at h1
  injection h1 with h1
  subst h1
  rw [scanJson_file] at h2
  injection h2 with h2
  subst h2
  have hd : d = json := by
    have : s3.files.fs (scanKey c) = some (.file d) := h3
    rw [hfs] at this
    injection this with this
    injection this with this
    exact this.symm
  subst hd
  refine ⟨d, ?_, h4, fun hl => by rw [l7, h5 hl, l5]⟩
  rcases b4 t d (by rw [hw]; rfl) with h | h
  · simp [init, DirectoryScanner.init, DirectoryScanner.made] at h
  · exact h

/-- A device with a folder for temporary files. -/
def scanFS : FS := exampleFS.set ["tmp".toList] (some .dir)

def jsonA : Bytes := asc "{a:1}"
def jsonB : Bytes := asc "{b:2}"

def askScan : Move := .event {} none (.binary (asc "li29ee"))
def openScan : Move := .event {} none (.binary (asc "li24e2:u110:" ++ scanJson ++ asc "e"))
def readScan (o : String) : Move := .event {} none (.binary (asc ("li27e2:u1i" ++ o ++ "ei3ee")))

/-- A thread scans, and writes five bytes in two pieces. -/
def scanMoves (t : Nat) (json : Bytes) : List Move :=
  [.thread (.acquire t), .thread (.scan t (some json)), .thread (.openFile t true), .thread (.write t 2), .thread (.write t 3),
   .thread (.close t)]

def told : Move := .thread (.report 0 true)

/-- A server that asks, is told, and reads in pieces of three, while a second scan runs that was asked for after the opening. -/
def readMoves : List Move :=
  [readScan "0", askScan, .thread (.acquire 1), .thread (.scan 1 (some (asc "[]"))), .thread (.openFile 1 true), readScan "3"]

example : results (run exampleCfg (init {} scanFS) (askScan :: scanMoves 0 jsonA ++ [told])).2 = [[]] := by decide +kernel
example : (askScan :: scanMoves 0 jsonA ++ [told]).countP Move.asks = 1 := by decide +kernel
example : RemoteFiles.openAnswers (asc "u1") (run exampleCfg (init {} scanFS) (askScan :: scanMoves 0 jsonA ++ [told, openScan])).2 = [(5, 0)] := by
  decide +kernel
example : (RemoteFiles.readAnswers (asc "u1") (run exampleCfg (init {} scanFS) (askScan :: scanMoves 0 jsonA ++ told :: openScan :: readMoves)).2).map
    (·.data) = [asc "{a:", asc "1}"] := by decide +kernel
example : fileAt exampleCfg (run exampleCfg (init {} scanFS) (askScan :: scanMoves 0 jsonA ++ told :: openScan :: readMoves)).1.files.fs = some [] := by
  decide +kernel
example : ¬ scanKey exampleCfg <+: snapKey exampleCfg "u1".toList := by decide +kernel
/-- A thread that can not be started. -/
example : results (run exampleCfg (init {} scanFS) [.event {} (some "no threads".toList) (.binary (asc "li29ee"))]).2 = [asc "no threads"] := by
  decide +kernel

/-- C120 in full would say: if the server was told of a success and later opens the result with code 0, it gets the JSON of some scan.  This is
false: of two scans asked for at once, the second one has emptied the file when the server, told of the first, opens it. -/
theorem c120_counterexample : ¬ ∀ (c : Cfg) (client : St) (fs : FS) (id : Bytes) (before between : List Move) (t : Nat) (env : RemoteFiles.Env)
    (start : Option Text) (e : Ev) (n : Int), c.Sane →
    results (step c (run c (init client fs) before).1 (.thread (.report t true))).2 = [[]] → requestIn e = some (.openFile id scanJson) →
    RemoteFiles.openAnswers id (step c (run c (init client fs) (before ++ .thread (.report t true) :: between)).1 (.event env start e)).2 = [(n, 0)] →
    ∃ json, Scanned (before ++ .thread (.report t true) :: between) json ∧ n = json.length := by
  intro h
  obtain ⟨json, ⟨t, ht⟩, hn⟩ := h exampleCfg {} scanFS (asc "u1") (askScan :: askScan :: scanMoves 0 jsonA)
    [.thread (.acquire 1), .thread (.scan 1 (some jsonB)), .thread (.openFile 1 true)] 0 {} none
    (.binary (asc "li24e2:u110:" ++ scanJson ++ asc "e")) 0
    (Cfg.init_sane _ _ _ _ _ rfl rfl (by rw [← validatePath_iff]; decide +kernel)) (by decide +kernel) (by decide +kernel) (by decide +kernel)
  have hall : ∀ m ∈ (askScan :: askScan :: scanMoves 0 jsonA) ++ Move.thread (.report 0 true) ::
      [.thread (.acquire 1), .thread (.scan 1 (some jsonB)), .thread (.openFile 1 true)],
      ∀ t json, m = .thread (.scan t (some json)) → json = jsonA ∨ json = jsonB := by
    intro m hm t json he
    subst he
    simp only [scanMoves, askScan, List.mem_append, List.mem_cons, List.not_mem_nil, or_false, reduceCtorEq, false_or, Move.thread.injEq,
      DirectoryScanner.Op.scan.injEq, Option.some.injEq] at hm
    rcases hm with ⟨-, h⟩ | ⟨-, h⟩
    · exact .inl h
    · exact .inr h
  rcases hall _ ht t json rfl with rfl | rfl
  · exact absurd hn (by decide +kernel)
  · exact absurd hn (by decide +kernel)

/-- C120, the place of the scan: whatever a thread of the scanner does, it changes no file but the scan file, and it makes no file where
a folder lies or where the folder of the scan file is missing. -/
theorem c120_place (c : Cfg) (s : Sys) (op : DirectoryScanner.Op) :
    (∀ k, k ≠ scanKey c → (step c s (.thread op)).1.files.fs k = s.files.fs k) ∧
    ((step c s (.thread op)).1.files.fs (scanKey c) = s.files.fs (scanKey c) ∨
      ((∃ d, s.files.fs (scanKey c) = some (.file d)) ∨ (s.files.fs.writable c.cwd (scanPath c)).isSome)) := by
  by_cases hr : ∃ p st, op = .request p st
  · obtain ⟨p, st, rfl⟩ := hr
    exact ⟨fun _ _ => rfl, .inl rfl⟩
  · have h : ∀ p st, op ≠ .request p st := fun p st e => hr ⟨p, st, e⟩
    rw [step_thread c s op h]
    dsimp only
    split
    · exact ⟨fun _ _ => rfl, .inl rfl⟩
    · rename_i hne
      refine ⟨fun k hk => by simp [FS.set, hk], .inr ?_⟩
      by_cases hf : ∃ d, s.files.fs (scanKey c) = some (.file d)
      · exact .inl hf
      · refine .inr ?_
        have hn : fileAt c s.files.fs = none := by
          unfold fileAt
          split
          · rename_i d hd; exact absurd ⟨d, hd⟩ hf
          · rfl
        cases hw : (s.files.fs.writable c.cwd (scanPath c)).isSome with
        | true => rfl
        | false =>
          refine absurd ?_ hne
          rw [hn]
          unfold after
          rw [hn]
          cases op with
          | request p st => exact absurd rfl (h p st)
          | openFile t ok =>
            simp only [allowed, hw, Bool.and_false, DirectoryScanner.step]
            split <;> rfl
          | report t ok =>
            simp only [allowed, DirectoryScanner.step]
            repeat' split
            all_goals rfl
          | _ =>
            simp only [allowed, DirectoryScanner.step]
            repeat' split
            all_goals rfl

end Verif.ScanWire
