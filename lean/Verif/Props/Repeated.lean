import Verif.Props.RemoteDirectory
/-!
C193: write requests that the server sends again because it got no answer.
-/
namespace Verif.RemoteDirectory
open Verif Path

theorem writeAt_twice (old : Bytes) (o : Nat) (data : Bytes) : writeAt (writeAt old o data) o data = writeAt old o data := by
  apply List.ext_getElem?
  intro i
  rw [writeAt_get, writeAt_get, writeAt_length]
  split
  · have : i < max old.length (o + data.length) := by omega
    rw [if_pos this]
  · split <;> rfl

theorem chunk_eq (r : PyVal → String) (c : Cfg) (fs : FS) (id path : Bytes) (dev : Text) (hdev : dev ≠ []) (cur : Bytes)
    (hc : fs.content c.cwd dev = some cur) (ch : Chunk) (ho : ch.offset ≤ maxSize) :
    onWrite r c {} fs id path (utf8Encode dev) ch.offset ch.data 0 =
      (if ch.data = [] then fs else fs.set (lexKey (join c.cwd dev)) (some (.file (writeAt cur ch.offset ch.data))),
       written id (utf8Encode dev) ch) := by
  simp only [onWrite, utf8Decode_encode, hdev, if_false]
  cases hd : ch.data with
  | nil => simp [create32, written, hd]
  | cons a b =>
    have h0 := writeChunk_good hc ch.offset ho ch.data
    rw [hd] at h0
    simp only [List.isEmpty_cons, Bool.false_eq_true, if_false, h0]
    simp [create32, written, hd]

theorem set_set (fs : FS) (k : List Text) (a b : Option Node) : (fs.set k a).set k b = fs.set k b := by
  funext x
  by_cases h : x = k
  · rw [h, FS.set_same, FS.set_same]
  · rw [FS.set_other _ _ h, FS.set_other _ _ h, FS.set_other _ _ h]

theorem set_eq (fs : FS) (k : List Text) (a : Option Node) (h : fs k = a) : fs.set k a = fs := by
  funext x
  by_cases hx : x = k
  · rw [hx, FS.set_same, h]
  · rw [FS.set_other _ _ hx]

/-- C193, the part that holds: a chunk that is not the last one can be sent again, for instance because its answer was lost; the files are then as
after the first time, and the answer is the same.  Missing: the last one, see `c193_final`. -/
theorem c193_chunk_partial (r : PyVal → String) (c : Cfg) (fs : FS) (id path : Bytes) (dev : Text) (hdev : dev ≠ []) (cur : Bytes)
    (hc : fs.content c.cwd dev = some cur) (ch : Chunk) (ho : ch.offset ≤ maxSize) :
    let request := fun fs => onWrite r c {} fs id path (utf8Encode dev) ch.offset ch.data 0
    (request fs).2 = written id (utf8Encode dev) ch ∧ request (request fs).1 = request fs := by
  intro request
  have h1 : request fs = _ := chunk_eq r c fs id path dev hdev cur hc ch ho
  refine ⟨by rw [h1], ?_⟩
  rw [h1]
  by_cases hd : ch.data = []
  · rw [if_pos hd]
    show request fs = _
    rw [h1, if_pos hd]
  · rw [if_neg hd]
    show onWrite r c {} _ id path (utf8Encode dev) ch.offset ch.data 0 = _
    rw [chunk_eq r c _ id path dev hdev _ (content_set hc _) ch ho, if_neg hd, set_set, writeAt_twice]

theorem addDownload_isDir {c : Cfg} {b1 b2 : Bool} {fs fs' : FS} {id p : Text} (h : addDownload c b1 b2 fs id = (fs', some p)) :
    fs'.isDir c.cwd (downloadDir c) = true ∧ fs' (lexKey (join c.cwd p)) = some (.file []) := by
  simp only [addDownload] at h
  split at h
  · simp at h
  · rename_i fs1 hm
    have hd1 : fs1.isDir c.cwd (downloadDir c) = true := by
      split at hm
      · rename_i hd
        injection hm with hm
        rw [← hm]
        exact hd
      · split at hm
        · simp at hm
        · have hch := change_mkdir (K := []) hm
          obtain ⟨m1, m2⟩ := FS.mkdir_some hm
          rw [isDir_iff]
          refine ⟨?_, by rw [m2]; simp⟩
          apply FS.place_mono hch.dirs
          simp only [FS.mkdir] at hm
          split at hm
          · rename_i k hp; rw [hp, ← FS.place_lex hp]
          · simp at hm
    split at h
    · simp at h
    · split at h
      · rename_i k hw
        simp at h
        obtain ⟨e1, e2⟩ := h
        subst e1 e2
        obtain ⟨w1, w2, w3⟩ := FS.writable_some hw
        refine ⟨isDir_mono ?_ hd1, by rw [w2]; simp⟩
        intro x hx
        rw [FS.set_other]
        · exact hx
        · intro e; rw [e] at hx; exact w3 hx
      · simp at h

/-- C193, the part that holds for the first chunk, which comes without a device path: it too can be sent again, before others are sent. -/
theorem c193_first_partial (r : PyVal → String) (c : Cfg) (fs fs1 : FS) (idText : Text) (path : Bytes) (dev : Text) (hdev : dev ≠ [])
    (hadd : addDownload c false false fs idText = (fs1, some dev)) (ch : Chunk) (ho : ch.offset ≤ maxSize) :
    let request := fun fs => onWrite r c {} fs (utf8Encode idText) path [] ch.offset ch.data 0
    (request fs).2 = written (utf8Encode idText) (utf8Encode dev) ch ∧ request (request fs).1 = request fs := by
  intro request
  have hfirst : ∀ fs fs1, addDownload c false false fs idText = (fs1, some dev) →
      request fs = onWrite r c {} fs1 (utf8Encode idText) path (utf8Encode dev) ch.offset ch.data 0 := by
    intro fs fs1 hadd
    show onWrite r c {} fs (utf8Encode idText) path [] ch.offset ch.data 0 = _
    simp only [onWrite, utf8Decode_encode, hdev, if_false]
    have : utf8Decode [] = some [] := rfl
    simp only [this, if_true, hadd]
  obtain ⟨hp, hcont⟩ := addDownload_some hadd
  obtain ⟨hdir, hempty⟩ := addDownload_isDir hadd
  have h1 := hfirst fs fs1 hadd
  have h2 := chunk_eq r c fs1 (utf8Encode idText) path dev hdev [] hcont ch ho
  rw [h2] at h1
  refine ⟨by rw [h1], ?_⟩
  have hagain : addDownload c false false (request fs).1 idText = (fs1, some dev) := by
    rw [h1]
    have hK : ∀ new, addDownload c false false (fs1.set (lexKey (join c.cwd dev)) (some (.file new))) idText = (fs1, some dev) := by
      intro new
      have hdirs : ∀ x, fs1 x = some .dir → (fs1.set (lexKey (join c.cwd dev)) (some (.file new))) x = some .dir := by
        intro x hx
        rw [FS.set_other]
        · exact hx
        · intro e; rw [e, hempty] at hx; exact (nomatch hx)
      have hd' := isDir_mono hdirs hdir
      have hpl := FS.place_mono hdirs (FS.content_some hcont).1
      have hw : (fs1.set (lexKey (join c.cwd dev)) (some (.file new))).writable c.cwd (join (downloadDir c) idText) =
          some (lexKey (join c.cwd dev)) := by
        rw [← hp]
        simp only [FS.writable, hpl, FS.set_same]
        simp
      simp only [addDownload, hd', if_true, Bool.false_eq_true, if_false, hw, set_set]
      rw [set_eq _ _ _ hempty, hp]
    by_cases hd : ch.data = []
    · rw [if_pos hd]
      have := hK []
      rw [set_eq _ _ _ hempty] at this
      exact this
    · rw [if_neg hd]
      exact hK _
  rw [hfirst _ _ hagain, h2, h1]

/-- C193 fails for every last chunk: once it was stored and acknowledged, the same request sent again is answered with a failure, whatever the system
does; nothing is stored twice, and all files stay as they are. -/
theorem c193_final (r : PyVal → String) (c : Cfg) (fs : FS) (id path : Bytes) (dev : Text) (hdev : dev ≠ []) (cur : Bytes)
    (hc : fs.content c.cwd dev = some cur) (ch : Chunk) (ho : ch.offset ≤ maxSize) (final : Int) (hf : final ≠ 0) (env : WriteEnv) :
    let request := fun env fs => onWrite r c env fs id path (utf8Encode dev) ch.offset ch.data final
    (request {} fs).2 = written id (utf8Encode dev) ch →
    request env (request {} fs).1 = ((request {} fs).1, some [.ok ⟨writeResult, [.bytes id, .int ch.offset, .int ch.data.length,
      .bytes (utf8Encode dev), .int (if ch.data = [] then 3 else 2), .bytes (utf8Encode env.msg)]⟩]) := by
  intro request hack
  obtain ⟨fs', cur', h1, -, h3, -⟩ := onWrite_chunk r c fs id path dev hdev cur hc ch ho final
  change request {} fs = _ at h3
  rw [if_neg hf] at h3
  have hgone : (request {} fs).1 (lexKey (join c.cwd dev)) = none := by
    cases hcd : copyDownload c {} fs' dev path with
    | mk fs'' b =>
      rw [hcd] at h3
      cases b with
      | false =>
        rw [h3] at hack
        simp [written] at hack
      | true =>
        have hs := isDir_of_content h1
        obtain ⟨dest, content, hd, -, -, h4⟩ := c58_success c {} fs' fs'' dev path hs hcd
        rw [h3]
        rcases h4 with h4 | h4
        · have hfree := c58_free c {} fs' fs'' dev path hs hcd dest hd
          rw [← h4, (FS.content_some h1).2] at hfree
          exact (nomatch hfree)
        · exact h4
  generalize (request {} fs).1 = g at hgone
  have hstat : g.stat c.cwd dev = none := by
    simp only [FS.stat]
    cases hp : g.place c.cwd dev with
    | none => rfl
    | some k => rw [FS.place_lex hp]; exact hgone
  have hcont : g.content c.cwd dev = none := by simp only [FS.content, hstat]
  have hrem : ∀ b, remove c.cwd b g dev = g := by
    intro b
    simp only [remove]
    cases b with
    | true => rfl
    | false =>
      simp only [Bool.false_eq_true, if_false]
      cases hp : g.place c.cwd dev with
      | none => rfl
      | some k =>
        have := FS.place_lex hp
        subst this
        simp only [hgone]
  show onWrite r c env g id path (utf8Encode dev) ch.offset ch.data final = _
  simp only [onWrite, utf8Decode_encode, hdev, if_false]
  cases hd : ch.data with
  | nil =>
    have hcp : copyDownload c env g dev path = (g, false) := by
      simp only [copyDownload]
      cases destination c g path with
      | none => rfl
      | some dest =>
        simp only [moveFile, hstat]
        cases g.place c.cwd dev <;> rfl
    simp [hf, hcp, create32]
  | cons a b =>
    have hw : writeChunk c.cwd env.write g dev ch.offset (a :: b) = (g, false) := by
      simp only [writeChunk, hcont]
      cases g.place c.cwd dev <;> rfl
    simp [hw, hrem, create32]

/-- A file of one chunk that is stored and acknowledged. -/
theorem whole_stored (r : PyVal → String) (c : Cfg) (fs : FS) (idText : Text) (path data : Bytes) (hd : data ≠ []) (final : Int) (hf : final ≠ 0)
    (dev : Bytes) (hack : (onWrite r c {} fs (utf8Encode idText) path [] 0 data final).2 = written (utf8Encode idText) dev ⟨0, data⟩) :
    ∃ fs1 p e, addDownload c false false fs idText = (fs1, some p) ∧ fs1 e = none ∧
      (onWrite r c {} fs (utf8Encode idText) path [] 0 data final).1 e = some (.file data) ∧
      ∀ x, x ≠ lexKey (join c.cwd p) → x ≠ e → (onWrite r c {} fs (utf8Encode idText) path [] 0 data final).1 x = fs1 x := by
  have hnil : utf8Decode [] = some [] := rfl
  have hemp : data.isEmpty = false := by cases data with | nil => exact absurd rfl hd | cons _ _ => rfl
  simp only [onWrite, hnil, if_true, utf8Decode_encode, create32] at hack ⊢
  rcases hadd : addDownload c false false fs idText with ⟨fs1, o⟩
  cases o with
  | none => rw [hadd] at hack; simp [written] at hack
  | some p =>
    simp only [hadd, hemp, Bool.false_eq_true, if_false] at hack ⊢
    obtain ⟨-, hcont⟩ := addDownload_some hadd
    have hw := writeChunk_good hcont 0 (by decide) data
    have hat : writeAt [] 0 data = data := by simp [writeAt]
    rw [hat] at hw
    have h0 : ((0 : Nat) : Int) = 0 := rfl
    rw [h0] at hw
    simp only [hw, if_pos hf] at hack ⊢
    have hc2 := content_set hcont data
    have hs := isDir_of_content hc2
    rcases hcd : copyDownload c {} (fs1.set (lexKey (join c.cwd p)) (some (.file data))) p path with ⟨fs3, b⟩
    cases b with
    | false => rw [hcd] at hack; simp [written] at hack
    | true =>
      obtain ⟨dest, content, h1, h2, h3, -⟩ := c58_success c {} _ fs3 p path hs hcd
      rw [hc2] at h2
      cases h2
      have hfree := c58_free c {} _ fs3 p path hs hcd dest h1
      have hne : lexKey (join c.cwd dest) ≠ lexKey (join c.cwd p) := by
        intro e
        rw [e, FS.set_same] at hfree
        exact (nomatch hfree)
      rw [FS.set_other _ _ hne] at hfree
      refine ⟨fs1, p, _, rfl, hfree, h3, fun x hx1 hx2 => ?_⟩
      have := c59_no_overwrite c {} (fs1.set (lexKey (join c.cwd p)) (some (.file data))) p path hs x
      rw [hcd] at this
      have e : fs3 x = (fs1.set (lexKey (join c.cwd p)) (some (.file data))) x := by
        apply Classical.byContradiction
        intro hn
        rcases this hn with h | ⟨dest', h4, h5, -⟩
        · exact hx1 h
        · rw [h1] at h4
          cases h4
          exact hx2 h5
      show fs3 x = fs1 x
      rw [e, FS.set_other _ _ hx1]

theorem addDownload_kept {c : Cfg} {fs fs' : FS} {id p : Text} (h : addDownload c false false fs id = (fs', some p)) (k : List Text) (hk : fs k ≠ none)
    (hne : k ≠ lexKey (join c.cwd p)) : fs' k = fs k := by
  simp only [addDownload, Bool.false_eq_true, if_false] at h
  have key : ∀ fs1 : FS, fs1 k = fs k → (match fs1.writable c.cwd (join (downloadDir c) id) with
      | some k => ((fs1.set k (some (.file [])), some (join (downloadDir c) id)) : FS × Option Text)
      | none => (fs1, none)) = (fs', some p) → fs' k = fs k := by
    intro fs1 h1 h
    cases hw : fs1.writable c.cwd (join (downloadDir c) id) with
    | none => rw [hw] at h; injection h with _ h; exact (nomatch h)
    | some k' =>
      rw [hw] at h
      injection h with h2 h3
      injection h3 with h3
      obtain ⟨-, w2, -⟩ := FS.writable_some hw
      rw [← h2, FS.set_other _ _ (by rw [w2, h3]; exact hne), h1]
  split at h
  · injection h with _ h; exact (nomatch h)
  · rename_i fs1 hm
    refine key fs1 ?_ h
    split at hm
    · injection hm with hm; rw [hm]
    · obtain ⟨m1, m2⟩ := FS.mkdir_some hm
      rw [m2, FS.set_other]
      intro e
      exact hk (e ▸ m1)

/-- C193 fails for every file of one chunk: if the request is acknowledged both times, then there are two files with the data. -/
theorem c193_two_files (r : PyVal → String) (c : Cfg) (fs : FS) (idText : Text) (path data : Bytes) (hd : data ≠ []) (final : Int) (hf : final ≠ 0)
    (dev dev' : Bytes) :
    let request := fun fs => onWrite r c {} fs (utf8Encode idText) path [] 0 data final
    (request fs).2 = written (utf8Encode idText) dev ⟨0, data⟩ → (request (request fs).1).2 = written (utf8Encode idText) dev' ⟨0, data⟩ →
    ∃ k k', k ≠ k' ∧ (request fs).1 k' = none ∧ (request (request fs).1).1 k = some (.file data) ∧ (request (request fs).1).1 k' = some (.file data) := by
  intro request h1 h2
  obtain ⟨fs1, p, e, a1, a2, a3, -⟩ := whole_stored r c fs idText path data hd final hf dev h1
  obtain ⟨fs2, p', e', b1, b2, b3, b4⟩ := whole_stored r c (request fs).1 idText path data hd final hf dev' h2
  obtain ⟨hp, -⟩ := addDownload_some a1
  obtain ⟨hp', -⟩ := addDownload_some b1
  obtain ⟨-, hempty⟩ := addDownload_isDir a1
  have hne : e ≠ lexKey (join c.cwd p') := by
    intro h
    rw [hp', ← hp] at h
    rw [h, hempty] at a2
    exact (nomatch a2)
  have hstay : fs2 e = some (.file data) := by
    rw [addDownload_kept b1 e (by rw [a3]; exact fun h => (nomatch h)) hne]
    exact a3
  have hee : e ≠ e' := by
    intro h
    rw [h, b2] at hstay
    exact (nomatch hstay)
  refine ⟨e, e', hee, ?_, ?_, b3⟩
  · apply Classical.byContradiction
    intro hn
    by_cases hk : e' = lexKey (join c.cwd p')
    · rw [hk, (addDownload_isDir b1).2] at b2
      exact (nomatch b2)
    · rw [addDownload_kept b1 e' hn hk] at b2
      exact hn b2
  · have := b4 e hne hee
    rw [hstay] at this
    exact this

/-- The temporary file of the download with the name `d1`. -/
def d1 : Bytes := utf8Encode (join (downloadDir exampleCfg) "d1".toList)

/-- A request to write to `d1`, to be stored as `x`. -/
def put (device : Bytes) (offset : Int) (data : String) (final : Int) (fs : FS) : FS × Option (List Sent) :=
  onWrite (fun _ => "") exampleCfg {} fs (asc "d1") (asc "x") device offset (asc data) final

/-- C193 fails: the answer to the last chunk is lost; the file is stored, and the server, which sends the chunk again, is told that it can not be
written. -/
theorem c193_counterexample :
    let fs := (put [] 0 "hi" 0 exampleFS).1
    let once := put d1 2 "ho" 1 fs
    once.2 = some [.ok ⟨writeResult, [.bytes (asc "d1"), .int 4, .int 2, .bytes d1, .int 0, .bytes []]⟩] ∧
    (put d1 2 "ho" 1 once.1).2 = some [.ok ⟨writeResult, [.bytes (asc "d1"), .int 2, .int 2, .bytes d1, .int 2, .bytes []]⟩] ∧
    once.1 (lexKey (join exampleCfg.root "x".toList)) = some (.file (asc "hiho")) := by decide +kernel

/-- C193 fails: a file of one chunk, whose answer is lost, is stored a second time under another name when it is sent again. -/
theorem c193_doubled :
    let once := put [] 0 "hi" 1 exampleFS
    let twice := put [] 0 "hi" 1 once.1
    once.2 = twice.2 ∧ once.1 (lexKey (join exampleCfg.root "x".toList)) = some (.file (asc "hi")) ∧
    once.1 (lexKey (join exampleCfg.root "x(1)".toList)) = none ∧
    twice.1 (lexKey (join exampleCfg.root "x".toList)) = some (.file (asc "hi")) ∧
    twice.1 (lexKey (join exampleCfg.root "x(1)".toList)) = some (.file (asc "hi")) := by decide +kernel

/-- C193: the first chunk, which comes without a device path, begins the download anew: sent again after a later one, it takes that back. -/
theorem c193_anew :
    let fs := (put d1 2 "ho" 0 (put [] 0 "hi" 0 exampleFS).1).1
    fs.content exampleCfg.cwd (join (downloadDir exampleCfg) "d1".toList) = some (asc "hiho") ∧
    (put [] 0 "hi" 0 fs).1.content exampleCfg.cwd (join (downloadDir exampleCfg) "d1".toList) = some (asc "hi") := by decide +kernel

end Verif.RemoteDirectory
