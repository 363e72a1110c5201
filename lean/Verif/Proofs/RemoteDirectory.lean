import Verif.Spec.RemoteDirectory
import Verif.Proofs.Path
import Verif.Proofs.Packets
/-!
Helper lemmas for the remote directory.
-/
namespace Verif.RemoteDirectory
open Verif Path

theorem names_eq (p : Text) : names p = (splitOn '/' p).filter isName := rfl

theorem validatePath_iff (p : Text) : validatePath p = true ↔ ¬ GoesUp p := by
  simp [validatePath, GoesUp]

theorem ne_nil_of_head {a : Text} {x : Char} (h : a.head? = some x) : a ≠ [] := by
  intro e; subst e; simp at h

/-! ### Changes -/

/-- What a step may do to a place: nothing, make a folder where there was nothing, or something to the place `K` unless it is a folder. -/
def Change (K : List Text) (fs fs' : FS) : Prop :=
  ∀ k, fs' k = fs k ∨ (fs k = none ∧ fs' k = some .dir) ∨ (k = K ∧ fs k ≠ some .dir)

theorem Change.refl (K : List Text) (fs : FS) : Change K fs fs := fun _ => .inl rfl

theorem Change.dirs {K : List Text} {fs fs' : FS} (h : Change K fs fs') : ∀ k, fs k = some .dir → fs' k = some .dir := by
  intro k hk
  rcases h k with h | h | h
  · rw [h, hk]
  · rw [hk] at h; simp at h
  · exact absurd hk h.2

theorem Change.trans {K : List Text} {a b d : FS} (h1 : Change K a b) (h2 : Change K b d) : Change K a d := by
  intro k
  by_cases hd : a k = some .dir
  · exact .inl (by rw [h2.dirs k (h1.dirs k hd), hd])
  · rcases h2 k with h | h | h
    · rw [h]; exact h1 k
    · rcases h1 k with h' | h' | h'
      · exact .inr (.inl ⟨by rw [← h', h.1], h.2⟩)
      · rw [h.1] at h'; simp at h'
      · exact .inr (.inr h')
    · exact .inr (.inr ⟨h.1, hd⟩)

theorem Change.keeps {K : List Text} {fs fs' : FS} (h : Change K fs fs') {k : List Text} (hk : k ≠ K) (hs : fs k ≠ none) : fs' k = fs k := by
  rcases h k with h | h | h
  · exact h
  · exact absurd h.1 hs
  · exact absurd h.1 hk

theorem change_set {K : List Text} {fs : FS} (n : Option Node) (h : fs K ≠ some .dir) : Change K fs (fs.set K n) := by
  intro k
  by_cases hk : k = K
  · exact .inr (.inr ⟨hk, by rw [hk]; exact h⟩)
  · exact .inl (FS.set_other fs n hk)

theorem change_mkdir {K : List Text} {fs fs' : FS} {cwd p : Text} (h : fs.mkdir cwd p = some fs') : Change K fs fs' := by
  obtain ⟨h1, h2⟩ := FS.mkdir_some h
  intro k
  by_cases hk : k = lexKey (join cwd p)
  · exact .inr (.inl ⟨by rw [hk]; exact h1, by rw [h2, hk]; simp⟩)
  · exact .inl (by rw [h2]; exact FS.set_other fs _ hk)

/-- `get_snapshot_path` only makes a folder where there was nothing; the place it may make is the snapshot folder. -/
theorem getSnapshotPath_change (c : Cfg) (b : Bool) (fs : FS) (id : Text) :
    (∀ K, Change K fs (getSnapshotPath c b fs id).1) ∧
    (∀ p, (getSnapshotPath c b fs id).2 = .ok p → p = join (snapDir c) id) ∧
    (∀ k, (getSnapshotPath c b fs id).1 k ≠ fs k → k = lexKey (join c.cwd (snapDir c))) := by
  simp only [getSnapshotPath]
  split
  · exact ⟨fun K => .refl K fs, by simp, by simp⟩
  · split
    · exact ⟨fun K => .refl K fs, by simp, by simp⟩
    · split
      · rename_i fs' hm
        refine ⟨fun K => change_mkdir hm, by simp, ?_⟩
        intro k hk
        obtain ⟨-, h2⟩ := FS.mkdir_some hm
        apply Classical.byContradiction
        intro hn
        apply hk
        rw [h2]
        exact FS.set_other fs _ hn
      · exact ⟨fun K => .refl K fs, by simp, by simp⟩

theorem copyfile_change (c : Cfg) (io : Io) (fs : FS) (src dst : Text) :
    Change (lexKey (join c.cwd dst)) fs (copyfile c io fs src dst).1 := by
  simp only [copyfile]
  split
  · rename_i d k _ hw
    obtain ⟨-, h2, h3⟩ := FS.writable_some hw
    subst h2
    split
    · exact .refl _ _
    · split
      · exact change_set _ h3
      · exact .refl _ _
      · exact change_set _ h3
  · exact .refl _ _

theorem copyfile_ok {c : Cfg} {io : Io} {fs fs' : FS} {src dst : Text} (h : copyfile c io fs src dst = (fs', true)) :
    ∃ d, fs (lexKey (join c.cwd src)) = some (.file d) ∧ fs' = fs.set (lexKey (join c.cwd dst)) (some (.file d)) ∧
      fs.place c.cwd dst = some (lexKey (join c.cwd dst)) ∧ fs (lexKey (join c.cwd dst)) ≠ some .dir := by
  simp only [copyfile] at h
  split at h
  · rename_i d k hd hw
    obtain ⟨h1, h2, h3⟩ := FS.writable_some hw
    subst h2
    split at h
    · simp at h
    · split at h
      · simp at h
        exact ⟨d, (FS.content_some hd).2, h.symm, h1, h3⟩
      · simp at h
      · simp at h
  · simp at h

theorem addUpload_change (c : Cfg) (env : OpenEnv) (fs : FS) (path id : Text) :
    Change (snapKey c id) fs (addUpload c env fs path id).1 := by
  simp only [addUpload]
  split
  · exact .refl _ _
  · rename_i f _
    split
    · exact .refl _ _
    · obtain ⟨g1, g2, -⟩ := getSnapshotPath_change c env.mkdirFails fs id
      split
      · rename_i hq; rw [hq] at g1; exact g1 _
      · rename_i fs1 snap hq
        rw [hq] at g1 g2
        have hs := g2 snap rfl
        subst hs
        split
        · exact g1 _
        · have hc := copyfile_change c env.copy fs1 f (join (snapDir c) id)
          split
          · rename_i hcp; rw [hcp] at hc; exact (g1 _).trans hc
          · rename_i hcp
            rw [hcp] at hc
            split
            · split <;> exact (g1 _).trans hc
            · exact (g1 _).trans hc

theorem readUpload_change (c : Cfg) (env : ReadEnv) (fs : FS) (id : Text) (offset size : Int) (K : List Text) :
    Change K fs (readUpload c env fs id offset size).1 := by
  obtain ⟨g1, -, -⟩ := getSnapshotPath_change c env.mkdirFails fs id
  simp only [readUpload]
  split
  · rename_i hq; rw [hq] at g1; exact g1 _
  · rename_i hq
    rw [hq] at g1
    split
    · exact g1 _
    · split
      · exact g1 _
      · split <;> exact g1 _

theorem remove_change (cwd : Text) (b : Bool) (fs : FS) (p : Text) : Change (lexKey (join cwd p)) fs (remove cwd b fs p) := by
  simp only [remove]
  split
  · exact .refl _ _
  · split
    · rename_i k hp
      have hk := FS.place_lex hp
      subst hk
      split
      · rename_i he; exact change_set _ (by rw [he]; simp)
      · exact .refl _ _
    · exact .refl _ _

theorem closeUpload_change (c : Cfg) (env : CloseEnv) (fs : FS) (id : Text) : Change (snapKey c id) fs (closeUpload c env fs id) := by
  obtain ⟨g1, g2, -⟩ := getSnapshotPath_change c env.mkdirFails fs id
  simp only [closeUpload]
  split
  · rename_i hq; rw [hq] at g1; exact g1 _
  · rename_i fs1 snap hq
    rw [hq] at g1 g2
    have hs := g2 snap rfl
    subst hs
    split
    · exact (g1 _).trans (remove_change _ _ _ _)
    · exact g1 _

/-! ### Reading back -/

/-- A stored snapshot survives: the file is there and can be reached. -/
def Stored (c : Cfg) (id : Text) (d : Bytes) (fs : FS) : Prop :=
  fs.place c.cwd (join (snapDir c) id) = some (snapKey c id) ∧ fs (snapKey c id) = some (.file d) ∧ fs.isDir c.cwd (snapDir c) = true

theorem isDir_iff (fs : FS) (cwd p : Text) :
    fs.isDir cwd p = true ↔ fs.place cwd p = some (lexKey (join cwd p)) ∧ fs (lexKey (join cwd p)) = some .dir := by
  unfold FS.isDir
  rw [decide_eq_true_iff, FS.stat]
  cases hp : fs.place cwd p with
  | none => simp
  | some k => have e := FS.place_lex hp; subst e; simp

theorem isDir_mono {fs fs' : FS} (hd : ∀ k, fs k = some .dir → fs' k = some .dir) {cwd p : Text} (h : fs.isDir cwd p = true) :
    fs'.isDir cwd p = true := by
  rw [isDir_iff] at h ⊢
  exact ⟨FS.place_mono hd h.1, hd _ h.2⟩

theorem getSnapshotPath_isDir {c : Cfg} {b : Bool} {fs fs' : FS} {id p : Text} (h : getSnapshotPath c b fs id = (fs', .ok p)) :
    fs'.isDir c.cwd (snapDir c) = true := by
  simp only [getSnapshotPath] at h
  split at h
  · rename_i hd; simp at h; rw [← h.1]; exact hd
  · split at h
    · simp at h
    · split at h
      · rename_i fs1 hm
        simp at h
        obtain ⟨e, -⟩ := h
        subst e
        have hch := change_mkdir (K := []) hm
        obtain ⟨m1, m2⟩ := FS.mkdir_some hm
        rw [isDir_iff]
        refine ⟨?_, by rw [m2]; simp⟩
        apply FS.place_mono hch.dirs
        simp only [FS.mkdir] at hm
        split at hm
        · rename_i k hp; rw [hp, ← FS.place_lex hp]
        · simp at hm
      · simp at h

theorem getSnapshotPath_of_isDir (c : Cfg) (b : Bool) {fs : FS} (id : Text) (h : fs.isDir c.cwd (snapDir c) = true) :
    getSnapshotPath c b fs id = (fs, .ok (join (snapDir c) id)) := by
  simp [getSnapshotPath, h]

theorem walk_set_other {fs : FS} {k : List Text} {n : Option Node} (cs : List Text) (k0 : List Text) (K : List Text)
    (h : fs.walk k0 cs = some K) (hk : ∀ x, fs x = some .dir → x ≠ k ∨ n = some .dir ) : (fs.set k n).walk k0 cs = some K := by
  apply FS.walk_mono _ _ _ _ h
  intro x hx
  by_cases e : x = k
  · rcases hk x hx with h' | h'
    · exact absurd e h'
    · rw [e]; simp [h']
  · rw [FS.set_other _ _ e]; exact hx

/-- The folders used by `walk` on a path are prefixes of the place reached, for a path that does not go up. -/
theorem walk_set_prefix {fs : FS} {k : List Text} {n : Option Node} (cs : List Text) (k0 K : List Text) (hu : ['.', '.'] ∉ cs)
    (h : fs.walk k0 cs = some K) (hk : ¬ k <+: K) : (fs.set k n).walk k0 cs = some K := by
  have hp : k0 <+: K := by
    rw [FS.walk_lex _ _ _ _ h, foldl_lexStep _ _ hu]; simp
  induction cs generalizing k0 with
  | nil => simpa [FS.walk] using h
  | cons c cs ih =>
    simp only [FS.walk] at h ⊢
    split at h
    · rename_i hd
      have hne : k0 ≠ k := by intro e; subst e; exact hk hp
      rw [FS.set_other _ _ hne, if_pos hd]
      have hu' : ['.', '.'] ∉ cs := fun hm => hu (by simp [hm])
      refine ih _ hu' h ?_
      rw [FS.walk_lex _ _ _ _ h, foldl_lexStep _ _ hu']; simp
    · simp at h

theorem stored_change {c : Cfg} {id : Text} {d : Bytes} {fs fs' : FS} {K : List Text} (h : Stored c id d fs) (hc : Change K fs fs')
    (hk : K ≠ snapKey c id) : Stored c id d fs' :=
  ⟨FS.place_mono hc.dirs h.1, by rw [hc.keeps (fun e => hk e.symm) (by rw [h.2.1]; simp), h.2.1], isDir_mono hc.dirs h.2.2⟩

theorem stored_step {c : Cfg} {id : Text} {d : Bytes} {fs : FS} (hu : ¬ GoesUp (join c.cwd (join (snapDir c) id)))
    (hd : ¬ GoesUp (join c.cwd (snapDir c)) ∧ lexKey (join c.cwd (snapDir c)) <+: snapKey c id) (h : Stored c id d fs)
    (op : Op) (hl : op.leaves c (snapKey c id)) : Stored c id d (step c fs op) := by
  cases op with
  | opn env path id' => exact stored_change h (addUpload_change c env fs path id') hl
  | rd env id' o s =>
    by_cases hz : ([] : List Text) = snapKey c id
    · exact stored_change h (readUpload_change c env fs id' o s [[]]) (by rw [← hz]; simp)
    · exact stored_change h (readUpload_change c env fs id' o s []) hz
  | cls env id' => exact stored_change h (closeUpload_change c env fs id') hl
  | change k n =>
    have hplace : ∀ p, ¬ GoesUp (join c.cwd p) → ∀ K, fs.place c.cwd p = some K → ¬ k <+: K → (fs.set k n).place c.cwd p = some K := by
      intro p hp K hK hk
      simp only [FS.place] at hK ⊢
      split at hK
      · simp at hK
      · rename_i hn
        simp only [hn]
        exact walk_set_prefix _ _ _ hp hK hk
    refine ⟨hplace _ hu _ h.1 hl, ?_, ?_⟩
    · show fs.set k n (snapKey c id) = _
      rw [FS.set_other, h.2.1]
      intro e; exact hl (by rw [e]; exact List.prefix_refl _)
    · have hdir := (isDir_iff _ _ _).1 h.2.2
      have hk : ¬ k <+: lexKey (join c.cwd (snapDir c)) := fun hp => hl (hp.trans hd.2)
      refine (isDir_iff _ _ _).2 ⟨hplace _ hd.1 _ hdir.1 hk, ?_⟩
      show fs.set k n _ = _
      rw [FS.set_other, hdir.2]
      intro e; exact hk (by rw [e]; exact List.prefix_refl _)

theorem stored_run {c : Cfg} {id : Text} {d : Bytes} {fs : FS} (hu : ¬ GoesUp (join c.cwd (join (snapDir c) id)))
    (hd : ¬ GoesUp (join c.cwd (snapDir c)) ∧ lexKey (join c.cwd (snapDir c)) <+: snapKey c id) (h : Stored c id d fs)
    (ops : List Op) (hl : ∀ op ∈ ops, op.leaves c (snapKey c id)) : Stored c id d (run c fs ops) := by
  induction ops generalizing fs with
  | nil => exact h
  | cons op ops ih => exact ih (stored_step hu hd h op (hl op (by simp))) (fun o ho => hl o (by simp [ho]))

/-- A read of a stored snapshot. -/
theorem stored_read {c : Cfg} {id : Text} {d : Bytes} {fs : FS} (h : Stored c id d fs) (env : ReadEnv) (offset size : Int)
    (he : env.readFails = false) :
    readUpload c env fs id offset size = (fs, match seekRead d offset size with
      | some r => .ok r
      | none => .error (.read ("unable to read ".toList ++ c.repr id))) := by
  have hc := FS.content_of (p := join (snapDir c) id) h.1 h.2.1
  simp only [readUpload, getSnapshotPath_of_isDir c _ id h.2.2, he, Bool.false_eq_true, if_false, hc]
  cases seekRead d offset size <;> rfl

theorem addUpload_ok {c : Cfg} {env : OpenEnv} {fs fs' : FS} {path id : Text} {n : Nat} (h : addUpload c env fs path id = (fs', .ok n)) :
    ∃ f d, uploadFile c path = .ok f ∧ fs (lexKey (join c.cwd f)) = some (.file d) ∧ n = d.length ∧ Stored c id d fs' ∧
      lowSpace c env fs f = false ∧ startsWith c.temp (join (snapDir c) id) = true := by
  simp only [addUpload] at h
  split at h
  · simp at h
  · rename_i f hf
    split at h
    · simp at h
    · rename_i hlow
      obtain ⟨g1, g2, -⟩ := getSnapshotPath_change c env.mkdirFails fs id
      split at h
      · simp at h
      · rename_i fs1 snap hq
        rw [hq] at g1 g2
        replace g1 : ∀ K, Change K fs fs1 := g1
        have hs := g2 snap rfl
        subst hs
        split at h
        · simp at h
        · rename_i hst
          split at h
          · simp at h
          · rename_i fs2 hcp
            obtain ⟨d, h1, h2, h3, h4⟩ := copyfile_ok hcp
            have hback : fs (lexKey (join c.cwd f)) = some (.file d) := by
              rcases g1 [] (lexKey (join c.cwd f)) with h | h | h
              · rw [← h]; exact h1
              · rw [h1] at h; simp at h
              · rcases g1 [[]] (lexKey (join c.cwd f)) with h' | h' | h'
                · rw [← h']; exact h1
                · rw [h1] at h'; simp at h'
                · exact absurd (h.1.symm.trans h'.1) (by simp)
            have hstored : Stored c id d fs2 := by
              have hdirs : ∀ k, fs1 k = some .dir → fs2 k = some .dir := by
                intro k hk
                by_cases e : k = lexKey (join c.cwd (join (snapDir c) id))
                · rw [e] at hk; exact absurd hk h4
                · rw [h2, FS.set_other _ _ e]; exact hk
              exact ⟨FS.place_mono hdirs h3, by rw [h2]; simp [snapKey], isDir_mono hdirs (getSnapshotPath_isDir hq)⟩
            have hcont := FS.content_of (p := join (snapDir c) id) hstored.1 hstored.2.1
            rw [hcont] at h
            simp only at h
            split at h
            · simp at h
            · simp at h
              obtain ⟨e1, e2⟩ := h
              subst e1
              exact ⟨f, d, hf, hback, e2.symm, hstored, by simpa using hlow, by simpa using hst⟩

/-! ### Downloads -/

theorem lexKey_slash (a b : Text) : lexKey (a ++ '/' :: b) = (splitOn '/' b).foldl lexStep (lexKey a) := by
  simp only [lexKey, splitOn_append, List.foldl_append]

theorem writeAt_get (old : Bytes) (o : Nat) (data : Bytes) (i : Nat) :
    (writeAt old o data)[i]? = if i < o then (if i < old.length then old[i]? else some 0)
      else if i < o + data.length then data[i - o]? else old[i]? := by
  have h1 : (old.take o ++ List.replicate (o - old.length) (0 : UInt8)).length = o := by simp; omega
  simp only [writeAt]
  by_cases hi : i < o
  · rw [List.append_assoc, List.getElem?_append_left (by omega)]
    simp only [hi, if_true]
    by_cases hl : i < old.length
    · rw [List.getElem?_append_left (by simp; omega), List.getElem?_take_of_lt hi]; simp [hl]
    · rw [List.getElem?_append_right (by simp; omega)]
      simp only [hl, if_false, List.length_take]
      rw [List.getElem?_replicate, if_pos (by omega)]
  · simp only [hi, if_false]
    rw [List.append_assoc, List.getElem?_append_right (by omega), h1]
    by_cases hd : i < o + data.length
    · rw [List.getElem?_append_left (by omega)]; simp [hd]
    · rw [List.getElem?_append_right (by omega), List.getElem?_drop]
      simp only [hd, if_false]
      congr 1; omega

theorem writeAt_length (old : Bytes) (o : Nat) (data : Bytes) : (writeAt old o data).length = max old.length (o + data.length) := by
  simp [writeAt]; omega

/-- What is known of a partly assembled file: at the places of the chunks written so far it agrees with the contents. -/
def Partial (content : Bytes) (done : List Chunk) (cur : Bytes) : Prop :=
  cur.length ≤ content.length ∧
  ∀ i, (∃ ch ∈ done, ch.offset ≤ i ∧ i < ch.offset + ch.data.length) → cur[i]? = content[i]?

theorem partial_write {content : Bytes} {done : List Chunk} {cur : Bytes} (h : Partial content done cur) (ch : Chunk)
    (hc : ch.of content) : Partial content (ch :: done) (writeAt cur ch.offset ch.data) := by
  obtain ⟨h1, h2⟩ := h
  obtain ⟨c1, c2⟩ := hc
  refine ⟨by rw [writeAt_length]; omega, ?_⟩
  intro i hi
  rw [writeAt_get]
  by_cases hin : ch.offset ≤ i ∧ i < ch.offset + ch.data.length
  · rw [if_neg (by omega), if_pos hin.2, c1, List.getElem?_take_of_lt (by omega), List.getElem?_drop]
    congr 1; omega
  · obtain ⟨ch', hm, ho⟩ := hi
    rcases List.mem_cons.mp hm with e | hm
    · subst e; exact absurd ho hin
    · have hcur := h2 i ⟨ch', hm, ho⟩
      by_cases hi' : i < ch.offset
      · rw [if_pos hi']
        have hlt : i < content.length := by omega
        have : i < cur.length := by
          rw [List.getElem?_eq_getElem hlt] at hcur
          exact (List.getElem?_eq_some_iff.mp hcur).1
        rw [if_pos this, hcur]
      · rw [if_neg hi', if_neg (by omega), hcur]

theorem partial_skip {content : Bytes} {done : List Chunk} {cur : Bytes} (h : Partial content done cur) (ch : Chunk)
    (hc : ch.data = []) : Partial content (ch :: done) cur := by
  refine ⟨h.1, ?_⟩
  intro i ⟨ch', hm, ho⟩
  rcases List.mem_cons.mp hm with e | hm
  · subst e; simp [hc] at ho; omega
  · exact h.2 i ⟨ch', hm, ho⟩

theorem partial_full {content : Bytes} {done : List Chunk} {cur : Bytes} (h : Partial content done cur)
    (hc : ∀ i, i < content.length → ∃ ch ∈ done, ch.offset ≤ i ∧ i < ch.offset + ch.data.length) : cur = content := by
  apply List.ext_getElem?
  intro i
  by_cases hi : i < content.length
  · exact h.2 i (hc i hi)
  · rw [List.getElem?_eq_none (l := content) (by omega), List.getElem?_eq_none (by have := h.1; omega)]

theorem writeChunk_good {cwd : Text} {fs : FS} {path : Text} {old : Bytes} (h : fs.content cwd path = some old) (offset : Nat)
    (ho : offset ≤ maxSize) (data : Bytes) :
    writeChunk cwd .good fs path offset data = (fs.set (lexKey (join cwd path)) (some (.file (writeAt old offset data))), true) := by
  obtain ⟨h1, -⟩ := FS.content_some h
  have hb : ¬ ((offset : Int) < 0 ∨ (offset : Int) > maxSize) := by omega
  simp only [writeChunk, h1, h, hb, if_false, Int.toNat_natCast]

/-- Replacing the contents of a file keeps it reachable. -/
theorem content_set {cwd : Text} {fs : FS} {path : Text} {old : Bytes} (h : fs.content cwd path = some old) (new : Bytes) :
    (fs.set (lexKey (join cwd path)) (some (.file new))).content cwd path = some new := by
  obtain ⟨h1, h2⟩ := FS.content_some h
  apply FS.content_of
  · apply FS.place_mono _ h1
    intro k hk
    rw [FS.set_other]
    · exact hk
    · intro e; rw [e, h2] at hk; simp at hk
  · simp

theorem addDownload_some {c : Cfg} {b1 b2 : Bool} {fs fs' : FS} {id p : Text} (h : addDownload c b1 b2 fs id = (fs', some p)) :
    p = join (downloadDir c) id ∧ fs'.content c.cwd p = some [] := by
  simp only [addDownload] at h
  split at h
  · simp at h
  · split at h
    · simp at h
    · split at h
      · rename_i fs1 _ _ k hw
        simp at h
        obtain ⟨e1, e2⟩ := h
        subst e1 e2
        obtain ⟨w1, w2, w3⟩ := FS.writable_some hw
        refine ⟨rfl, ?_⟩
        subst w2
        apply FS.content_of
        · apply FS.place_mono _ w1
          intro k hk
          rw [FS.set_other]
          · exact hk
          · intro e; rw [e] at hk; exact w3 hk
        · simp
      · simp at h

theorem addDownload_change (c : Cfg) (b1 b2 : Bool) (fs : FS) (id : Text) (k : List Text)
    (h : (addDownload c b1 b2 fs id).1 k ≠ fs k) :
    (k = lexKey (join c.cwd (downloadDir c)) ∧ fs k = none) ∨ k = lexKey (join c.cwd (join (downloadDir c) id)) := by
  have key : ∀ fs1 : FS, (if fs.isDir c.cwd (downloadDir c) then some fs else if b1 = true then none else fs.mkdir c.cwd (downloadDir c)) =
      some fs1 → ∀ k, fs1 k ≠ fs k → k = lexKey (join c.cwd (downloadDir c)) ∧ fs k = none := by
    intro fs1 h1 k hk
    split at h1
    · simp at h1; subst h1; exact absurd rfl hk
    · split at h1
      · simp at h1
      · obtain ⟨m1, m2⟩ := FS.mkdir_some h1
        by_cases e : k = lexKey (join c.cwd (downloadDir c))
        · exact ⟨e, by rw [e]; exact m1⟩
        · rw [m2, FS.set_other _ _ e] at hk; exact absurd rfl hk
  simp only [addDownload] at h
  split at h
  · exact absurd rfl h
  · rename_i fs1 h1
    split at h
    · exact .inl (key fs1 h1 k h)
    · split at h
      · rename_i k' hw
        obtain ⟨-, w2, -⟩ := FS.writable_some hw
        by_cases e : k = k'
        · exact .inr (by rw [e, w2])
        · have h : fs1.set k' (some (.file [])) k ≠ fs k := h
          rw [FS.set_other _ _ e] at h
          exact .inl (key fs1 h1 k h)
      · exact .inl (key fs1 h1 k h)

theorem writeChunk_change (cwd : Text) (io : Io) (fs : FS) (path : Text) (offset : Int) (data : Bytes) (k : List Text)
    (h : (writeChunk cwd io fs path offset data).1 k ≠ fs k) : k = lexKey (join cwd path) := by
  apply Classical.byContradiction
  intro hk
  apply h
  simp only [writeChunk]
  split
  · rename_i k' old hp _
    have e := FS.place_lex hp
    subst e
    split
    · rfl
    · split
      · exact FS.set_other _ _ hk
      · rfl
      · rfl
      · exact FS.set_other _ _ hk
  · rfl

theorem remove_only (cwd : Text) (b : Bool) (fs : FS) (p : Text) (k : List Text) (h : remove cwd b fs p k ≠ fs k) :
    k = lexKey (join cwd p) := by
  apply Classical.byContradiction
  intro hk
  apply h
  simp only [remove]
  cases b with
  | true => rfl
  | false =>
    cases hp : fs.place cwd p with
    | none => rfl
    | some k' =>
      have e := FS.place_lex hp
      subst e
      simp only [Bool.false_eq_true, if_false]
      cases hn : fs (lexKey (join cwd p)) with
      | none => rfl
      | some n => cases n with
        | file d => exact FS.set_other _ _ hk
        | dir => rfl

/-- After a successful removal there is no file. -/
theorem remove_gone (cwd : Text) (fs : FS) (p : Text) : (remove cwd false fs p).content cwd p = none := by
  simp only [remove, Bool.false_eq_true, if_false]
  cases hp : fs.place cwd p with
  | none => simp [FS.content, FS.stat, hp]
  | some k =>
    have e := FS.place_lex hp
    subst e
    simp only
    split
    · cases hc : (fs.set (lexKey (join cwd p)) none).content cwd p with
      | none => rfl
      | some d => have := (FS.content_some hc).2; simp at this
    · rename_i hne
      cases hc : fs.content cwd p with
      | none => rfl
      | some d => exact absurd (FS.content_some hc).2 (hne d)

theorem findFree_eq (fs : FS) (cwd dirname basename ext : Text) (left : Nat) (dest : Text) :
    findFree fs cwd dirname basename ext left dest =
      if fs.pathExists cwd dest then
        match left with
        | 0 => none
        | left + 1 => findFree fs cwd dirname basename ext left (copyName dirname basename (100 - left) ext)
      else some dest := by
  cases left <;> rw [findFree]

/-- The search tries the candidates one by one. -/
theorem findFree_spec (fs : FS) (cwd dirname basename ext : Text) (cand : Nat → Text)
    (hc : ∀ n, cand (n + 1) = copyName dirname basename (n + 1) ext) (left : Nat) (hl : left ≤ 100) (d : Text) :
    findFree fs cwd dirname basename ext left (cand (100 - left)) = some d ↔
      ∃ n, 100 - left ≤ n ∧ n ≤ 100 ∧ d = cand n ∧ fs.pathExists cwd (cand n) = false ∧
        ∀ m, 100 - left ≤ m → m < n → fs.pathExists cwd (cand m) = true := by
  induction left with
  | zero =>
    rw [findFree_eq]
    by_cases he : fs.pathExists cwd (cand (100 - 0)) = true
    · rw [if_pos he]
      simp only [reduceCtorEq, false_iff]
      rintro ⟨n, h1, h2, -, h4, -⟩
      have : n = 100 - 0 := by omega
      rw [this, he] at h4
      simp at h4
    · rw [if_neg he]
      constructor
      · intro h
        simp at h
        exact ⟨100 - 0, by omega, by omega, by simpa using h.symm, by simpa using he, fun m h1 h2 => by omega⟩
      · rintro ⟨n, h1, h2, h3, -, -⟩
        have : n = 100 - 0 := by omega
        rw [h3, this]
  | succ left ih =>
    rw [findFree_eq]
    have hcand : copyName dirname basename (100 - left) ext = cand (100 - left) := by
      obtain ⟨m, hm⟩ : ∃ m, 100 - left = m + 1 := ⟨99 - left, by omega⟩
      rw [hm, hc]
    by_cases he : fs.pathExists cwd (cand (100 - (left + 1))) = true
    · rw [if_pos he]
      simp only [hcand]
      rw [ih (by omega)]
      constructor
      · rintro ⟨n, h1, h2, h3, h4, h5⟩
        refine ⟨n, by omega, h2, h3, h4, ?_⟩
        intro m hm1 hm2
        by_cases e : m = 100 - (left + 1)
        · rw [e]; exact he
        · exact h5 m (by omega) hm2
      · rintro ⟨n, h1, h2, h3, h4, h5⟩
        have hne : n ≠ 100 - (left + 1) := by intro e; rw [e, he] at h4; simp at h4
        exact ⟨n, by omega, h2, h3, h4, fun m hm1 hm2 => h5 m (by omega) hm2⟩
    · rw [if_neg he]
      constructor
      · intro h
        rw [Option.some.injEq] at h
        exact ⟨100 - (left + 1), by omega, by omega, h.symm, by simpa using he, fun m h1 h2 => by omega⟩
      · rintro ⟨n, h1, h2, h3, h4, h5⟩
        by_cases e : n = 100 - (left + 1)
        · rw [h3, e]
        · exact absurd (h5 _ (Nat.le_refl _) (by omega)) he

theorem moveFile_change (cwd : Text) (b1 : Bool) (io : Io) (b2 : Bool) (tree : TreeIo) (fs : FS) (src dst : Text)
    (hfree : fs.pathExists cwd dst = false) (hsrc : fs.isDir cwd src = false)
    (k : List Text) (h : (moveFile cwd b1 io b2 tree fs src dst).1 k ≠ fs k) :
    (k = lexKey (join cwd src)) ∨ (k = lexKey (join cwd dst) ∧ fs k = none) := by
  simp only [moveFile] at h
  split at h
  · rename_i k1 d hp _
    split at h
    · rename_i k2 hw
      have e1 := FS.place_lex hp
      obtain ⟨w1, w2, -⟩ := FS.writable_some hw
      have hnone : fs k2 = none := by
        have : fs.stat cwd dst = fs k2 := by simp [FS.stat, w1]
        simp only [FS.pathExists, this, Option.isSome_eq_false_iff, Option.isNone_iff_eq_none] at hfree
        exact hfree
      by_cases a : k = k2
      · exact .inr ⟨by rw [a, w2], by rw [a, hnone]⟩
      · by_cases b : k = k1
        · exact .inl (by rw [b, e1])
        · exfalso
          revert h
          split
          · simp [FS.set_other, a, b]
          · split
            · split <;> simp [FS.set_other, a, b]
            · simp
            · simp [FS.set_other, a]
    · exact absurd rfl h
  · rename_i hs
    simp [FS.isDir, hs] at hsrc
  · exact absurd rfl h

theorem isDir_of_content {fs : FS} {cwd p : Text} {d : Bytes} (h : fs.content cwd p = some d) : fs.isDir cwd p = false := by
  obtain ⟨p1, p2⟩ := FS.content_some h
  simp [FS.isDir, FS.stat, p1, p2]

theorem writeChunk_notdir (cwd : Text) (io : Io) (fs : FS) (path : Text) (offset : Int) (data : Bytes) (h : fs.isDir cwd path = false) :
    (writeChunk cwd io fs path offset data).1.isDir cwd path = false := by
  simp only [writeChunk]
  split
  · rename_i k old hp hc
    rw [FS.place_lex hp]
    split
    · exact h
    · split
      · exact isDir_of_content (content_set hc _)
      · exact h
      · exact h
      · exact isDir_of_content (content_set hc _)
  · exact h

theorem closed_below {fs : FS} (hc : Closed fs) {k : List Text} (hk : fs k = none) (r : List Text) : fs (k ++ r) = none := by
  induction r generalizing k with
  | nil => simpa using hk
  | cons a r ih =>
    have : fs (k ++ [a]) = none := by
      cases h : fs (k ++ [a]) with
      | none => rfl
      | some n =>
        have := hc k a (by rw [h]; exact Option.some_ne_none n)
        rw [hk] at this
        exact nomatch this
    have := ih this
    simpa using this

theorem makeDirs_spec (cs : List Text) (fs : FS) (k : List Text) :
    (∀ x, (makeDirs fs k cs).1 x = fs x ∨ (fs x = none ∧ (makeDirs fs k cs).1 x = some .dir)) ∧
    ∀ k', (makeDirs fs k cs).2 = some k' → (makeDirs fs k cs).1 k' = none ∧ k' = cs.foldl lexStep k := by
  induction cs generalizing fs k with
  | nil =>
    refine ⟨fun x => .inl rfl, ?_⟩
    intro k' h
    simp only [makeDirs] at h ⊢
    split at h
    · rename_i hn
      injection h with h
      exact ⟨h ▸ hn, h.symm⟩
    · exact nomatch h
  | cons c cs ih =>
    simp only [makeDirs, List.foldl_cons]
    split
    · exact ih fs (lexStep k c)
    · rename_i hn
      obtain ⟨i1, i2⟩ := ih (fs.set k (some .dir)) (lexStep k c)
      refine ⟨fun x => ?_, i2⟩
      by_cases e : x = k
      · subst e
        rcases i1 x with h | h
        · rw [FS.set_same] at h; exact .inr ⟨hn, h⟩
        · rw [FS.set_same] at h; exact nomatch h.1
      · have hx := FS.set_other fs (some .dir) e
        have := i1 x
        rw [hx] at this
        exact this
    · exact ⟨fun x => .inl rfl, fun k' h => nomatch h⟩

/-- Moving a directory: every change is in the directory, or at a place where nothing was. -/
theorem moveDir_change (cwd : Text) (b : Bool) (io : TreeIo) (fs : FS) (hc : Closed fs) (k : List Text) (dst : Text) (x : List Text)
    (h : (moveDir cwd b io fs k dst).1 x ≠ fs x) : k <+: x ∨ fs x = none := by
  apply Classical.byContradiction
  intro hn
  rw [not_or] at hn
  obtain ⟨hk, hx⟩ := hn
  apply h
  have hkx : k.isPrefixOf x = false := by
    cases hp : k.isPrefixOf x with
    | false => rfl
    | true => exact absurd (List.isPrefixOf_iff_prefix.1 hp) hk
  have below : ∀ k', fs k' = none → k'.isPrefixOf x = false := by
    intro k' hk'
    cases hp : k'.isPrefixOf x with
    | false => rfl
    | true =>
      obtain ⟨r, hr⟩ := List.isPrefixOf_iff_prefix.1 hp
      exact absurd (hr ▸ closed_below hc hk' r) hx
  simp only [moveDir]
  split
  · rfl
  · split
    · rfl
    · split
      · rename_i hr
        simp [movedTree, below _ hr.2.2, hkx]
      · have hm := makeDirs_spec (splitOn '/' (join cwd (rstripSlash dst))) fs []
        rcases hq : makeDirs fs [] (splitOn '/' (join cwd (rstripSlash dst))) with ⟨fs1, _ | k'⟩
        · rw [hq] at hm
          rcases hm.1 x with e | e
          · exact e
          · exact absurd e.1 hx
        · rw [hq] at hm
          have e1 : fs1 x = fs x := by
            rcases hm.1 x with e | e
            · exact e
            · exact absurd e.1 hx
          have hk' : fs k' = none := by
            have h0 : fs1 k' = none := (hm.2 k' rfl).1
            rcases hm.1 k' with e | e
            · rw [← e]; exact h0
            · exact e.1
          simp only
          split
          · simp [movedTree, below _ hk', hkx, e1]
          · simp only
            split
            · rfl
            · simp [copiedTree, below _ hk', e1]
          · simp [copiedTree, below _ hk', hkx, e1]

theorem lexKey_join_rstrip (cwd d : Text) (h : ∃ ch ∈ d, ch ≠ '/') : lexKey (join cwd (rstripSlash d)) = lexKey (join cwd d) := by
  have hne : rstripSlash d ≠ [] := by
    intro e
    obtain ⟨ch, h1, h2⟩ := h
    have e : d.reverse.dropWhile (· == '/') = [] := by simpa [rstripSlash] using e
    have : d.reverse.takeWhile (· == '/') = d.reverse := by
      have := List.takeWhile_append_dropWhile (p := (· == '/')) (l := d.reverse)
      rw [e, List.append_nil] at this
      exact this
    have h3 : ch ∈ d.reverse.takeWhile (· == '/') := by rw [this]; simpa using h1
    have := (List.all_eq_true.1 (List.all_takeWhile (p := (· == '/')) (l := d.reverse))) ch h3
    exact h2 (by simpa using this)
  have hpre : rstripSlash d <+: d := by
    have : d.reverse.dropWhile (· == '/') <:+ d.reverse := List.dropWhile_suffix _
    have := List.reverse_prefix.2 this
    rwa [List.reverse_reverse] at this
  have hhead : (rstripSlash d).head? = d.head? := by
    obtain ⟨t, ht⟩ := hpre
    cases hr : rstripSlash d with
    | nil => exact absurd hr hne
    | cons a l => rw [← ht, hr]; rfl
  have happ : ∀ a : Text, lexKey (a ++ rstripSlash d) = lexKey (a ++ d) := by
    intro a
    rw [← lexKey_rstrip (a ++ d)]
    congr 1
    rw [List.reverse_append, List.dropWhile_append]
    have : (d.reverse.dropWhile (· == '/')).isEmpty = false := by
      cases hd : d.reverse.dropWhile (· == '/') with
      | nil => exact absurd (by simp [rstripSlash, hd]) hne
      | cons _ _ => rfl
    simp [this, rstripSlash]
  unfold join
  rw [hhead]
  split
  · exact lexKey_rstrip d
  · split
    · exact happ cwd
    · have := happ (cwd ++ ['/'])
      simpa using this

/-- Moving a directory with success: all that was in it is in the new place, and the old one is gone. -/
theorem moveDir_success {cwd : Text} {b : Bool} {io : TreeIo} {fs fs' : FS} {k : List Text} {dst : Text}
    (h : moveDir cwd b io fs k dst = (fs', true)) : ∃ k', (k' = lexKey (join cwd dst) ∨ ∀ ch ∈ dst, ch = '/') ∧ fs k' = none ∧ ¬ k <+: k' ∧
      ∀ x, (fs (k ++ x) ≠ none → fs' (k' ++ x) = fs (k ++ x)) ∧ (k' <+: k ++ x ∨ fs' (k ++ x) = none) := by
  have hkey : lexKey (join cwd (rstripSlash dst)) = lexKey (join cwd dst) ∨ ∀ ch ∈ dst, ch = '/' := by
    by_cases hs : ∃ ch ∈ dst, ch ≠ '/'
    · exact .inl (lexKey_join_rstrip cwd dst hs)
    · right
      intro ch hch
      exact Decidable.byContradiction fun hn => hs ⟨ch, hch, hn⟩
  have moved : ∀ (f : FS) (k' x : List Text), movedTree f k k' (k' ++ x) = f (k ++ x) ∧ (k' <+: k ++ x ∨ movedTree f k k' (k ++ x) = none) := by
    intro f k' x
    constructor
    · have : k'.isPrefixOf (k' ++ x) = true := List.isPrefixOf_iff_prefix.2 (List.prefix_append _ _)
      simp [movedTree, this]
    · by_cases hp : k' <+: k ++ x
      · exact .inl hp
      · right
        have h1 : k'.isPrefixOf (k ++ x) = false := by
          cases hq : k'.isPrefixOf (k ++ x) with
          | false => rfl
          | true => exact absurd (List.isPrefixOf_iff_prefix.1 hq) hp
        have h2 : k.isPrefixOf (k ++ x) = true := List.isPrefixOf_iff_prefix.2 (List.prefix_append _ _)
        simp [movedTree, h1, h2]
  simp only [moveDir] at h
  split at h
  · exact nomatch h
  · split at h
    · exact nomatch h
    · rename_i hnp
      have hnp : ¬ k <+: lexKey (join cwd (rstripSlash dst)) := fun hp => hnp (List.isPrefixOf_iff_prefix.2 hp)
      split at h
      · rename_i hr
        injection h with h _
        subst h
        exact ⟨_, hkey, hr.2.2, hnp, fun x => ⟨fun _ => (moved fs _ x).1, (moved fs _ x).2⟩⟩
      · have hm := makeDirs_spec (splitOn '/' (join cwd (rstripSlash dst))) fs []
        rcases hq : makeDirs fs [] (splitOn '/' (join cwd (rstripSlash dst))) with ⟨fs1, _ | k'⟩
        · rw [hq] at h; exact nomatch h
        · rw [hq] at hm h
          obtain ⟨hk1, hk2⟩ := hm.2 k' rfl
          have hk2 : k' = lexKey (join cwd (rstripSlash dst)) := hk2
          have hfree : fs k' = none := by
            rcases hm.1 k' with e | e
            · rw [← e]; exact hk1
            · exact e.1
          cases io with
          | good =>
            injection h with h _
            subst h
            refine ⟨k', hk2 ▸ hkey, hfree, hk2 ▸ hnp, fun x => ⟨fun hx => ?_, (moved fs1 k' x).2⟩⟩
            rw [(moved fs1 k' x).1]
            rcases hm.1 (k ++ x) with e | e
            · exact e
            · exact absurd e.1 hx
          | copyFails made => exact nomatch h
          | removeFails gone => exact nomatch h

/-- A directory that was not moved with success: nothing in it is lost, and only directories and (parts of) copies are new. -/
theorem moveDir_failed {cwd : Text} {b : Bool} {io : TreeIo} {fs fs' : FS} (hc : Closed fs) {k : List Text} {dst : Text}
    (h : moveDir cwd b io fs k dst = (fs', false)) : ∃ k', (k' = lexKey (join cwd dst) ∨ ∀ ch ∈ dst, ch = '/') ∧
      (∀ x, fs (k ++ x) ≠ none → fs' (k ++ x) = fs (k ++ x) ∨ fs' (k' ++ x) = fs (k ++ x)) ∧
      ∀ y, fs' y ≠ fs y → (k <+: y ∧ fs' y = none) ∨ fs y = none ∧ (fs' y = some .dir ∨
        ∃ x content part, y = k' ++ x ∧ fs (k ++ x) = some (.file content) ∧ fs' y = some (.file part) ∧ part <+: content) := by
  have hkey : lexKey (join cwd (rstripSlash dst)) = lexKey (join cwd dst) ∨ ∀ ch ∈ dst, ch = '/' := by
    by_cases hs : ∃ ch ∈ dst, ch ≠ '/'
    · exact .inl (lexKey_join_rstrip cwd dst hs)
    · right
      intro ch hch
      exact Decidable.byContradiction fun hn => hs ⟨ch, hch, hn⟩
  have hsame : fs' = fs → ∃ k', (k' = lexKey (join cwd dst) ∨ ∀ ch ∈ dst, ch = '/') ∧
      (∀ x, fs (k ++ x) ≠ none → fs' (k ++ x) = fs (k ++ x) ∨ fs' (k' ++ x) = fs (k ++ x)) ∧
      ∀ y, fs' y ≠ fs y → (k <+: y ∧ fs' y = none) ∨ fs y = none ∧ (fs' y = some .dir ∨
        ∃ x content part, y = k' ++ x ∧ fs (k ++ x) = some (.file content) ∧ fs' y = some (.file part) ∧ part <+: content) := by
    rintro rfl
    exact ⟨_, .inl rfl, fun x _ => .inl rfl, fun y hy => absurd rfl hy⟩
  simp only [moveDir] at h
  split at h
  · injection h with h _; exact hsame h.symm
  · split at h
    · injection h with h _; exact hsame h.symm
    · rename_i hnp
      have hnp : ¬ k <+: lexKey (join cwd (rstripSlash dst)) := fun hp => hnp (List.isPrefixOf_iff_prefix.2 hp)
      split at h
      · exact nomatch h
      · have hm := makeDirs_spec (splitOn '/' (join cwd (rstripSlash dst))) fs []
        rcases hq : makeDirs fs [] (splitOn '/' (join cwd (rstripSlash dst))) with ⟨fs1, _ | k'⟩
        · rw [hq] at h hm
          injection h with h _
          subst h
          refine ⟨_, .inl rfl, fun x hx => ?_, fun y hy => ?_⟩
          · rcases hm.1 (k ++ x) with e | e
            · exact .inl e
            · exact absurd e.1 hx
          · rcases hm.1 y with e | e
            · exact absurd e hy
            · exact .inr ⟨e.1, .inl e.2⟩
        · rw [hq] at hm h
          obtain ⟨hk1, hk2⟩ := hm.2 k' rfl
          have hk2 : k' = lexKey (join cwd (rstripSlash dst)) := hk2
          have hfree : fs k' = none := by
            rcases hm.1 k' with e | e
            · rw [← e]; exact hk1
            · exact e.1
          have hold : ∀ {y}, fs y ≠ none → fs1 y = fs y := by
            intro y hy
            rcases hm.1 y with e | e
            · exact e
            · exact absurd e.1 hy
          have hbelow : ∀ {y}, fs y ≠ none → k'.isPrefixOf y = false := by
            intro y hy
            cases hp : k'.isPrefixOf y with
            | false => rfl
            | true =>
              obtain ⟨r, hr⟩ := List.isPrefixOf_iff_prefix.1 hp
              exact absurd (hr ▸ closed_below hc hfree r) hy
          have hin : ∀ {y}, k'.isPrefixOf y = true → ∃ x, y = k' ++ x ∧ fs y = none ∧ copiedTree fs1 k k' y = fs1 (k ++ x) := by
            intro y hp
            have hp' := hp
            obtain ⟨x, hx⟩ := List.isPrefixOf_iff_prefix.1 hp
            subst hx
            exact ⟨x, rfl, closed_below hc hfree x, by simp [copiedTree, hp']⟩
          have hold2 : ∀ {y}, fs y ≠ none → copiedTree fs1 k k' y = fs y := by
            intro y hy
            simp only [copiedTree, hbelow hy, Bool.false_eq_true, if_false]
            exact hold hy
          have hnew : ∀ {y}, copiedTree fs1 k k' y ≠ fs y → fs y = none ∧ (copiedTree fs1 k k' y = some .dir ∨
              ∃ x content, y = k' ++ x ∧ fs (k ++ x) = some (.file content) ∧ copiedTree fs1 k k' y = some (.file content)) := by
            intro y hy
            cases hp : k'.isPrefixOf y with
            | false =>
              have e : copiedTree fs1 k k' y = fs1 y := by simp only [copiedTree, hp, Bool.false_eq_true, if_false]
              rw [e] at hy ⊢
              rcases hm.1 y with e | e
              · exact absurd e hy
              · exact ⟨e.1, .inl e.2⟩
            | true =>
              obtain ⟨x, rfl, h1, h2⟩ := hin hp
              refine ⟨h1, ?_⟩
              rw [h2] at hy ⊢
              rcases hm.1 (k ++ x) with e | e
              · have e : fs1 (k ++ x) = fs (k ++ x) := e
                cases hn : fs (k ++ x) with
                | none => rw [e, hn, h1] at hy; exact absurd rfl hy
                | some node =>
                  cases node with
                  | dir => exact .inl (e.trans hn)
                  | file content => exact .inr ⟨x, content, rfl, hn, e.trans hn⟩
              · exact .inl e.2
          cases io with
          | good => exact nomatch h
          | copyFails made =>
            injection h with h _
            subst h
            refine ⟨k', hk2 ▸ hkey, fun x hx => .inl ?_, fun y hy => ?_⟩
            · simp only [hold2 hx, if_true]
              cases made (k ++ x) <;> rfl
            · simp only at hy ⊢
              cases hmade : made y with
              | none => rw [hmade] at hy; exact absurd rfl hy
              | some n =>
                rw [hmade] at hy
                simp only at hy ⊢
                split at hy
                · exact absurd rfl hy
                · rename_i hne
                  rw [if_neg hne]
                  obtain ⟨h1, h2 | ⟨x, content, h2, h3, h4⟩⟩ := hnew hne
                  · exact .inr ⟨h1, .inl (by rw [h2]; rfl)⟩
                  · exact .inr ⟨h1, .inr ⟨x, content, content.take n, h2, h3, by rw [h4]; rfl, List.take_prefix _ _⟩⟩
          | removeFails gone =>
            injection h with h _
            subst h
            refine ⟨k', hk2 ▸ hkey, fun x hx => ?_, fun y hy => ?_⟩
            · have hp : k.isPrefixOf (k ++ x) = true := List.isPrefixOf_iff_prefix.2 (List.prefix_append _ _)
              cases hg : gone (k ++ x) with
              | false =>
                left
                simp only [hp, hg, Bool.and_false, Bool.false_eq_true, if_false]
                exact hold2 hx
              | true =>
                right
                have hnk : k.isPrefixOf (k' ++ x) = false := by
                  cases hq : k.isPrefixOf (k' ++ x) with
                  | false => rfl
                  | true =>
                    exfalso
                    rcases List.prefix_or_prefix_of_prefix (List.isPrefixOf_iff_prefix.1 hq) (List.prefix_append k' x) with hl | hl
                    · exact hnp (hk2 ▸ hl)
                    · have := hbelow hx
                      rw [List.isPrefixOf_iff_prefix.2 (hl.trans (List.prefix_append k x))] at this
                      exact nomatch this
                simp only [hnk, Bool.false_and, Bool.false_eq_true, if_false]
                have hp' : k'.isPrefixOf (k' ++ x) = true := List.isPrefixOf_iff_prefix.2 (List.prefix_append _ _)
                simp only [copiedTree, hp', if_true, List.drop_left]
                exact hold hx
            · simp only at hy ⊢
              split at hy
              · rename_i hg
                rw [if_pos hg]
                have := (Bool.and_eq_true _ _ ▸ hg)
                exact .inl ⟨List.isPrefixOf_iff_prefix.1 this.1, rfl⟩
              · rename_i hg
                rw [if_neg hg]
                obtain ⟨h1, h2 | ⟨x, content, h2, h3, h4⟩⟩ := hnew hy
                · exact .inr ⟨h1, .inl h2⟩
                · exact .inr ⟨h1, .inr ⟨x, content, content, h2, h3, h4, List.prefix_rfl⟩⟩

/-! ### Packets -/

def openResult : Packets.PClass :=
  ⟨25, "OpenRemoteFileResult", [("upload_id", .bytes), ("size", .int), ("fail", .int), ("fail_reason", .bytes)]⟩
def readResult : Packets.PClass :=
  ⟨28, "ReadRemoteFileResult", [("upload_id", .bytes), ("offset", .int), ("size", .int), ("data", .bytes), ("fail", .int),
      ("fail_reason", .bytes)]⟩
def writeResult : Packets.PClass :=
  ⟨32, "WriteRemoteFileResult", [("id", .bytes), ("position", .int), ("chunk_size", .int), ("device_path", .bytes), ("fail", .int),
      ("fail_reason", .bytes)]⟩

theorem lookup25 : Packets.lookupClass 25 = some openResult := (Packets.lookupClass_iff _ _).2 ⟨by decide +kernel, rfl⟩
theorem lookup28 : Packets.lookupClass 28 = some readResult := (Packets.lookupClass_iff _ _).2 ⟨by decide +kernel, rfl⟩
theorem lookup32 : Packets.lookupClass 32 = some writeResult := (Packets.lookupClass_iff _ _).2 ⟨by decide +kernel, rfl⟩

theorem create25_kw (r : PyVal → String) (id : Bytes) (size fail : Int) (reason : Text) :
    Packets.create r 25 [] [("upload_id", .bytes id), ("size", .int size), ("fail", .int fail), ("fail_reason", .text reason)] =
      .ok ⟨openResult, [.bytes id, .int size, .int fail, .bytes (utf8Encode reason)]⟩ := by
  simp [Packets.create, lookup25, Packets.construct, Packets.collect, openResult, Packets.setParam, Packets.convArg, Packets.checkAttrs,
    Packets.getParam, Packets.AType.has]

theorem create25_pos (r : PyVal → String) (id : Bytes) (size fail : Int) (reason : Text) :
    Packets.create r 25 [.bytes id, .int size, .int fail, .text reason] [] =
      .ok ⟨openResult, [.bytes id, .int size, .int fail, .bytes (utf8Encode reason)]⟩ := by
  simp [Packets.create, lookup25, Packets.construct, Packets.collect, openResult, Packets.setParam, Packets.convArg, Packets.checkAttrs,
    Packets.getParam, Packets.AType.has]

/-- The value that ends up in a bytes attribute. -/
def asBytes : PyVal → Bytes
  | .bytes b => b
  | .text t => utf8Encode t
  | _ => []

theorem create28 (r : PyVal → String) (id : Bytes) (offset size fail : Int) (data : PyVal) (reason : Text)
    (h : (∃ b, data = .bytes b) ∨ ∃ t, data = .text t) :
    Packets.create r 28 [] [("upload_id", .bytes id), ("offset", .int offset), ("size", .int size), ("data", data), ("fail", .int fail),
      ("fail_reason", .text reason)] =
      .ok ⟨readResult, [.bytes id, .int offset, .int size, .bytes (asBytes data), .int fail, .bytes (utf8Encode reason)]⟩ := by
  rcases h with ⟨b, rfl⟩ | ⟨t, rfl⟩ <;>
  simp [Packets.create, lookup28, Packets.construct, Packets.collect, readResult, Packets.setParam, Packets.convArg, Packets.checkAttrs,
    Packets.getParam, Packets.AType.has, asBytes]

theorem create32 (r : PyVal → String) (id : Bytes) (position size fail : Int) (device reason : Bytes) :
    Packets.create r 32 [.bytes id, .int position, .int size, .bytes device, .int fail, .bytes reason] [] =
      .ok ⟨writeResult, [.bytes id, .int position, .int size, .bytes device, .int fail, .bytes reason]⟩ := by
  simp [Packets.create, lookup32, Packets.construct, Packets.collect, writeResult, Packets.setParam, Packets.convArg, Packets.checkAttrs,
    Packets.getParam, Packets.AType.has]

end Verif.RemoteDirectory
