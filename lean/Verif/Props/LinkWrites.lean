import Verif.Model.LinkWrites
import Verif.Props.Links
/-!
C166 for whole requests.  C167: what write requests without a device path change, whatever links there are.
-/
namespace Verif.Links
open Verif RemoteDirectory Path

/-! ### Helper lemmas -/

theorem walk_set {fs : LFS} {k : List Text} (hd : fs k ≠ some .dir) (hl : NoLink fs k) (d : Bytes) (last : Bool) (n : Nat) (cs k0 : List Text) :
    (fs.set k (some (.file d))).walk last n k0 cs = fs.walk last n k0 cs := by
  apply walk_congr
  · intro x
    by_cases e : x = k
    · rw [e, set_self]
      exact ⟨fun h => (nomatch h), fun h => absurd h hd⟩
    · rw [set_other _ _ e]
  · intro x t
    by_cases e : x = k
    · rw [e, set_self]
      exact ⟨fun h => (nomatch h), fun h => absurd h (hl t)⟩
    · rw [set_other _ _ e]

theorem entry_set {fs : LFS} {k : List Text} (hd : fs k ≠ some .dir) (hl : NoLink fs k) (d : Bytes) (cwd p : Text) :
    (fs.set k (some (.file d))).entry cwd p = fs.entry cwd p := by
  simp only [LFS.entry, walk_set hd hl]

theorem link_set {fs : LFS} {k x : List Text} {d : Bytes} {t : Text} (h : fs.set k (some (.file d)) x = some (.link t)) : fs x = some (.link t) := by
  by_cases e : x = k
  · rw [e, set_self] at h; exact (nomatch h)
  · rwa [set_other _ _ e] at h

/-- What `writeChunk` may do. -/
theorem writeChunk_cases (cwd : Text) (io : Io) (fs : LFS) (path : Text) (offset : Int) (data : Bytes) :
    (writeChunk cwd io fs path offset data).1 = fs ∨
    ∃ k old new, fs.place cwd path = some k ∧ fs k = some (.file old) ∧ (writeChunk cwd io fs path offset data).1 = fs.set k (some (.file new)) := by
  simp only [writeChunk]
  split
  · rename_i k old hp hc
    obtain ⟨k', h1, h2⟩ := content_some hc
    rw [hp] at h1; cases h1
    split
    · exact .inl rfl
    · split
      · exact .inr ⟨k, old, _, hp, h2, rfl⟩
      · exact .inl rfl
      · exact .inl rfl
      · exact .inr ⟨k, old, _, hp, h2, rfl⟩
  · exact .inl rfl

theorem file_nodir {fs : LFS} {k : List Text} {d : Bytes} (h : fs k = some (.file d)) : fs k ≠ some .dir ∧ NoLink fs k := by
  constructor
  · rw [h]; exact fun h => (nomatch h)
  · intro t; rw [h]; exact fun h => (nomatch h)

theorem writeChunk_entry (cwd : Text) (io : Io) (fs : LFS) (path : Text) (offset : Int) (data : Bytes) (p : Text) :
    (writeChunk cwd io fs path offset data).1.entry cwd p = fs.entry cwd p ∧
    ∀ k t, (writeChunk cwd io fs path offset data).1 k = some (.link t) → fs k = some (.link t) := by
  rcases writeChunk_cases cwd io fs path offset data with h | ⟨k, old, new, _, h2, h3⟩
  · rw [h]; exact ⟨rfl, fun _ _ h => h⟩
  · rw [h3]; exact ⟨entry_set (file_nodir h2).1 (file_nodir h2).2 _ _ _, fun _ _ h => link_set h⟩

theorem addDownload_links (c : Cfg) (a b : Bool) (fs : LFS) (id : Text) (k : List Text) (t : Text)
    (h : (addDownload c a b fs id).1 k = some (.link t)) : fs k = some (.link t) := by
  have key : ∀ fs1 : LFS, (∀ x u, fs1 x = some (.link u) → fs x = some (.link u)) →
      (if b = true then ((fs1, none) : LFS × Option Text) else match fs1.writable c.cwd (join (downloadDir c) id) with
        | some k => (fs1.set k (some (.file [])), some (join (downloadDir c) id))
        | none => (fs1, none)).1 k = some (.link t) → fs k = some (.link t) := by
    intro fs1 h1 h2
    split at h2
    · exact h1 _ _ h2
    · split at h2
      · exact h1 _ _ (link_set h2)
      · exact h1 _ _ h2
  simp only [addDownload] at h
  by_cases hd : fs.isDir c.cwd (downloadDir c) = true
  · simp only [hd, if_true] at h
    exact key fs (fun _ _ h => h) h
  · simp only [hd, Bool.false_eq_true, if_false] at h
    cases a with
    | true => exact h
    | false =>
      simp only [Bool.false_eq_true, if_false] at h
      cases hm : fs.mkdir c.cwd (downloadDir c) with
      | none => simp only [hm] at h; exact h
      | some fs1 =>
        simp only [hm] at h
        refine key fs1 (fun x u hx => ?_) h
        simp only [LFS.mkdir] at hm
        split at hm
        · split at hm
          · cases hm
            rename_i k1 _ _
            by_cases e : x = k1
            · rw [e, set_self] at hx; exact (nomatch hx)
            · rwa [set_other _ _ e] at hx
          · exact (nomatch hm)
        · exact (nomatch hm)

/-- What is left to do after the temporary file is known ends in one of three ways. -/
theorem rest_cases (c : Cfg) (env : WriteEnv) (fs : LFS) (device : Text) (path : Bytes) (offset : Int) (data : Bytes) (final : Int) :
    ∃ fs2, (fs2 = fs ∨ fs2 = (writeChunk c.cwd env.write fs device offset data).1) ∧
      ((rest c env fs device path offset data final).1 = remove c.cwd env.removeFails fs2 device ∨
       (rest c env fs device path offset data final).1 = (copyDownload c env.renameOk env.copy env.unlinkOk fs2 device path).1 ∨
       (rest c env fs device path offset data final).1 = fs2) := by
  have fin : ∀ (fs2 : LFS) (b : Bool), 
      (ending c env device path final (fs2, b)).1 = remove c.cwd env.removeFails fs2 device ∨
      (ending c env device path final (fs2, b)).1 = (copyDownload c env.renameOk env.copy env.unlinkOk fs2 device path).1 ∨
      (ending c env device path final (fs2, b)).1 = fs2 := by
    intro fs2 b
    cases b with
    | false => exact .inl rfl
    | true =>
      right
      simp only [ending]
      by_cases hf : final ≠ 0
      · rw [if_pos hf]
        left
        rcases copyDownload c env.renameOk env.copy env.unlinkOk fs2 device path with ⟨fs3, b3⟩
        cases b3 <;> rfl
      · rw [if_neg hf]
        exact .inr rfl
  unfold rest
  by_cases hd : data.isEmpty = true
  · rw [if_pos hd]
    exact ⟨fs, .inl rfl, fin fs true⟩
  · rw [if_neg hd]
    exact ⟨_, .inr rfl, fin _ (writeChunk c.cwd env.write fs device offset data).2⟩

theorem onWrite_given {c : Cfg} {env : WriteEnv} {fs : LFS} {id path devicePath : Bytes} {offset : Int} {data : Bytes} {final : Int} {d : Text}
    (h : utf8Decode devicePath = some d) (hd : d ≠ []) :
    onWrite c env fs id path devicePath offset data final = rest c env fs d path offset data final := by
  simp only [onWrite, h, if_neg hd]

theorem onWrite_added {c : Cfg} {env : WriteEnv} {fs : LFS} {id path devicePath : Bytes} {offset : Int} {data : Bytes} {final : Int}
    (h : utf8Decode devicePath = some []) : 
    (onWrite c env fs id path devicePath offset data final).1 = fs ∨
    ∃ i, utf8Decode id = some i ∧ (((addDownload c env.mkdirFails env.createFails fs i).2 = none ∧
        onWrite c env fs id path devicePath offset data final = ((addDownload c env.mkdirFails env.createFails fs i).1, some 1)) ∨
      ((addDownload c env.mkdirFails env.createFails fs i).2 = some (join (downloadDir c) i) ∧
        onWrite c env fs id path devicePath offset data final =
          rest c env (addDownload c env.mkdirFails env.createFails fs i).1 (join (downloadDir c) i) path offset data final)) := by
  have hname : ∀ i p, (addDownload c env.mkdirFails env.createFails fs i).2 = some p → p = join (downloadDir c) i := by
    intro i p
    simp only [addDownload]
    split
    · exact fun h => (nomatch h)
    · split
      · exact fun h => (nomatch h)
      · split
        · intro h; injection h with h; exact h.symm
        · exact fun h => (nomatch h)
  cases hi : utf8Decode id with
  | none => left; simp only [onWrite, h, hi, if_true]
  | some i =>
    right
    refine ⟨i, rfl, ?_⟩
    rcases ha : addDownload c env.mkdirFails env.createFails fs i with ⟨fs1, o⟩
    cases o with
    | none => left; exact ⟨rfl, by simp only [onWrite, h, hi, ha, if_true]⟩
    | some p =>
      right
      have : p = join (downloadDir c) i := hname i p (by rw [ha])
      subst this
      exact ⟨rfl, by simp only [onWrite, h, hi, ha, if_true]⟩

theorem remove_links {cwd : Text} {b : Bool} {fs : LFS} {p : Text} {k : List Text} {t : Text} (h : remove cwd b fs p k = some (.link t)) :
    fs k = some (.link t) := by
  by_cases e : remove cwd b fs p k = fs k
  · rwa [e] at h
  · rw [(remove_change e).2] at h; exact (nomatch h)

theorem rest_link {c : Cfg} {env : WriteEnv} {fs : LFS} {device : Text} {path : Bytes} {offset : Int} {data : Bytes} {final : Int} {k : List Text}
    {t : Text} (h : (rest c env fs device path offset data final).1 k = some (.link t)) (hn : fs k ≠ some (.link t)) :
    ∃ j, fs.entry c.cwd device = some j ∧ fs j = some (.link t) := by
  obtain ⟨fs2, h2, h3⟩ := rest_cases c env fs device path offset data final
  have hsame : fs2.entry c.cwd device = fs.entry c.cwd device ∧ ∀ k t, fs2 k = some (.link t) → fs k = some (.link t) := by
    rcases h2 with rfl | rfl
    · exact ⟨rfl, fun _ _ h => h⟩
    · exact writeChunk_entry ..
  rcases h3 with h3 | h3 | h3
  · rw [h3] at h; exact absurd (hsame.2 _ _ (remove_links h)) hn
  · rw [h3] at h
    obtain ⟨j, _, h4, h5, _⟩ := c166_only c fs2 _ _ _ device path k t h (fun e => hn (hsame.2 _ _ e))
    exact ⟨j, hsame.1 ▸ h4, hsame.2 _ _ h5⟩
  · rw [h3] at h; exact absurd (hsame.2 _ _ h) hn

/-! ### C166 -/

/-- C166 for requests: a link that a write request makes has the text of the temporary file, which was a link before; without a device path, the
temporary file is the one with the name of the request in the download folder. -/
theorem c166_request (c : Cfg) (env : WriteEnv) (fs : LFS) (id path devicePath : Bytes) (offset : Int) (data : Bytes) (final : Int) (k : List Text)
    (t : Text) (h : (onWrite c env fs id path devicePath offset data final).1 k = some (.link t)) (hn : fs k ≠ some (.link t)) :
    (∃ d j, utf8Decode devicePath = some d ∧ d ≠ [] ∧ fs.entry c.cwd d = some j ∧ fs j = some (.link t)) ∨
    (∃ i j, utf8Decode devicePath = some [] ∧ utf8Decode id = some i ∧
      (addDownload c env.mkdirFails env.createFails fs i).1.entry c.cwd (join (downloadDir c) i) = some j ∧ fs j = some (.link t)) := by
  cases hd : utf8Decode devicePath with
  | none => simp only [onWrite, hd] at h; exact absurd h hn
  | some d =>
    by_cases he : d = []
    · subst he
      right
      rcases onWrite_added (c := c) (env := env) (fs := fs) (id := id) (path := path) (offset := offset) (data := data) (final := final) hd with h1 | ⟨i, hi, h1 | h1⟩
      · rw [h1] at h; exact absurd h hn
      · rw [h1.2] at h; exact absurd (addDownload_links _ _ _ _ _ _ _ h) hn
      · rw [h1.2] at h
        obtain ⟨j, h2, h3⟩ := rest_link h (fun e => hn (addDownload_links _ _ _ _ _ _ _ e))
        exact ⟨i, j, rfl, hi, h2, addDownload_links _ _ _ _ _ _ _ h3⟩
    · left
      rw [onWrite_given hd he] at h
      obtain ⟨j, h2, h3⟩ := rest_link h hn
      exact ⟨d, j, rfl, he, h2, h3⟩

/-- C166 fails for a single request without data. -/
theorem c166_request_counterexample :
    let r := onWrite exampleCfg { renameOk := false, unlinkOk := false } procFS (asc "d") (asc "r") (asc "/proc/self/root") 0 [] 1
    r.2 = some 3 ∧ r.1 ["home".toList, "dataplicity".toList, "remote".toList, "r".toList] = some (.link "/".toList) := by decide +kernel

/-! ### C167 -/

/-- C167, exactly: a request without a device path that stores data and does not end the download changes exactly one file, and this is the entry of the
download folder with the name of the request precisely if there is no link with this name. -/
theorem c167_iff (c : Cfg) (hs : c.Sane) (env : WriteEnv) (fs : LFS) (htree : Tree fs) (D : List Text)
    (hD : fs.place c.cwd (downloadDir c) = some D) (hdir : fs D = some .dir) (i : Text) (hi : Plain i) (path : Bytes) (offset : Int) (data : Bytes)
    (hdata : data ≠ []) (h : (onWrite c env fs (utf8Encode i) path [] offset data 0).2 = some 0) :
    let r := (onWrite c env fs (utf8Encode i) path [] offset data 0).1
    ∃ P, (∀ k, k ≠ P → r k = fs k) ∧ r P = some (.file (List.replicate offset.toNat 0 ++ data)) ∧ (P = D ++ [i] ↔ NoLink fs (D ++ [i])) := by
  have hisd : fs.isDir c.cwd (downloadDir c) = true := (isDir_iff _ _ _).2 ⟨D, hD, hdir⟩
  have hh : (downloadDir c).head? = some '/' := join_head _ _ hs.temp
  have hem : data.isEmpty = false := by cases data with | nil => exact absurd rfl hdata | cons _ _ => rfl
  have hnil : utf8Decode ([] : Bytes) = some [] := rfl
  simp only [onWrite, hnil, if_true, utf8Decode_encode, addDownload, hisd] at h ⊢
  by_cases hcf : env.createFails = true
  · simp only [hcf, if_true] at h; exact absurd h (by decide)
  · simp only [hcf, Bool.false_eq_true, if_false] at h ⊢
    cases hw : fs.writable c.cwd (join (downloadDir c) i) with
    | none => simp only [hw] at h; exact absurd h (by decide)
    | some k =>
      simp only [hw, rest, ending, hem, Bool.false_eq_true, if_false] at h ⊢
      obtain ⟨hp, hnd⟩ := writable_some hw
      have hnl := place_nolink htree hp
      have hp1 : (fs.set k (some (.file []))).place c.cwd (join (downloadDir c) i) = some k := by rw [place_set hnd hnl]; exact hp
      have hc1 : (fs.set k (some (.file []))).content c.cwd (join (downloadDir c) i) = some [] := content_of hp1 (set_self _ _ _)
      simp only [writeChunk, hp1, hc1] at h ⊢
      by_cases ho : offset < 0 ∨ offset > maxSize
      · simp only [if_pos ho] at h; exact absurd h (by decide)
      · simp only [if_neg ho] at h ⊢
        have hr : ∀ x : Bytes, (fs.set k (some (.file []))).set k (some (.file x)) = fs.set k (some (.file x)) := by
          intro x; funext y
          by_cases e : y = k
          · rw [e, set_self, set_self]
          · rw [set_other _ _ e, set_other _ _ e, set_other _ _ e]
        cases hio : env.write with
        | good =>
          simp only [ne_eq, not_true_eq_false, if_false, hr]
          refine ⟨k, fun k' hk => set_other _ _ hk, ?_, fun e => e ▸ hnl, fun hl => walk_in hh hi hD (.inr hl) (place_walk hp).1⟩
          rw [set_self]
          simp [writeAt]
        | fails n =>
          simp only [hio] at h
          cases n with
          | none => exact absurd h (by simp)
          | some n => cases n <;> exact absurd h (by simp)

theorem contained_set {fs : LFS} {R k : List Text} (hd : fs k ≠ some .dir) (hl : NoLink fs k) (d : Bytes) (h : Contained fs R) :
    Contained (fs.set k (some (.file d))) R := by
  intro k1 name t h1 h2 n key hn h3
  rw [walk_set hd hl] at h3
  exact h k1 name t h1 (link_set h2) n key hn h3

/-- C167, the part that holds: the download folder is there, the name of the request is a plain name for which there is no link in the folder, the links inside
of the remote directory lead to places inside, and the path does not go up.  Then a write request without a device path changes only the file with
this name in the folder, and places inside the remote directory.  Missing for the full claim: `c167_counterexample`, C127, C60. -/
theorem c167_inside_partial (c : Cfg) (hs : c.Sane) (env : WriteEnv) (fs : LFS) (htree : Tree fs) (D R : List Text)
    (hD : fs.place c.cwd (downloadDir c) = some D) (hdir : fs D = some .dir) (hroot : fs.place c.cwd c.root = some R) (hcont : Contained fs R)
    (i : Text) (hi : Plain i) (hl : NoLink fs (D ++ [i])) (path : Text) (hp : ¬ GoesUp path) (offset : Int) (data : Bytes) (final : Int) (k : List Text)
    (h : (onWrite c env fs (utf8Encode i) (utf8Encode path) [] offset data final).1 k ≠ fs k) : k = D ++ [i] ∨ R <+: k := by
  have hh : (downloadDir c).head? = some '/' := join_head _ _ hs.temp
  have hisd : fs.isDir c.cwd (downloadDir c) = true := (isDir_iff _ _ _).2 ⟨D, hD, hdir⟩
  by_cases hk : k = D ++ [i]
  · exact .inl hk
  right
  rcases onWrite_added (c := c) (env := env) (fs := fs) (id := utf8Encode i) (path := utf8Encode path) (devicePath := []) (offset := offset) (data := data)
    (final := final) rfl with h1 | ⟨i', hi', h1⟩
  · exact absurd (by rw [h1]) h
  rw [utf8Decode_encode] at hi'
  cases hi'
  have had : (addDownload c env.mkdirFails env.createFails fs i).1 = fs ∨
      ∃ K, fs.writable c.cwd (join (downloadDir c) i) = some K ∧ (addDownload c env.mkdirFails env.createFails fs i).1 = fs.set K (some (.file [])) := by
    simp only [addDownload, hisd, if_true]
    split
    · exact .inl rfl
    · split
      · rename_i K hw; exact .inr ⟨K, hw, rfl⟩
      · exact .inl rfl
  -- the file system after `add_download` differs at the entry only, and paths lead where they led
  have hfs1 : (∀ x, x ≠ D ++ [i] → (addDownload c env.mkdirFails env.createFails fs i).1 x = fs x) ∧
      (∀ last n cs k0, (addDownload c env.mkdirFails env.createFails fs i).1.walk last n k0 cs = fs.walk last n k0 cs) ∧
      Contained (addDownload c env.mkdirFails env.createFails fs i).1 R ∧ NoLink (addDownload c env.mkdirFails env.createFails fs i).1 (D ++ [i]) := by
    rcases had with e | ⟨K, hw, e⟩
    · rw [e]; exact ⟨fun _ _ => rfl, fun _ _ _ _ => rfl, hcont, hl⟩
    · obtain ⟨hpK, hndK⟩ := writable_some hw
      have hK : K = D ++ [i] := walk_in hh hi hD (.inr hl) (place_walk hpK).1
      have hnl := place_nolink htree hpK
      rw [e]
      refine ⟨fun x hx => set_other _ _ (hK ▸ hx), walk_set hndK hnl [], contained_set hndK hnl [] hcont, ?_⟩
      intro t ht
      exact hl t (link_set ht)
  generalize (addDownload c env.mkdirFails env.createFails fs i).1 = fs1 at h1 hfs1
  obtain ⟨e1, e2, e3, e4⟩ := hfs1
  rcases h1 with h1 | h1
  · rw [h1.2] at h; exact absurd (e1 k hk) h
  rw [h1.2] at h
  have hD1 : fs1.place c.cwd (downloadDir c) = some D := by simpa only [LFS.place, e2] using hD
  have hroot1 : fs1.place c.cwd c.root = some R := by simpa only [LFS.place, e2] using hroot
  obtain ⟨fs2, h2, h3⟩ := rest_cases c env fs1 (join (downloadDir c) i) (utf8Encode path) offset data final
  have hfs2 : (∀ x, x ≠ D ++ [i] → fs2 x = fs1 x) ∧ (∀ last n cs k0, fs2.walk last n k0 cs = fs1.walk last n k0 cs) ∧ Contained fs2 R := by
    rcases h2 with rfl | rfl
    · exact ⟨fun _ _ => rfl, fun _ _ _ _ => rfl, e3⟩
    · rcases writeChunk_cases c.cwd env.write fs1 (join (downloadDir c) i) offset data with e | ⟨K, old, new, hpK, hfK, e⟩
      · rw [e]; exact ⟨fun _ _ => rfl, fun _ _ _ _ => rfl, e3⟩
      · have hK : K = D ++ [i] := walk_in hh hi hD1 (.inr e4) (place_walk hpK).1
        rw [e]
        exact ⟨fun x hx => set_other _ _ (hK ▸ hx), walk_set (file_nodir hfK).1 (file_nodir hfK).2 new, contained_set (file_nodir hfK).1 (file_nodir hfK).2 new e3⟩
  obtain ⟨g1, g2, g3⟩ := hfs2
  have hent : ∀ j, fs2.entry c.cwd (join (downloadDir c) i) = some j → j = D ++ [i] := by
    intro j hj
    simp only [LFS.entry] at hj
    split at hj
    · exact (nomatch hj)
    · rw [g2] at hj
      exact walk_in hh hi hD1 (.inl rfl) hj
  have hk2 : fs2 k = fs k := (g1 k hk).trans (e1 k hk)
  rcases h3 with h3 | h3 | h3
  · rw [h3] at h
    have := (remove_change (fun e => h (e.trans hk2))).1
    exact absurd (hent k this) hk
  · rw [h3] at h
    have hroot2 : fs2.place c.cwd c.root = some R := by simpa only [LFS.place, g2] using hroot1
    rcases c127_inside_partial c hs fs2 R hroot2 g3 path hp env.renameOk env.unlinkOk env.copy (join (downloadDir c) i) k (fun e => h (e.trans hk2)) with h4 | h4
    · exact absurd (hent k h4) hk
    · exact h4
  · rw [h3] at h; exact absurd hk2 h

theorem plain_addDownload (c : Cfg) (a b : Bool) (fs : FS) (id : Text) :
    addDownload c a b (plain fs) id = (plain (RemoteDirectory.addDownload c a b fs id).1, (RemoteDirectory.addDownload c a b fs id).2) := by
  have key : ∀ fs1 : FS, (if b = true then ((plain fs1, none) : LFS × Option Text) else match (plain fs1).writable c.cwd (join (downloadDir c) id) with
        | some k => ((plain fs1).set k (some (.file [])), some (join (downloadDir c) id))
        | none => (plain fs1, none)) =
      let r : FS × Option Text := if b = true then (fs1, none) else match fs1.writable c.cwd (join (downloadDir c) id) with
        | some k => (fs1.set k (some (.file [])), some (join (downloadDir c) id))
        | none => (fs1, none)
      (plain r.1, r.2) := by
    intro fs1
    rw [plain_writable]
    cases b with
    | true => rfl
    | false =>
      cases fs1.writable c.cwd (join (downloadDir c) id) with
      | none => rfl
      | some k => simp only [Bool.false_eq_true, if_false, plain_set]; rfl
  simp only [addDownload, RemoteDirectory.addDownload, plain_isDir, plain_mkdir]
  by_cases hd : fs.isDir c.cwd (downloadDir c) = true
  · simp only [hd, if_true]; exact key fs
  · simp only [hd, Bool.false_eq_true, if_false]
    cases a with
    | true => rfl
    | false =>
      simp only [Bool.false_eq_true, if_false]
      cases fs.mkdir c.cwd (downloadDir c) with
      | none => rfl
      | some fs1 => exact key fs1

theorem plain_writeChunk (cwd : Text) (io : Io) (fs : FS) (path : Text) (offset : Int) (data : Bytes) :
    writeChunk cwd io (plain fs) path offset data =
      (plain (RemoteDirectory.writeChunk cwd io fs path offset data).1, (RemoteDirectory.writeChunk cwd io fs path offset data).2) ∧
    ((RemoteDirectory.writeChunk cwd io fs path offset data).2 = true →
      ∃ d, (RemoteDirectory.writeChunk cwd io fs path offset data).1.content cwd path = some d) := by
  simp only [writeChunk, RemoteDirectory.writeChunk, plain_place, plain_content]
  cases hp : fs.place cwd path with
  | none => exact ⟨rfl, fun h => (nomatch h)⟩
  | some k =>
    cases hc : fs.content cwd path with
    | none => exact ⟨rfl, fun h => (nomatch h)⟩
    | some old =>
      simp only
      split
      · exact ⟨rfl, fun h => (nomatch h)⟩
      · cases io with
        | good =>
          refine ⟨by simp only [plain_set]; rfl, fun _ => ⟨writeAt old offset.toNat data, ?_⟩⟩
          show (fs.set k (some (.file (writeAt old offset.toNat data)))).content cwd path = _
          have h1 : (plain fs).place cwd path = some k := by rw [plain_place]; exact hp
          have h2 : plain fs k ≠ some .dir := by
            obtain ⟨k', h3, h4⟩ := content_some ((plain_content fs cwd path).trans hc)
            rw [h1] at h3; cases h3
            rw [h4]; exact fun h => (nomatch h)
          rw [← plain_content, plain_set]
          exact content_of (d := writeAt old offset.toNat data) (by rw [show plain (fun _ => some (Node.file (writeAt old offset.toNat data))) k =
            some (.file (writeAt old offset.toNat data)) from rfl, place_set h2 (plain_nolink fs k)]; exact h1) (set_self _ _ _)
        | fails w => cases w with
          | none => exact ⟨rfl, fun h => (nomatch h)⟩
          | some n => cases n with
            | zero => exact ⟨rfl, fun h => (nomatch h)⟩
            | succ n => exact ⟨by simp only [plain_set]; rfl, fun h => (nomatch h)⟩

/-- Without links, requests with data or that do not end the download do to the file system what the model of C58-C60 says, and
the answer has the same code. -/
theorem c167_same (r : PyVal → String) (c : Cfg) (env : WriteEnv) (fs : FS) (id path devicePath : Bytes) (offset : Int) (data : Bytes) (final : Int)
    (h : data ≠ [] ∨ final = 0) :
    (onWrite c env (plain fs) id path devicePath offset data final).1 = plain (RemoteDirectory.onWrite r c env fs id path devicePath offset data final).1 ∧
    (onWrite c env (plain fs) id path devicePath offset data final).2.isSome = (RemoteDirectory.onWrite r c env fs id path devicePath offset data final).2.isSome ∧
    ∀ code, (onWrite c env (plain fs) id path devicePath offset data final).2 = some code → ∃ position device reason,
      (RemoteDirectory.onWrite r c env fs id path devicePath offset data final).2 =
        some [Packets.create r 32 [.bytes id, .int position, .int data.length, .bytes device, .int code, .bytes reason] []] := by
  simp only [onWrite, RemoteDirectory.onWrite]
  cases utf8Decode devicePath with
  | none => exact ⟨rfl, rfl, fun _ h => (nomatch h)⟩
  | some dev =>
    simp only
    by_cases hg : dev = []
    · simp only [if_pos hg]
      cases utf8Decode id with
      | none => exact ⟨rfl, rfl, fun code h => by cases h; exact ⟨_, _, _, rfl⟩⟩
      | some i =>
        simp only [plain_addDownload]
        rcases RemoteDirectory.addDownload c env.mkdirFails env.createFails fs i with ⟨fs1, o⟩
        cases o with
        | none => exact ⟨rfl, rfl, fun code h => by cases h; exact ⟨_, _, _, rfl⟩⟩
        | some dev =>
          simp only [rest]
          by_cases hem : data.isEmpty = true
          · have hf : ¬ final ≠ 0 := by
              rcases h with h | h
              · exact absurd (List.isEmpty_iff.1 hem) h
              · exact fun n => n h
            simp only [hem, if_true, ending, if_neg hf]
            exact ⟨trivial, rfl, fun code h => by cases h; exact ⟨_, _, _, rfl⟩⟩
          · obtain ⟨e1, e2⟩ := plain_writeChunk c.cwd env.write fs1 dev offset data
            simp only [hem, Bool.false_eq_true, if_false]
            rw [e1]
            rcases hw : RemoteDirectory.writeChunk c.cwd env.write fs1 dev offset data with ⟨fs2, b⟩
            rw [hw] at e2
            cases b with
            | false => simp only [ending]; exact ⟨plain_remove .., rfl, fun code h => by cases h; exact ⟨_, _, _, rfl⟩⟩
            | true =>
              simp only [ending]
              obtain ⟨d, e3⟩ := e2 rfl
              by_cases hf : final ≠ 0
              · rw [if_pos hf, if_pos hf, (c127_same c fs2 env dev path).2 d e3]
                rcases RemoteDirectory.copyDownload c env fs2 dev path with ⟨fs3, b3⟩
                cases b3 <;> exact ⟨rfl, rfl, fun code h => by cases h; exact ⟨_, _, _, rfl⟩⟩
              · rw [if_neg hf, if_neg hf]; exact ⟨rfl, rfl, fun code h => by cases h; exact ⟨_, _, _, rfl⟩⟩
    · simp only [if_neg hg]
      generalize fs = fs1
      simp only [rest]
      by_cases hem : data.isEmpty = true
      · have hf : ¬ final ≠ 0 := by
          rcases h with h | h
          · exact absurd (List.isEmpty_iff.1 hem) h
          · exact fun n => n h
        simp only [hem, if_true, ending, if_neg hf]
        exact ⟨trivial, rfl, fun code h => by cases h; exact ⟨_, _, _, rfl⟩⟩
      · obtain ⟨e1, e2⟩ := plain_writeChunk c.cwd env.write fs1 dev offset data
        simp only [hem, Bool.false_eq_true, if_false]
        rw [e1]
        rcases hw : RemoteDirectory.writeChunk c.cwd env.write fs1 dev offset data with ⟨fs2, b⟩
        rw [hw] at e2
        cases b with
        | false => simp only [ending]; exact ⟨plain_remove .., rfl, fun code h => by cases h; exact ⟨_, _, _, rfl⟩⟩
        | true =>
          simp only [ending]
          obtain ⟨d, e3⟩ := e2 rfl
          by_cases hf : final ≠ 0
          · rw [if_pos hf, if_pos hf, (c127_same c fs2 env dev path).2 d e3]
            rcases RemoteDirectory.copyDownload c env fs2 dev path with ⟨fs3, b3⟩
            cases b3 <;> exact ⟨rfl, rfl, fun code h => by cases h; exact ⟨_, _, _, rfl⟩⟩
          · rw [if_neg hf, if_neg hf]; exact ⟨rfl, rfl, fun code h => by cases h; exact ⟨_, _, _, rfl⟩⟩

/-- A file system with a link in the download folder. -/
def trapFS : LFS := (linkFS.set ["var".toList, "tmp".toList, "dataplicity_remote_downloads".toList] (some .dir)).set
  ["var".toList, "tmp".toList, "dataplicity_remote_downloads".toList, "trap".toList] (some (.link "/etc/passwd".toList))

/-- C167 fails: a link that someone has put in the download folder leads the agent to overwrite a file outside. -/
theorem c167_counterexample :
    (onWrite exampleCfg {} trapFS (asc "trap") (asc "x") [] 0 [6, 6, 6] 0).1 ["etc".toList, "passwd".toList] = some (.file [6, 6, 6]) := by decide +kernel

/-- Without one the file is in the folder, and then in the remote directory. -/
example :
    (onWrite exampleCfg {} trapFS (asc "i") (asc "x") [] 2 [6, 6, 6] 0).2 = some 0 ∧
    (onWrite exampleCfg {} trapFS (asc "i") (asc "x") [] 2 [6, 6, 6] 0).1 ["var".toList, "tmp".toList, "dataplicity_remote_downloads".toList, "i".toList] =
      some (.file [0, 0, 6, 6, 6]) ∧
    (onWrite exampleCfg {} trapFS (asc "i") (asc "n") [] 0 [7] 1).1 ["home".toList, "dataplicity".toList, "remote".toList, "n".toList] = some (.file [7]) ∧
    trapFS.place exampleCfg.cwd (downloadDir exampleCfg) = some ["var".toList, "tmp".toList, "dataplicity_remote_downloads".toList] := by decide +kernel

/-- A file system with links inside of the remote directory, and a download folder with a link and a file. -/
def folderList : List (List Text × LNode) :=
  (["var".toList, "tmp".toList, "dataplicity_remote_downloads".toList], .dir) ::
  (["var".toList, "tmp".toList, "dataplicity_remote_downloads".toList, "trap".toList], .link "/disk/remote/a".toList) ::
  (["var".toList, "tmp".toList, "dataplicity_remote_downloads".toList, "i".toList], .file [9, 9]) :: safeList

def folder : List Text := ["var".toList, "tmp".toList, "dataplicity_remote_downloads".toList]
def nameN : Text := "n".toList

/-- The conditions of `c167_iff` and `c167_inside_partial` hold in the example. -/
example (k : List Text) (h : (onWrite exampleCfg {} (ofList folderList) (utf8Encode idI) (utf8Encode nameN) [] 1 [7] 1).1 k ≠ ofList folderList k) :
    k = folder ++ [idI] ∨ safeRoot <+: k :=
  c167_inside_partial exampleCfg exampleCfg_sane {} (ofList folderList) (ofList_tree _ (by decide +kernel) (by decide +kernel)) folder safeRoot
    (by decide +kernel) (by decide +kernel) (by decide +kernel) (ofList_contained _ _ (by decide +kernel)) idI (by decide +kernel)
    (by intro t; rw [show ofList folderList (folder ++ [idI]) = some (.file [9, 9]) by decide +kernel]; exact fun h => (nomatch h)) nameN (by rw [← RemoteDirectory.validatePath_iff]; decide +kernel) 1 [7] 1 k h

example :
    (onWrite exampleCfg {} (ofList folderList) (utf8Encode idI) (utf8Encode nameN) [] 1 [7] 0).2 = some 0 ∧
    (onWrite exampleCfg {} (ofList folderList) (utf8Encode idI) (utf8Encode nameN) [] 1 [7] 0).1 (folder ++ [idI]) = some (.file [0, 7]) ∧
    (onWrite exampleCfg {} (ofList folderList) (utf8Encode idI) (utf8Encode nameN) [] 1 [7] 1).1 (safeRoot ++ [nameN]) = some (.file [0, 7]) := by decide +kernel

end Verif.Links
