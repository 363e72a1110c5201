import Verif.Proofs.Interference
/-!
C176-C178: other programs work on the same files.
-/
namespace Verif.Interference
open Path
open Verif.RemoteDirectory (Closed GoesUp Cfg WriteEnv)

/-! ### C176 -/

/-- C176, what can be overwritten: if other programs do anything at any time, and the agent, when it stores a download, takes away or replaces something
other than the temporary file, then nothing was there when the agent looked for a free name.  (The name found does not go up.) -/
theorem c176_new (o : Others) (ho : Fair o) (c : Cfg) (hs : c.Sane) (env : WriteEnv) (fs : FS) (hc : Closed fs) (dev : Text) (path : Bytes)
    (fs1 : FS) (i : Nat) (dest : Text) (hd : destination o c fs path = (fs1, i, some dest)) (hu : ¬ GoesUp dest)
    (b a : FS) (hown : (b, a) ∈ (copyDownload o c env fs dev path).own) (k : List Text) (hk : k ≠ lexKey (join c.cwd dev)) (hne : a k ≠ b k) :
    fs1 k = none := by
  obtain ⟨hfree, habs, hl⟩ := destination_free hs.root hd
  have hc1 : Closed fs1 := hl.closed ho (ho 0 _ hc)
  simp only [copyDownload, hd] at hown
  obtain ⟨h1, ⟨d, h2⟩, h3⟩ := store_own hown hk hne
  rcases h3 with h3 | h3
  · exact free_target hc1 hu habs hfree h3
  · have hcwd : c.cwd ≠ [] := RemoteDirectory.ne_nil_of_head hs.cwd
    have hn := file_name (h1.closed ho hc1) hcwd h2
    have hne : (Path.split dev).2 ≠ [] := by
      intro e; rw [e] at hn; simp [isName] at hn
    rw [rstrip_id dev hne] at h3
    exact free_below hc1 hu habs hn (split_noslash dev) hfree h3

/-- C176 where it holds: other programs may change and remove what they like, but make nothing new meanwhile; then the agent overwrites nothing, whatever
the operating system does.  Missing for the full property: files that are made meanwhile (`c176_counterexample`) and requested names that go up
(`c176_up_false`). -/
theorem c176_partial (o : Others) (ho : Fair o) (hm : MakesNothing o) (c : Cfg) (hs : c.Sane) (env : WriteEnv) (fs : FS) (hc : Closed fs) (dev : Text)
    (path : Bytes) (hu : ∀ fs1 i dest, destination o c fs path = (fs1, i, some dest) → ¬ GoesUp dest) :
    ∀ change ∈ (copyDownload o c env fs dev path).own, ¬ Overwrites (lexKey (join c.cwd dev)) change := by
  rintro ⟨b, a⟩ hown ⟨k, hk, hb, hne⟩
  cases hd : destination o c fs path with
  | mk fs1 r =>
    obtain ⟨i, dest⟩ := r
    cases dest with
    | none => simp only [copyDownload, hd] at hown; exact (nomatch hown)
    | some dest =>
      have hnone := c176_new o ho c hs env fs hc dev path fs1 i dest hd (hu _ _ _ hd) b a hown k hk hne
      simp only [copyDownload, hd] at hown
      exact hb ((store_own hown hk hne).1.none hm hnone)

/-- C176: if nobody else does anything, this is the model of C58 to C61 and C93. -/
theorem c176_agrees (c : Cfg) (env : WriteEnv) (fs : FS) (dev : Text) (path : Bytes) (hsrc : fs.isDir c.cwd dev = false) :
    ((copyDownload (fun _ fs => fs) c env fs dev path).fs, (copyDownload (fun _ fs => fs) c env fs dev path).ok) =
      RemoteDirectory.copyDownload c env fs dev path := by
  obtain ⟨j, hd⟩ := destination_nobody c fs path
  have hd' : destination (fun _ fs => fs) c fs path = (fs, j, RemoteDirectory.destination c fs path) := hd
  simp only [copyDownload, RemoteDirectory.copyDownload, hd']
  cases hx : RemoteDirectory.destination c fs path with
  | none => rfl
  | some dest => exact store_nobody c.cwd env j fs dev dest (RemoteDirectory.destination_free c fs path dest hx) hsrc

/-- A download lies in the folder for downloads. -/
def downloaded : FS :=
  (RemoteDirectory.exampleFS.set ["var".toList, "tmp".toList, "dataplicity_remote_downloads".toList] (some .dir)).set
    ["var".toList, "tmp".toList, "dataplicity_remote_downloads".toList, "7".toList] (some (.file [7, 7]))

def device : Text := "/var/tmp/dataplicity_remote_downloads/7".toList

/-- The place of a name in the remote directory. -/
def at_ (name : Text) : List Text := ["home".toList, "dataplicity".toList, "remote".toList, name]

/-- Somebody saves a file `n` just before the third system call, `os.rename`: the name has been found free, and is about to be used. -/
def saves : Others := fun i fs => if i = 2 then fs.set (at_ ['n']) (some (.file [1, 2, 3])) else fs

theorem set_get (fs : FS) (k : List Text) (x : Option Node) : (fs.set k x) k = x := by simp [FS.set]

/-- C176: `copy_download` ends without an exception only if the agent has put the contents of the temporary file somewhere, whatever other programs
do meanwhile. -/
theorem c176_stored (o : Others) (c : Cfg) (env : WriteEnv) (fs : FS) (dev : Text) (path : Bytes) (h : (copyDownload o c env fs dev path).ok = true) :
    ∃ change ∈ (copyDownload o c env fs dev path).own, ∃ d k, change.1.content c.cwd dev = some d ∧ change.2 k = some (.file d) := by
  have hrename : ∀ (p : Bool) (fs fs' : FS) (dst : Text), rename c.cwd p fs dev dst = some fs' →
      ∃ d k, fs.content c.cwd dev = some d ∧ fs' k = some (.file d) := by
    intro p fs fs' dst h
    unfold rename at h
    split at h
    · rename_i k d k' _ hd _
      split at h
      · injection h with h
        exact ⟨d, k', hd, by rw [← h]; exact set_get _ _ _⟩
      · exact nomatch h
    · exact nomatch h
  have hcopy : ∀ i (fs : FS) (real : Text), (copyOver o c.cwd env i fs dev real).ok = true →
      ∃ change ∈ (copyOver o c.cwd env i fs dev real).own, ∃ d k, change.1.content c.cwd dev = some d ∧ change.2 k = some (.file d) := by
    intro i fs real h
    unfold copyOver at h ⊢
    split at h
    · rename_i d k' hd _
      split at h
      · exact nomatch h
      · rename_i hs
        rw [if_neg hs]
        split at h
        · exact nomatch h
        · exact nomatch h
        · exact ⟨_, List.mem_cons_self, d, k', hd, set_get _ _ _⟩
    · exact nomatch h
  have hmoveTo : ∀ i (fs : FS) (real : Text), (moveTo o c.cwd env i fs dev real).ok = true →
      ∃ change ∈ (moveTo o c.cwd env i fs dev real).own, ∃ d k, change.1.content c.cwd dev = some d ∧ change.2 k = some (.file d) := by
    intro i fs real h
    unfold moveTo at h ⊢
    split at h
    · rename_i fs1 hr
      exact ⟨_, List.mem_cons_self, hrename _ _ _ _ hr⟩
    · exact hcopy _ _ _ h
  have hmove : ∀ i (fs : FS) (dst : Text), (move o c.cwd env i fs dev dst).ok = true →
      ∃ change ∈ (move o c.cwd env i fs dev dst).own, ∃ d k, change.1.content c.cwd dev = some d ∧ change.2 k = some (.file d) := by
    intro i fs dst h
    simp only [move] at h ⊢
    split at h
    · rename_i hd
      rw [if_pos hd]
      split at h
      · exact nomatch h
      · rename_i hp
        rw [if_neg hp]
        exact hmoveTo _ _ _ h
    · rename_i hd
      rw [if_neg hd]
      exact hmoveTo _ _ _ h
  unfold copyDownload at h ⊢
  split at h
  · exact nomatch h
  · simp only [store] at h ⊢
    split at h
    · rename_i hr
      exact ⟨_, List.mem_cons_self, hrename _ _ _ _ hr⟩
    · exact hmove _ _ _ h

/-- C176 fails: the file that somebody saves after the agent has found the name free is replaced, without an error. -/
theorem c176_counterexample :
    let r := copyDownload saves RemoteDirectory.exampleCfg {} downloaded device (asc "n")
    r.ok = true ∧ r.own.map (fun x => (x.1 (at_ ['n']), x.2 (at_ ['n']))) = [(some (.file [1, 2, 3]), some (.file [7, 7]))] := by decide +kernel

/-- C176 fails, also if the temporary folder is on another device, when the copy is about to be made. -/
theorem c176_counterexample_copy :
    let r := copyDownload (fun i fs => if i = 5 then fs.set (at_ ['n']) (some (.file [1, 2, 3])) else fs) RemoteDirectory.exampleCfg { renameOk := false }
      downloaded device (asc "n")
    r.ok = true ∧ r.own.map (fun x => (x.1 (at_ ['n']), x.2 (at_ ['n']))) =
      [(some (.file [1, 2, 3]), some (.file [7, 7])), (some (.file [7, 7]), some (.file [7, 7]))] := by decide +kernel

/-- C176, names that go up: `x/../a` is free as long as there is no directory `x`; if somebody makes it, the file `a` that was there all the time is
replaced. -/
theorem c176_up_false :
    let r := copyDownload (fun i fs => if i = 2 then fs.set (at_ ['x']) (some .dir) else fs) RemoteDirectory.exampleCfg {} downloaded device (asc "x/../a")
    r.ok = true ∧ r.own.map (fun x => (x.1 (at_ ['a']), x.2 (at_ ['a']))) = [(some (.file [1, 2, 3, 4, 5]), some (.file [7, 7]))] := by decide +kernel

/-- If somebody makes a directory of the name, the download is put into it under the name of the temporary file; nothing is overwritten. -/
theorem c176_into :
    let r := copyDownload (fun i fs => if i = 2 then fs.set (at_ ['n']) (some .dir) else fs) RemoteDirectory.exampleCfg {} downloaded device (asc "n")
    r.ok = true ∧ r.fs (at_ ['n'] ++ ["7".toList]) = some (.file [7, 7]) ∧ r.fs (at_ ['n']) = some .dir := by decide +kernel

/-- If there is already a file of that name in the directory, nothing is stored and nothing is replaced. -/
example :
    let r := copyDownload (fun i fs => if i = 2 then (fs.set (at_ ['n']) (some .dir)).set (at_ ['n'] ++ ["7".toList]) (some (.file [1])) else fs)
      RemoteDirectory.exampleCfg {} downloaded device (asc "n")
    r.ok = false ∧ r.own.length = 0 ∧ r.fs (at_ ['n'] ++ ["7".toList]) = some (.file [1]) := by decide +kernel

/-- Somebody saves the file just before the agent looks whether the name is free: the next name is used. -/
example :
    let r := copyDownload (fun i fs => if i = 1 then fs.set (at_ ['n']) (some (.file [1, 2, 3])) else fs) RemoteDirectory.exampleCfg {} downloaded device (asc "n")
    r.ok = true ∧ r.fs (at_ ['n']) = some (.file [1, 2, 3]) ∧ r.fs (at_ "n(1)".toList) = some (.file [7, 7]) := by decide +kernel

/-! ### C177 -/

/-- C177, what always holds: each byte of a snapshot was at its place in the file at some time during the copy. -/
theorem c177_bytes (used total : Nat) (f : Nat → Bytes) (size : Nat → Nat) (fuel : Nat) (d : Bytes) (h : snapshot used total f size fuel = some (some d))
    (j : Nat) (x : UInt8) (hx : d[j]? = some x) : ∃ t, 1 ≤ t ∧ (f t)[j]? = some x := by
  simp only [snapshot] at h
  split at h
  · injection h with h; exact (nomatch h)
  · cases hl : copyLoop f size fuel 1 [] with
    | none => rw [hl] at h; exact (nomatch h)
    | some d' =>
      rw [hl] at h
      injection h with h; injection h with h
      subst h
      rcases copyLoop_bytes f size fuel 1 [] d' hl j x hx with h | h
      · exact (nomatch h)
      · exact h

/-- C177 where it holds: a file that is only appended to while it is copied, such as a log; the snapshot is the file as it was at one moment. -/
theorem c177_appended_partial (used total : Nat) (f : Nat → Bytes) (hf : Appended f) (size : Nat → Nat) (fuel : Nat) (d : Bytes)
    (h : snapshot used total f size fuel = some (some d)) : ∃ t, 1 ≤ t ∧ d = f t := by
  simp only [snapshot] at h
  split at h
  · injection h with h; exact (nomatch h)
  · cases hl : copyLoop f size fuel 1 [] with
    | none => rw [hl] at h; exact (nomatch h)
    | some d' =>
      rw [hl] at h
      injection h with h; injection h with h
      subst h
      exact copyLoop_appended hf size fuel 1 [] d' List.nil_prefix hl

/-- C177 where it holds: the file is not changed while it is copied; the copy ends, in pieces of whatever sizes, and is the file. -/
theorem c177_quiet_partial (used total : Nat) (f : Nat → Bytes) (d : Bytes) (hf : ∀ t, 1 ≤ t → f t = d) (size : Nat → Nat)
    (hroom : used + (f 0).length + 50000000 ≤ total) : snapshot used total f size (d.length + 1) = some (some d) := by
  have hn : ¬ ((used : Int) + (f 0).length > total - RemoteDirectory.margin) := by simp only [RemoteDirectory.margin]; omega
  simp only [snapshot]
  rw [if_neg hn, copyLoop_same d f size 1 hf [] List.nil_prefix d.length (by simp)]
  rfl

/-- C177 fails: somebody writes `[3, 4]` over `[1, 2]` while the file is copied; the snapshot is `[1, 4]`, which the file never was. -/
theorem c177_counterexample :
    let f : Nat → Bytes := fun i => if i ≤ 1 then [1, 2] else [3, 4]
    snapshot 0 100000000 f (fun _ => 0) 5 = some (some [1, 4]) ∧ ∀ t, f t ≠ [1, 4] := by
  refine ⟨by decide +kernel, ?_⟩
  intro t
  dsimp only
  split <;> simp

/-- C177 fails: as long as a file grows at least as fast as it is copied, there is no snapshot and no answer. -/
theorem c177_endless (used total : Nat) (f : Nat → Bytes) (size : Nat → Nat) (hf : ∀ i, (f i).length + size i + 1 ≤ (f (i + 1)).length)
    (hroom : used + (f 0).length + 50000000 ≤ total) (fuel : Nat) : snapshot used total f size fuel = none := by
  have hn : ¬ ((used : Int) + (f 0).length > total - RemoteDirectory.margin) := by simp only [RemoteDirectory.margin]; omega
  simp only [snapshot]
  rw [if_neg hn, copyLoop_endless hf fuel 1 [] (by have := hf 0; rw [Nat.zero_add] at this; rw [List.length_nil]; omega)]
  rfl

/-- Such a file: a byte is added before each read of one byte. -/
example : ∀ i : Nat, (List.replicate i (0 : UInt8)).length + 0 + 1 ≤ (List.replicate (i + 1) (0 : UInt8)).length := by simp

/-- A log that grows while it is copied in pieces of two bytes. -/
example : Appended (fun i => (List.range i).map UInt8.ofNat ++ []) ∧
    snapshot 0 100000000 (fun i => [1, 2, 3].take (i + 1)) (fun _ => 1) 5 = some (some [1, 2, 3]) := by
  refine ⟨?_, by decide +kernel⟩
  intro i
  refine ⟨[UInt8.ofNat i], ?_⟩
  simp [List.range_succ]

/-! ### C178 -/

/-- C178 where it holds: the file does not become longer than it was when the agent looked; then 50,000,000 bytes stay free, counted from the usage at that
time.  Missing for the full property: files that grow meanwhile, `c178_counterexample`. -/
theorem c178_partial (used total : Nat) (f : Nat → Bytes) (hf : ∀ t, (f t).length ≤ (f 0).length) (size : Nat → Nat) (fuel : Nat) (d : Bytes)
    (h : snapshot used total f size fuel = some (some d)) : used + d.length + 50000000 ≤ total := by
  have hroom : used + (f 0).length + 50000000 ≤ total := by
    simp only [snapshot] at h
    split at h
    · injection h with h; exact (nomatch h)
    · rename_i hn; simp only [RemoteDirectory.margin] at hn; omega
  have hlen : d.length ≤ (f 0).length := by
    rcases Nat.eq_zero_or_pos d.length with h0 | h0
    · omega
    · obtain ⟨x, hx⟩ : ∃ x, d[d.length - 1]? = some x := ⟨d[d.length - 1], List.getElem?_eq_getElem (by omega)⟩
      obtain ⟨t, -, ht⟩ := c177_bytes used total f size fuel d h _ x hx
      obtain ⟨hlt, -⟩ := List.getElem?_eq_some_iff.1 ht
      have := hf t
      omega
  omega

/-- C178, exactly when a request is refused: by the size that the file had when the agent looked. -/
theorem c178_refused_iff (used total : Nat) (f : Nat → Bytes) (size : Nat → Nat) (fuel : Nat) :
    snapshot used total f size fuel = some none ↔ total < used + (f 0).length + 50000000 := by
  simp only [snapshot]
  by_cases h : (used : Int) + (f 0).length > total - RemoteDirectory.margin
  · rw [if_pos h]
    simp only [RemoteDirectory.margin] at h
    exact ⟨fun _ => by omega, fun _ => rfl⟩
  · rw [if_neg h]
    simp only [RemoteDirectory.margin] at h
    refine ⟨fun h' => ?_, fun h' => by omega⟩
    cases hl : copyLoop f size fuel 1 [] with
    | none => rw [hl] at h'; exact (nomatch h')
    | some d => rw [hl] at h'; injection h' with h'; exact (nomatch h')

/-- C178 fails: the file is empty when the agent looks, and has three bytes when it is copied; one byte fewer than the margin stays free. -/
theorem c178_counterexample :
    snapshot 0 50000002 (fun i => if i = 0 then [] else [1, 2, 3]) (fun _ => 100) 5 = some (some [1, 2, 3]) := by decide +kernel

/-- C178, the same with any number of bytes: no margin is kept for files that grow. -/
theorem c178_unbounded (d : Bytes) : snapshot 0 50000000 (fun i => if i = 0 then [] else d) (fun _ => 0) (d.length + 1) = some (some d) :=
  c177_quiet_partial 0 50000000 _ d (fun t ht => if_neg (by omega)) _ (by simp)

/-- C177, C178: with a file that nobody changes this is what the model of C52 to C57 does. -/
theorem c178_agrees (c : Cfg) (env : RemoteDirectory.OpenEnv) (fs fs1 : FS) (path id f : Text) (n used total : Nat) (d : Bytes)
    (hu : env.usage = some (used, total)) (hk : env.sizeFails = false) (hf : RemoteDirectory.uploadFile c path = .ok f)
    (hd : fs.content c.cwd f = some d) (ho : RemoteDirectory.addUpload c env fs path id = (fs1, .ok n)) (size : Nat → Nat) :
    snapshot used total (fun _ => d) size (d.length + 1) = some (some d) ∧ n = d.length := by
  have hm := RemoteDirectory.c56_margin_partial c env fs fs1 path id f n used total d hu hk hf hd ho
  obtain ⟨f', d', h1, h2, h3, -⟩ := RemoteDirectory.addUpload_ok ho
  rw [hf] at h1
  injection h1 with h1
  subst h1
  have := (FS.content_some hd).2
  rw [this] at h2
  injection h2 with h2
  injection h2 with h2
  subst h2
  subst h3
  exact ⟨c177_quiet_partial used total _ d (fun _ _ => rfl) size hm, rfl⟩

end Verif.Interference
