import Verif.Props.ScanJson
import Verif.Props.ScanFs
/-!
C159: a server that reads the file of a scan as JSON, and asks for what it finds there.
-/
namespace Verif.ScanFs
open Verif Path JsonText ScanJson
open _root_.Verif.RemoteDirectory (Cfg snapDir exampleCfg)
open _root_.Verif.Links (LFS Tree addUpload readUpload ofList)
open _root_.Verif.Scan (Info)

/-- A server that asks for `path` under `id` is told the length of `d`, and its reads give pieces of `d`; the system does what it is asked. -/
def Fetches (c : Cfg) (fs : LFS) (path id : Text) (d : Bytes) : Prop :=
  (addUpload c ⟨none, false, false, .good, false, [], 4096⟩ fs path id).2 = .ok d.length ∧
  ∀ o s : Nat, (o : Int) ≤ maxSize → (s : Int) ≤ maxSize →
    (readUpload c {} (addUpload c ⟨none, false, false, .good, false, [], 4096⟩ fs path id).1 id o s).2 = .ok ((d.drop o).take s)

/-- C159: whatever file a server finds in the bytes that are written for a scan, read as JSON, it can ask for the path of the directory in
the JSON followed by the name in the JSON: this path leads to a regular file, the size in the JSON is its size (or -1 if it could not be
got), and the server gets its bytes. -/
theorem c159_found (c : Cfg) (hs : c.Sane) (fs : LFS) (ht : Tree fs) (env : Env) (hn : Lists fs env.names) (fuel : Nat)
    (dirs : Text → Option Info) (h : scan c env fs fuel = .done dirs) (ftext : Option Int → Nat → Text) (fval : Text → Json)
    (other : Enc → Bytes → Option Text) (time : Option Int × Nat) (hf : FloatsRead ftext fval [time]) (filesFirst : Text → Bool)
    (l : List (Text × Info)) (hl : Items l dirs) :
    ∃ j, loadsBytes fval other (fileBytes ftext c.root time filesFirst l) = some j ∧ rootOf j = some c.root ∧
      ∀ p info, listing j p = some info → ∀ f ∈ info.files,
        ∃ k d, fs.place c.cwd (join c.root (join p f.1)) = some k ∧ fs k = some (.file d) ∧
          f.2 = (if env.sizeFails (join p f.1) then -1 else (d.length : Int)) ∧
          ∀ id k', fs.isDir c.cwd (snapDir c) = true → id.head? ≠ some '/' → fs.writable c.cwd (join (snapDir c) id) = some k' → k ≠ k' →
            Fetches c fs (join p f.1) id d := by
  have h' := h
  simp only [scan] at h'
  split at h'
  · obtain ⟨j, h1, h2, h3⟩ := (c153_read _ _ _ _ _ h').2 l hl ftext fval other c.root time hf filesFirst
    refine ⟨j, h1, h2, fun p info hp f hff => ?_⟩
    rw [h3] at hp
    exact c140_listed_fetched c hs fs ht env hn fuel dirs h p info hp f hff
  · exact nomatch h'

/-- C159: if there are no links in the remote directory and the operating system answers, the scan ends, and a server that reads its bytes as
JSON misses nothing: every file less than ten levels deep whose path has no name that starts with a dot is in the JSON, under the path of its
directory, with its size; and the server that asks for it gets its bytes. -/
theorem c159_missed (c : Cfg) (hs : c.Sane) (fs : LFS) (ht : Tree fs) (R : List Text) (hroot : fs.place c.cwd c.root = some R)
    (hdir : fs R = some .dir) (hnl : NoLinks fs R) (env : Env) (hn : Lists fs env.names) (hc : env.Calm fs)
    (ftext : Option Int → Nat → Text) (fval : Text → Json) (other : Enc → Bytes → Option Text) (time : Option Int × Nat)
    (hf : FloatsRead ftext fval [time]) (filesFirst : Text → Bool) :
    ∃ fuel dirs, scan c env fs fuel = .done dirs ∧ (∃ l, Items l dirs) ∧ ∀ l, Items l dirs →
      ∃ j, loadsBytes fval other (fileBytes ftext c.root time filesFirst l) = some j ∧
        ∀ ns n d, (∀ x ∈ ns ++ [n], Proper x ∧ Visible x) → ns.length < 10 → fs (R ++ ns ++ [n]) = some (.file d) →
          (∃ info, listing j (joinWith '/' ns) = some info ∧ (n, (d.length : Int)) ∈ info.files) ∧
          ∀ id k', fs.isDir c.cwd (snapDir c) = true → id.head? ≠ some '/' → fs.writable c.cwd (join (snapDir c) id) = some k' →
            R ++ ns ++ [n] ≠ k' → Fetches c fs (joinWith '/' (ns ++ [n])) id d := by
  have hd' : fs.isDir c.cwd c.root = true := (Links.isDir_iff ..).2 ⟨R, hroot, hdir⟩
  obtain ⟨fuel, dirs, h⟩ := c142_ends c fs hd' env hn hc
  have h' := h
  simp only [scan, hd', if_true] at h'
  obtain ⟨hit, hread⟩ := c153_read _ _ _ _ _ h'
  refine ⟨fuel, dirs, h, hit, fun l hl => ?_⟩
  obtain ⟨j, h1, _, h3⟩ := hread l hl ftext fval other c.root time hf filesFirst
  refine ⟨j, h1, fun ns n d hp hlen hfile => ?_⟩
  have hps : ∀ x ∈ ns, Proper x ∧ Visible x := fun x hx => hp x (by simp [hx])
  have hpn := hp n (by simp)
  have hdns : fs (R ++ ns) = some .dir := by
    exact tree_dir ht (R ++ ns) [n] (by simp) (by rw [hfile]; exact nofun)
  obtain ⟨info, hi, _, _, hfl, _⟩ := (c142_exact c hs fs ht R hroot hnl env hn hc fuel dirs h).2 ns hps hdns hlen
  have hmem : (n, (d.length : Int)) ∈ info.files := (hfl n d.length).2 ⟨hpn.1, hpn.2, d, hfile, rfl⟩
  refine ⟨⟨info, by rw [h3]; exact hi, hmem⟩, ?_⟩
  intro id k' hsnap hid hw hne
  have hj : join (joinWith '/' ns) n = joinWith '/' (ns ++ [n]) :=
    Scan.join_key (proper_good fun x hx => (hps x hx).1) ⟨hpn.1.1, hpn.1.2.2.2.1⟩
  obtain ⟨k, d', hk, hkd, _, hfetch⟩ := c140_listed_fetched c hs fs ht env hn fuel dirs h _ info hi _ hmem
  rw [hj] at hk hfetch
  have hkk : k = R ++ ns ++ [n] := by
    rcases stat_key hs ht hroot hdir hnl (names := ns ++ [n]) (fun x hx => (hp x hx).1) with hq | ⟨hq, _⟩
    · have := hk.symm.trans hq
      injection this with this
      rw [this, List.append_assoc]
    · exact nomatch hk.symm.trans hq
  subst hkk
  rw [hfile] at hkd
  injection hkd with hkd
  injection hkd with hkd
  subst hkd
  exact hfetch id k' hsnap hid hw hne

/-- The example of C142 with the folder for snapshots. -/
def mirrorList : List (List Text × Links.LNode) :=
  plainList ++ [(["var".toList], .dir), (["var".toList, "tmp".toList], .dir), (["var".toList, "tmp".toList, "dataplicity_remote".toList], .dir)]

/-- A server that reads the file of its scan as JSON finds `b.txt/c` there with its size, and can fetch it. -/
example (time : Option Int × Nat) : ∃ fuel dirs l j, scan exampleCfg (calmEnv mirrorList) (ofList mirrorList) fuel = .done dirs ∧ Items l dirs ∧
    loadsBytes RpcBytes.codeVal (fun _ _ => none) (fileBytes RpcBytes.codeText exampleCfg.root time (fun _ => true) l) = some j ∧
    (∃ info, listing j "b.txt".toList = some info ∧ ("c".toList, 1) ∈ info.files) ∧
    Fetches exampleCfg (ofList mirrorList) "b.txt/c".toList "x".toList [7] := by
  obtain ⟨fuel, dirs, h, ⟨l, hl⟩, hall⟩ := c159_missed exampleCfg Links.exampleCfg_sane (ofList mirrorList)
    (Links.ofList_tree _ (by decide +kernel) (by decide +kernel)) Links.safeRoot (by decide +kernel) (by decide +kernel)
    (ofList_noLinks _ _ (by decide +kernel)) (calmEnv mirrorList) (ofList_lists _ (by decide +kernel)) (ofList_calm _)
    RpcBytes.codeText RpcBytes.codeVal (fun _ _ => none) time (RpcBytes.codes_read _) (fun _ => true)
  obtain ⟨j, hj, hfile⟩ := hall l hl
  obtain ⟨h1, h2⟩ := hfile ["b.txt".toList] "c".toList [7] (by simp only [Proper, Visible]; decide +kernel) (by decide) (by decide +kernel)
  exact ⟨fuel, dirs, l, j, h, hl, hj, h1, h2 "x".toList ["var".toList, "tmp".toList, "dataplicity_remote".toList, "x".toList]
    (by decide +kernel) (by decide) (by decide +kernel) (by decide +kernel)⟩

end Verif.ScanFs
