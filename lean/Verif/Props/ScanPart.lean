import Verif.Proofs.JsonPrefix
import Verif.Proofs.ScanPart
import Verif.Props.ScanServer
/-!
C155: A result of a scan that is not complete is not read as one.
-/
namespace Verif.JsonText
open Verif

/-- C155: the bytes of a JSON text that is a string, an array or an object, of which the end is missing, are no JSON; only white space may be missing. -/
theorem c155_cut (fval : Text → Json) (other : Enc → Bytes → Option Text) (s w r : Text) (c : Char) (v : Json) (h : Document fval s v)
    (hs : s = w ++ c :: r) (hw : Spaces w) (hc : c = '"' ∨ c = '[' ∨ c = '{') (b rest : Bytes) (hb : b ++ rest = utf8Encode s)
    (hr : ¬ ∀ x ∈ rest, x = 32 ∨ x = 9 ∨ x = 10 ∨ x = 13) : loadsBytes fval other b = none :=
  cut_bytes other h hs hw hc hb hr

/-- C155: of what `json.dumps` writes for a string, a list or a dict, no byte can be missing at the end. -/
theorem c155_written (ftext : Option Int → Nat → Text) (fval : Text → Json) (other : Enc → Bytes → Option Text) (v : Json) (hv : Closed v)
    (hf : FloatsRead ftext fval (floats v)) (b rest : Bytes) (hb : b ++ rest = utf8Encode (dumps ftext v)) :
    loadsBytes fval other b = if rest = [] then some v else none := by
  split
  · rename_i h
    rw [h, List.append_nil] at hb
    rw [hb]
    exact (c151_roundtrip ftext fval other v hf).2
  · rename_i h
    obtain ⟨c, t, d, hd, hc, hl⟩ := dumps_ends ftext hv
    refine cut_bytes other (w := []) (c := c) (r := t ++ [d]) (c151_writes ftext fval v hf) hd (fun c h => (nomatch h)) hc hb ?_
    intro hsp
    obtain ⟨i, x, rfl⟩ : ∃ i x, rest = i ++ [x] := by
      rcases List.eq_nil_or_concat rest with h' | ⟨i, x, h'⟩
      · exact absurd h' h
      · exact ⟨i, x, by rw [h', List.concat_eq_append]⟩
    have hx : x = UInt8.ofNat d.toNat := by
      have e : utf8Encode (c :: (t ++ [d])) = utf8Encode (c :: t) ++ [UInt8.ofNat d.toNat] := by
        rw [utf8Encode, ← List.cons_append, List.flatMap_append, List.flatMap_cons (xs := []), List.flatMap_nil, List.append_nil,
          encode_ascii (by rcases hl with rfl | rfl | rfl <;> decide)]
        rfl
      rw [hd, e, ← List.append_assoc] at hb
      exact List.singleton_inj.1 (List.append_inj_right' hb rfl)
    have := hsp x (by simp)
    rw [hx] at this
    rcases hl with rfl | rfl | rfl <;> exact absurd this (by decide)

example : loadsBytes readHalves (fun _ _ => none) (utf8Encode "{\"a\": [1, 2.5]}".toList) = some (.obj [("a".toList, .arr [.int 1, .flt none 2])]) := by
  decide +kernel
example : loadsBytes readHalves (fun _ _ => none) (utf8Encode "{\"a\": [1, 2.5]".toList) = none := by decide +kernel
/-- A number has no end of its own. -/
example : loads readHalves "12".toList = some (.int 12) ∧ loads readHalves "1".toList = some (.int 1) := by decide +kernel

end Verif.JsonText

namespace Verif.ScanWire
open Verif WSClient RemoteDirectory Instructions JsonText

/-- The beginning of what a scan wrote, if it can be read as JSON, is all of it. -/
theorem part_read (ftext : Option Int → Nat → Text) (fval : Text → Json) (other : Enc → Bytes → Option Text) {dirs : Text → Option Scan.Info}
    {json b : Bytes} (h : Written ftext fval dirs json) (hb : b <+: json) {j : Json} (hj : loadsBytes fval other b = some j) :
    b = json ∧ ∀ p, ScanJson.listing j p = dirs p := by
  obtain ⟨root, time, ff, l, hi, hf, rfl⟩ := h
  obtain ⟨rest, hb⟩ := hb
  rw [c155_written ftext fval other (ScanJson.scanJson root time ff l) trivial (by rw [ScanJson.floats_scan]; exact hf) b rest hb] at hj
  split at hj
  · rename_i h
    rw [h, List.append_nil] at hb
    injection hj with hj
    exact ⟨hb, fun p => hj ▸ ScanJson.listing_json root time ff hi p⟩
  · exact (nomatch hj)

/-- C155, for whoever reads the file on the device, whenever - also after the agent was killed: if it is not the file that was there when the agent
started, then it is no JSON, or it lists for each path exactly what the scan of one thread found there. -/
theorem c155_file (ftext : Option Int → Nat → Text) (fval : Text → Json) (other : Enc → Bytes → Option Text) (file : Option Bytes)
    (ops : List DirectoryScanner.Op) (found : Nat → Text → Option Scan.Info)
    (hfound : ∀ u json, .scan u (some json) ∈ ops → Written ftext fval (found u) json)
    (b : Bytes) (hb : (DirectoryScanner.run (DirectoryScanner.init file) ops).file = some b) (hnew : file ≠ some b)
    (j : Json) (hj : loadsBytes fval other b = some j) :
    ∃ t, .scan t (some b) ∈ ops ∧ ∀ p, ScanJson.listing j p = found t p := by
  rcases DirectoryScanner.run_part file ops with h | ⟨t, json, b', h1, h2, h3⟩
  · exact absurd (h.symm.trans hb) hnew
  · rw [hb] at h2
    injection h2 with h2
    subst h2
    obtain ⟨rfl, h⟩ := part_read ftext fval other (hfound t json h1) h3 hj
    exact ⟨t, h1, h⟩

/-- C155, over the connection: once the server has been told of a success, then whatever it asked for before and since, whatever scans are under
way and whenever it opens the result: if what it reads can be read as JSON, it lists for each path exactly what the scan of one thread found there. -/
theorem c155_server (ftext : Option Int → Nat → Text) (fval : Text → Json) (other : Enc → Bytes → Option Text)
    (c : Cfg) (hs : c.Sane) (id : Text) (hp : Tame id) (hid : (utf8Encode id).length ≤ maxSize)
    (hsep : ¬ scanKey c <+: snapKey c id) (client : St) (hh : client.hung = false) (fs : FS) (t : Nat) (before between after : List Move)
    (env : RemoteFiles.Env) (start : Option Text) (e : Ev) (n : Nat) (found : Nat → Text → Option Scan.Info)
    (hfound : ∀ u json, .thread (.scan u (some json)) ∈ before ++ between → Written ftext fval (found u) json)
    (hfair : ∀ m ∈ before ++ .thread (.report t true) :: (between ++ .event env start e :: after), m.fair)
    (hz : Sized (run c (init client fs) (before ++ .thread (.report t true) :: (between ++ .event env start e :: after))).2)
    (hun : Undisturbed c (scanKey c) (init client fs) (before ++ .thread (.report t true) :: between))
    (hsays : results (step c (run c (init client fs) before).1 (.thread (.report t true))).2 = [[]])
    (hopen : requestIn e = some (.openFile (utf8Encode id) scanJson))
    (hans : RemoteFiles.openAnswers (utf8Encode id)
      (step c (run c (init client fs) (before ++ .thread (.report t true) :: between)).1 (.event env start e)).2 = [((n : Int), 0)])
    (hn : n ≤ maxSize)
    (hsn : Undisturbed c (snapKey c id)
      (step c (run c (init client fs) (before ++ .thread (.report t true) :: between)).1 (.event env start e)).1 after)
    (hok : ∀ m ∈ after, m.readsOk (utf8Encode id))
    (size count : Nat) (hc : n ≤ count * size)
    (hreq : readRequests (utf8Encode id) after = (List.range count).map (fun k => (((k * size : Nat) : Int), (size : Int))))
    (j : Json) (hj : loadsBytes fval other ((RemoteFiles.readAnswers (utf8Encode id)
        (run c (step c (run c (init client fs) (before ++ .thread (.report t true) :: between)).1 (.event env start e)).1 after).2).map (·.data)).flatten = some j) :
    ∃ u json, .thread (.scan u (some json)) ∈ before ++ between ∧ ∀ p, ScanJson.listing j p = found u p := by
  -- the parts of the run
  have hz' : Sized (run c (init client fs) (before ++ .thread (.report t true) :: between)).2 ∧
      Sized (run c (run c (init client fs) (before ++ .thread (.report t true) :: between)).1 (.event env start e :: after)).2 := by
    rw [show before ++ .thread (.report t true) :: (between ++ .event env start e :: after) =
      (before ++ .thread (.report t true) :: between) ++ .event env start e :: after by simp, run_append] at hz
    rwa [sized_append] at hz
  have hu' := undisturbed_append.1 hun
  have hzb : Sized (run c (init client fs) before).2 ∧ Sized (run c (run c (init client fs) before).1 (.thread (.report t true) :: between)).2 := by
    have := hz'.1
    rw [run_append] at this
    rwa [sized_append] at this
  have hzc : Sized (step c (run c (init client fs) before).1 (.thread (.report t true))).2 ∧
      Sized (run c (step c (run c (init client fs) before).1 (.thread (.report t true))).1 between).2 := by
    have := hzb.2
    simp only [run] at this
    rwa [sized_append] at this
  -- up to the report
  obtain ⟨b1, b2, -⟩ := run_any c (fun u json => .thread (.scan u (some json)) ∈ before ++ between) before _ (good_init c client fs hh)
    (by intro u j h; exact (nomatch h)) (fun u j h => List.mem_append.2 (.inl h)) (fun m hm => hfair m (by simp [hm])) hzb.1 hu'.1
  have hend : (run c (init client fs) (before ++ .thread (.report t true) :: between)).1 =
      (run c (step c (run c (init client fs) before).1 (.thread (.report t true))).1 between).1 := by
    rw [run_append]
    simp only [run]
  rw [hend] at hans hsn hj hz'
  generalize hs1 : (run c (init client fs) before).1 = s1 at *
  have hop : ∀ p st, DirectoryScanner.Op.report t true ≠ .request p st := by intro p st; simp
  have hpart : Part c (fun u json => .thread (.scan u (some json)) ∈ before ++ between) s1 := by
    have hchanged : (ScanWire.after c s1 (.report t true)).replies ≠ s1.scan.replies := by
      intro he
      rw [step_thread c s1 _ hop] at hsays
      dsimp only at hsays
      rw [if_pos he] at hsays
      simp [results, sentOf] at hsays
    rcases DirectoryScanner.step_replies { s1.scan with file := fileAt c s1.files.fs } _ (allowed_not_request c s1.files.fs _ hop) with
      h | ⟨u, json, h1, h2, -, h4⟩
    · exact absurd h hchanged
    · exact ⟨u, json, json, b2 u json (by show DirectoryScanner.made (s1.scan.phase u) = _; rw [show s1.scan.phase u = _ from h2]; rfl),
        b1.inv.written u json h2, List.prefix_refl _⟩
  obtain ⟨m1, m2, m3⟩ := step_any c _ s1 (.thread (.report t true)) b1 b2 (by intro u j h; simp at h) (hfair _ (by simp)) hzc.1 hu'.2.1
  -- up to the opening
  obtain ⟨g1, -, g3⟩ := run_any c (fun u json => .thread (.scan u (some json)) ∈ before ++ between) between _ m1 m2
    (fun u j h => List.mem_append.2 (.inr h)) (fun m hm => hfair m (by simp [hm])) hzc.2 hu'.2.2
  obtain ⟨u, json, b, k1, k2, k3⟩ := g3 (m3 hpart)
  generalize hs3 : (run c (step c s1 (.thread (.report t true))).1 between).1 = s3 at *
  have hfs : s3.files.fs (scanKey c) = some (.file b) := by
    unfold fileAt at k2
    split at k2
    · rename_i d hd
      injection k2 with k2
      rw [hd, k2]
    · exact (nomatch k2)
  -- the reading
  have hze : Sized (step c s3 (.event env start e)).2 ∧ Sized (run c (step c s3 (.event env start e)).1 after).2 := by
    have := hz'.2
    simp only [run] at this
    rwa [sized_append] at this
  obtain ⟨ms', l1, l2, l3, l4, l5, l6, l7⟩ := lower_run c (utf8Encode id) (snapKey c id) hsep after (step c s3 (.event env start e)).1
    (fun m hm => hfair m (by simp [hm])) hok hsn hze.2
  have hstep : (step c s3 (.event env start e)).1.files = (RemoteFiles.step c s3.files (.event
      { env with client := { env.client with scanError := if s3.scan.lock = none then start else none } } e)).1 := rfl
  rw [hstep] at l1 l2 l6 l7
  obtain ⟨p, f, d, h1, h2, h3, h4, h5⟩ := RemoteFiles.c111_snapshot c hs id hp hid s3.files g1.hung
    { env with client := { env.client with scanError := if s3.scan.lock = none then start else none } } e scanJson hopen n ms'
    (by intro m hm
        rcases List.mem_cons.1 hm with rfl | hm
        · exact hfair (.event env start e) (by simp)
        · exact l3 m hm)
    (by simp only [RemoteFiles.run]; rw [sized_append]; exact ⟨hze.1, l6⟩) hans l2 l4
  rw [scanJson_decode] at h1
  injection h1 with h1
  subst h1
  rw [scanJson_file] at h2
  injection h2 with h2
  subst h2
  have hd : d = b := by
    have : s3.files.fs (scanKey c) = some (.file d) := h3
    rw [hfs] at this
    injection this with this
    injection this with this
    exact this.symm
  subst hd
  have hl : d.length = n := by omega
  have hflat : ((RemoteFiles.readAnswers (utf8Encode id) (run c (step c s3 (.event env start e)).1 after).2).map (·.data)).flatten = d := by
    rw [l7, h5 (by omega), l5, hreq, List.map_map, List.map_map]
    exact RemoteFiles.pieces _ size count (by omega)
  rw [hflat] at hj
  exact ⟨u, json, k1, (part_read ftext fval other (hfound u json k1) k3 hj).2⟩

/-- Two scans asked for at once.  The server, told of the first, opens the result while the second has written sixty bytes. -/
def cutMoves : List Move :=
  askScan :: askScan :: treeMoves ++ told :: [.thread (.acquire 1), .thread (.scan 1 (some jsonTree)), .thread (.openFile 1 true), .thread (.write 1 60), openScan,
    readFifty "0", readFifty "50"]

example : ((RemoteFiles.readAnswers (asc "u1") (run exampleCfg (init {} scanFS) cutMoves).2).map (·.data)).flatten = jsonTree.take 60 := by decide +kernel
example : loadsBytes readHalves (fun _ _ => none) (jsonTree.take 60) = none ∧ 60 < jsonTree.length := by decide +kernel

end Verif.ScanWire
