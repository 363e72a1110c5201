import Verif.Proofs.RemoteFiles
/-!
C111 and C112: files go from the device to the server and from the server to the device, seen from the server: bytes of messages in, bytes
of messages out, with any other events between.
-/
namespace Verif.RemoteFiles
open Verif WSClient RemoteDirectory Instructions Path

/-! ### C111 -/

/-- C111: if the server asks for a file under a plain id and is told size `n` with code 0, there was a file of `n` bytes at this path in the
remote directory; and whatever happens afterwards (any events of the client, other requests, changes of files by other programs), as long
as the snapshot is not disturbed, the read requests under this id are answered in order, one answer for each, with code 0 and exactly the
bytes asked for of the contents that the file had at the time of opening. -/
theorem c111_snapshot (c : Cfg) (hs : c.Sane) (id : Text) (hp : Tame id) (hid : (utf8Encode id).length ≤ maxSize) (s : Sys)
    (hh : s.client.hung = false) (env : Env) (e : Ev) (path : Bytes) (ho : requestIn e = some (.openFile (utf8Encode id) path)) (n : Int)
    (ms : List Move) (hfair : ∀ m ∈ Move.event env e :: ms, m.fair) (hz : Sized (run c s (.event env e :: ms)).2)
    (hans : openAnswers (utf8Encode id) (step c s (.event env e)).2 = [(n, 0)])
    (hun : Undisturbed c (snapKey c id) (fun _ => false) (step c s (.event env e)).1 ms) (hok : ∀ m ∈ ms, m.readsOk (utf8Encode id)) :
    ∃ p f d, utf8Decode path = some p ∧ uploadFile c p = .ok f ∧ s.fs (lexKey (join c.cwd f)) = some (.file d) ∧ n = d.length ∧
      (d.length ≤ maxSize → readAnswers (utf8Encode id) (run c (step c s (.event env e)).1 ms).2 =
        (readRequests (utf8Encode id) ms).map (fun r => ⟨r.1, r.2, slice d r.1 r.2, 0⟩)) := by
  simp only [run] at hz
  rw [sized_append] at hz
  obtain ⟨g1, g2, g3, g4⟩ := event_spec (openAnswer (utf8Encode id)) (open_deaf _) c s hh env e (hfair (.event env e) (by simp)) hz.1
  rw [openAnswers, g3, ho] at hans
  rw [ho] at g2 g4
  have key : ∀ size fail reason, (reply c env s.fs (some (.openFile (utf8Encode id) path))).2 =
      [.ok ⟨openResult, [.bytes (utf8Encode id), .int size, .int fail, .bytes reason]⟩] → n = size ∧ fail = 0 := by
    intro size fail reason he
    rw [he] at hans g4
    simp only [List.filterMap_cons, List.filterMap_nil] at hans g4
    cases hm : message (.ok ⟨openResult, [.bytes (utf8Encode id), .int size, .int fail, .bytes reason]⟩) with
    | none => rw [hm] at hans; simp at hans
    | some m =>
      rw [hm] at hans g4
      have hd := message_decoded hm (by simp [Flat]) (g4 m (by simp))
      have : openAnswer (utf8Encode id) m = some (size, fail) := by unfold openAnswer; rw [hd]; simp [flatView, openResult]
      simp only [List.filterMap_cons, List.filterMap_nil, this] at hans
      simp only [List.cons.injEq, Prod.mk.injEq, and_true] at hans
      exact ⟨hans.1.symm, hans.2⟩
  have hadd : ∃ p k, utf8Decode path = some p ∧ n = (k : Nat) ∧ addUpload c env.opn s.fs p id = ((step c s (.event env e)).1.fs, .ok k) := by
    rw [g2]
    simp only [reply] at key ⊢
    simp only [onOpen, utf8Decode_encode, create25_kw, create25_pos] at key ⊢
    cases hpth : utf8Decode path with
    | none =>
      rw [hpth] at key
      exact absurd (key _ _ _ rfl).2 (by decide)
    | some p =>
      rw [hpth] at key
      simp only at key ⊢
      rcases hq : addUpload c env.opn s.fs p id with ⟨fs', r⟩
      rw [hq] at key
      cases r with
      | ok k => exact ⟨p, k, rfl, (key _ _ _ rfl).1, hq⟩
      | error err =>
        exfalso
        cases err <;> exact absurd (key _ _ _ rfl).2 (by decide)
  obtain ⟨p, k, h1, h2, h3⟩ := hadd
  obtain ⟨f, d, f1, f2, f3, f4, -, -⟩ := addUpload_ok h3
  obtain ⟨u1, u2⟩ := snap_ups c hs hp
  refine ⟨p, f, d, h1, f1, f2, by rw [h2, f3], fun hlen => ?_⟩
  exact (reads_run c id d u1 u2 hlen hid ms _ g1 f4 hun (fun m hm => hfair m (by simp [hm])) hok hz.2).1

/-- The slices of consecutive pieces give the whole. -/
theorem pieces (d : Bytes) (size n : Nat) (h : d.length ≤ n * size) :
    ((List.range n).map (fun k => slice d ((k * size : Nat) : Int) (size : Nat))).flatten = d := by
  induction n generalizing d with
  | zero =>
    have : d = [] := List.eq_nil_of_length_eq_zero (by omega)
    subst this; rfl
  | succ n ih =>
    have hs : ∀ k, slice d (((k + 1) * size : Nat) : Int) (size : Nat) = slice (d.drop size) ((k * size : Nat) : Int) (size : Nat) := by
      intro k
      have h1 : ¬ ((size : Nat) : Int) = -1 := by omega
      simp only [slice, if_neg h1, Int.toNat_natCast, List.drop_drop]
      rw [Nat.succ_mul, Nat.add_comm]
    rw [List.range_succ_eq_map, List.map_cons, List.map_map, List.flatten_cons]
    have h2 : ((List.range n).map ((fun k => slice d ((k * size : Nat) : Int) (size : Nat)) ∘ Nat.succ)) =
        (List.range n).map (fun k => slice (d.drop size) ((k * size : Nat) : Int) (size : Nat)) := by
      apply List.map_congr_left
      intro k _
      exact hs k
    rw [h2, ih (d.drop size) (by rw [List.length_drop]; rw [Nat.succ_mul] at h; omega)]
    have h1 : ¬ ((size : Nat) : Int) = -1 := by omega
    simp only [slice, if_neg h1, Nat.zero_mul, Int.toNat_natCast]
    exact List.take_append_drop size d

/-- C111: a server that reads the size it was told in consecutive pieces gets the file, whatever happens between. -/
theorem c111_whole_file (c : Cfg) (hs : c.Sane) (id : Text) (hp : Tame id) (hid : (utf8Encode id).length ≤ maxSize) (s : Sys)
    (hh : s.client.hung = false) (env : Env) (e : Ev) (path : Bytes) (ho : requestIn e = some (.openFile (utf8Encode id) path)) (n : Nat)
    (ms : List Move) (hfair : ∀ m ∈ Move.event env e :: ms, m.fair) (hz : Sized (run c s (.event env e :: ms)).2)
    (hans : openAnswers (utf8Encode id) (step c s (.event env e)).2 = [((n : Int), 0)]) (hn : n ≤ maxSize)
    (hun : Undisturbed c (snapKey c id) (fun _ => false) (step c s (.event env e)).1 ms) (hok : ∀ m ∈ ms, m.readsOk (utf8Encode id))
    (size count : Nat) (hc : n ≤ count * size)
    (hreq : readRequests (utf8Encode id) ms = (List.range count).map (fun k => (((k * size : Nat) : Int), (size : Int)))) :
    ∃ p f, utf8Decode path = some p ∧ uploadFile c p = .ok f ∧ s.fs (lexKey (join c.cwd f)) =
      some (.file ((readAnswers (utf8Encode id) (run c (step c s (.event env e)).1 ms).2).map (·.data)).flatten) := by
  obtain ⟨p, f, d, h1, h2, h3, h4, h5⟩ := c111_snapshot c hs id hp hid s hh env e path ho n ms hfair hz hans hun hok
  have hd : d.length = n := by omega
  refine ⟨p, f, h1, h2, ?_⟩
  rw [h5 (by omega), hreq, h3, List.map_map, List.map_map]
  have := pieces d size count (by omega)
  rw [← this]
  congr 3
  apply List.map_congr_left
  intro k _
  simp only [Function.comp]
  rw [this]

/-- A server that reads a file of five bytes in pieces of two, while the device changes and then removes the file. -/
def uploadMoves : List Move :=
  [.event {} (.binary (asc "li24e2:u13:/a.e")), .event {} (.binary (asc "li24e2:u11:ae")), .event {} (.binary (asc "li27e2:u1i0ei2ee")),
   .change ["home".toList, "dataplicity".toList, "remote".toList, "a".toList] (some (.file [0])), .event {} (.binary (asc "li27e2:u1i2ei2ee")),
   .change ["home".toList, "dataplicity".toList, "remote".toList, "a".toList] none, .event {} (.binary (asc "li27e2:u1i4ei2ee"))]

example : readRequests (asc "u1") uploadMoves = [(0, 2), (2, 2), (4, 2)] := by decide +kernel
example : openAnswers (asc "u1") (run exampleCfg ⟨{}, exampleFS⟩ uploadMoves).2 = [(-1, 1), (5, 0)] := by decide +kernel
example : readAnswers (asc "u1") (run exampleCfg ⟨{}, exampleFS⟩ uploadMoves).2 = [⟨0, 2, [1, 2], 0⟩, ⟨2, 2, [3, 4], 0⟩, ⟨4, 2, [5], 0⟩] := by
  decide +kernel

/-! ### C112 -/

theorem download_ups (c : Cfg) (hs : c.Sane) {id : Text} (h : Tame id) :
    ¬ GoesUp (join c.cwd (downloadPath c id)) ∧ downloadPath c id ≠ [] := by
  have e3 : (downloadDir c).head? = some '/' := join_head _ _ hs.temp
  have hd : ¬ GoesUp (downloadDir c) := by
    rw [GoesUp, downloadDir, split_join _ _ (ne_nil_of_head hs.temp) (by decide)]
    intro h
    rcases h with h | h
    · exact hs.tempUp h
    · revert h; decide +kernel
  have hj : ¬ GoesUp (join (downloadDir c) id) := by
    rw [GoesUp, split_join _ _ (ne_nil_of_head e3) h.1]
    rintro (h' | h')
    · exact hd h'
    · exact h.2 h'
  have h4 := join_head (downloadDir c) id e3
  exact ⟨by rw [downloadPath, join_abs _ _ h4]; exact hj, ne_nil_of_head h4⟩

/-- C112: the server sends a file in chunks (in any order, overlapping or not, as long as they cover the contents), the last one final.  If
every request is answered with code 0, then, whatever else happened between, and whatever the system did: each answer has the position at
the end of its chunk; and after the last request the file lies, with exactly the contents sent, at the name `destination` chose among the
files as they were at that moment; at a place where no file was before; and the temporary file is gone. -/
theorem c112_stored (c : Cfg) (hs : c.Sane) (id : Text) (hid : Tame id) (path content : Bytes) (chunks : List Chunk) (hne : chunks ≠ [])
    (hch : ∀ x ∈ chunks, x.of content) (hcov : Covers content chunks) (s : Sys) (hh : s.client.hung = false) (ms : List Move) (last : Move)
    (hreq : writeRequests (utf8Encode id) (ms ++ [last]) = chunkRequests path (utf8Encode (downloadPath c id)) [] chunks)
    (hlast : last.writes (utf8Encode id) = true)
    (hun : Undisturbed c (downloadKey c id) (Move.writes (utf8Encode id)) s (ms ++ [last])) (hfair : ∀ m ∈ ms ++ [last], m.fair)
    (hz : Sized (run c s (ms ++ [last])).2)
    (hlen : (writeAnswers (utf8Encode id) (run c s (ms ++ [last])).2).length = chunks.length)
    (h0 : ∀ a ∈ writeAnswers (utf8Encode id) (run c s (ms ++ [last])).2, a.fail = 0) :
    let before := (run c s ms).1.fs
    let after := (run c s (ms ++ [last])).1.fs
    writeAnswers (utf8Encode id) (run c s (ms ++ [last])).2 = chunks.map (accepted (utf8Encode (downloadPath c id))) ∧
    ∃ fs' dest, (∀ k, k ≠ downloadKey c id → (before k ≠ none ∨ k ≠ lexKey (join c.cwd (downloadDir c))) → fs' k = before k) ∧
      destination c fs' path = some dest ∧
      (lexKey (join c.cwd dest) = downloadKey c id ∨ before (lexKey (join c.cwd dest)) = none) ∧
      after (lexKey (join c.cwd dest)) = some (.file content) ∧
      (downloadKey c id = lexKey (join c.cwd dest) ∨ after (downloadKey c id) = none) ∧
      ∀ k, k ≠ downloadKey c id → before k ≠ none → after k = before k := by
  intro before after
  obtain ⟨hu, hn⟩ := download_ups c hs hid
  obtain ⟨a1, fs', env, a2, a3, a4⟩ := download_run c id path (downloadPath c id) rfl hn hu content chunks hne hch hcov ms last s hh hreq hlast
    hun hfair hz hlen h0
  have hdir := isDir_of_content a3
  obtain ⟨dest, d, b1, b2, b3, b4⟩ := c58_success c env fs' _ (downloadPath c id) path hdir a4
  rw [a3] at b2
  injection b2 with b2
  subst b2
  have hfree := c58_free c env fs' _ (downloadPath c id) path hdir a4 dest b1
  have hnone : lexKey (join c.cwd dest) = downloadKey c id ∨ before (lexKey (join c.cwd dest)) = none := by
    by_cases hk : lexKey (join c.cwd dest) = downloadKey c id
    · exact .inl hk
    · refine .inr (Classical.byContradiction fun hb => hb ?_)
      exact (a2 _ hk (.inl hb)).symm.trans hfree
  refine ⟨a1, fs', dest, a2, b1, hnone, b3, b4, ?_⟩
  intro k hk hb
  by_cases he : after k = fs' k
  · rw [he, a2 k hk (.inl hb)]
  · have := c59_no_overwrite c env fs' (downloadPath c id) path hdir k (by rw [a4]; exact he)
    rcases this with h | ⟨dest', -, -, h⟩
    · exact absurd h hk
    · rw [a2 k hk (.inl hb)] at h; exact absurd h hb

/-- A server that sends six bytes in two chunks under a name that is taken, and asks for another file between. -/
def downloadMoves : List Move :=
  [.event {} (.binary (asc "li31e2:d11:b0:i3e3:defi0ee")), .event {} (.binary (asc "li24e2:u11:ae")),
   .event {} (.binary (asc "li31e2:d11:b" ++ asc "40:/var/tmp/dataplicity_remote_downloads/d1" ++ asc "i0e3:abci1ee"))]

def downloadChunks : List Chunk := [⟨3, asc "def"⟩, ⟨0, asc "abc"⟩]

example : writeRequests (asc "d1") downloadMoves =
    chunkRequests (asc "b") (asc "/var/tmp/dataplicity_remote_downloads/d1") [] downloadChunks := by decide +kernel
example : writeAnswers (asc "d1") (run exampleCfg ⟨{}, exampleFS⟩ downloadMoves).2 =
    downloadChunks.map (accepted (asc "/var/tmp/dataplicity_remote_downloads/d1")) := by decide +kernel
example : (run exampleCfg ⟨{}, exampleFS⟩ downloadMoves).1.fs ["home".toList, "dataplicity".toList, "remote".toList, "b(1)".toList] =
      some (.file (asc "abcdef")) ∧
    (run exampleCfg ⟨{}, exampleFS⟩ downloadMoves).1.fs ["home".toList, "dataplicity".toList, "remote".toList, "b".toList] =
      some (.file [9, 8, 7]) := by decide +kernel

end Verif.RemoteFiles
