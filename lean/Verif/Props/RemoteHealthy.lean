import Verif.Proofs.RemoteHealthy
/-!
C128 and C129: on a device where nothing goes wrong, files do go from the device to the server and from the server to the device.  (C111
and C112 tell what follows if the device reports success; here it is shown that it does.)
-/
namespace Verif.RemoteFiles
open Verif WSClient RemoteDirectory Instructions Path

/-! ### C128 -/

/-- C128: the server asks for an existing file of the remote directory under a plain id; the folder for temporary files exists, the disk
has room, and the system does what it is asked.  Then the request is answered once, with the size of the file and code 0. -/
theorem c128_opened (c : Cfg) (hs : c.Sane) (hn : Cfg.Clean c) (id : Text) (hid : GoodName id) (hl : (utf8Encode id).length ≤ maxSize) (s : Sys)
    (hh : s.client.hung = false) (env : Env) (e : Ev) (path : Text) (names : List Text) (hp : PathOf path names)
    (ho : requestIn e = some (.openFile (utf8Encode id) (utf8Encode path))) (hfair : (Move.event env e).fair)
    (hz : Sized (step c s (.event env e)).2) (he : OpenEnv.Healthy env.opn) (hc : Closed s.fs) (d : Bytes)
    (hf : s.fs (lexKey c.root ++ names) = some (.file d)) (hroom : OpenEnv.Room env.opn d.length) (ht : s.fs (lexKey c.temp) = some .dir)
    (hfold : Folder s.fs (snapDir c)) (hsd : s.fs (snapKey c id) ≠ some .dir) (hne : snapKey c id ≠ lexKey c.root ++ names) :
    openAnswers (utf8Encode id) (step c s (.event env e)).2 = [((d.length : Int), 0)] := by
  obtain ⟨-, -, g3, g4⟩ := event_spec (openAnswer (utf8Encode id)) (open_deaf _) c s hh env e hfair hz
  obtain ⟨fs', h1⟩ := addUpload_healthy c hs hn env.opn he s.fs hc path names hp d hf hroom id hid ht hfold hsd hne
  rw [ho] at g3 g4
  simp only [reply, onOpen, utf8Decode_encode, h1, create25_pos] at g3 g4
  rw [openAnswers, g3]
  have hcl : openResult ∈ Packets.classes := ((Packets.lookupClass_iff 25 _).1 lookup25).1
  have h0 : utf8Encode [] = [] := rfl
  rw [h0] at g4 ⊢
  obtain ⟨m, hm⟩ := message_some (cls := openResult) (vals := [.bytes (utf8Encode id), .int d.length, .int 0, .bytes []])
    hcl (by simp [Packets.Typed, openResult, Packets.AType.has]) (by simp)
    (.cons (.bytes hl) (.cons (.int _) (.cons (.int _) (.cons (.bytes (by simp)) .nil))))
  simp only [List.filterMap_cons, List.filterMap_nil, hm] at g4 ⊢
  have hdec := message_decoded hm (by simp [Flat]) (g4 m (by simp))
  have : openAnswer (utf8Encode id) m = some ((d.length : Int), 0) := by
    unfold openAnswer
    rw [hdec]
    simp [flatView, openResult]
  simp [this]

/-- C128: and a server that then reads the size it was told in consecutive pieces has the contents of the file, whatever else happens in
between, if nothing disturbs the snapshot and the system can read it. -/
theorem c128_fetched (c : Cfg) (hs : c.Sane) (hn : Cfg.Clean c) (id : Text) (hid : GoodName id) (hl : (utf8Encode id).length ≤ maxSize) (s : Sys)
    (hh : s.client.hung = false) (env : Env) (e : Ev) (path : Text) (names : List Text) (hp : PathOf path names)
    (ho : requestIn e = some (.openFile (utf8Encode id) (utf8Encode path))) (ms : List Move)
    (hfair : ∀ m ∈ Move.event env e :: ms, m.fair) (hz : Sized (run c s (.event env e :: ms)).2) (he : OpenEnv.Healthy env.opn)
    (hc : Closed s.fs) (d : Bytes) (hd : d.length ≤ maxSize) (hf : s.fs (lexKey c.root ++ names) = some (.file d))
    (hroom : OpenEnv.Room env.opn d.length) (ht : s.fs (lexKey c.temp) = some .dir) (hfold : Folder s.fs (snapDir c))
    (hsd : s.fs (snapKey c id) ≠ some .dir) (hne : snapKey c id ≠ lexKey c.root ++ names)
    (hun : Undisturbed c (snapKey c id) (fun _ => false) (step c s (.event env e)).1 ms) (hok : ∀ m ∈ ms, m.readsOk (utf8Encode id))
    (size count : Nat) (hcount : d.length ≤ count * size)
    (hreq : readRequests (utf8Encode id) ms = (List.range count).map (fun k => (((k * size : Nat) : Int), (size : Int)))) :
    ((readAnswers (utf8Encode id) (run c (step c s (.event env e)).1 ms).2).map (·.data)).flatten = d := by
  have hz1 : Sized (step c s (.event env e)).2 := by
    simp only [run] at hz
    rw [sized_append] at hz
    exact hz.1
  have hans := c128_opened c hs hn id hid hl s hh env e path names hp ho (hfair _ (by simp)) hz1 he hc d hf hroom ht hfold hsd hne
  obtain ⟨p, f, h1, h2, h3⟩ := c111_whole_file c hs id (plain_tame hid.1).1 hl s hh env e (utf8Encode path) ho d.length ms hfair hz hans hd hun hok size count
    hcount hreq
  rw [utf8Decode_encode] at h1
  injection h1 with h1
  subst h1
  have hup : uploadFile c path = .ok (join c.root (lstripSlash path)) := by
    rw [uploadFile_plain, (uploadFile_valid c hs.root hs.rootUp path).2 (pathOf_up hp)]
    · rfl
    · intro h0
      cases hpth : path with
      | nil => rw [hpth] at h0; exact (nomatch h0)
      | cons y r =>
        rw [hpth] at h0 hp
        simp only [List.head?_cons, Option.some.injEq] at h0
        subst h0
        apply pathOf_nul hp
        simp [lstripSlash]
  rw [hup] at h2
  injection h2 with h2
  subst h2
  rw [join_abs _ _ (join_head _ _ hs.root), lexKey_names_join hs hp, hf] at h3
  injection h3 with h3
  injection h3 with h3
  exact h3.symm

/-! ### C129 -/

/-- C129: the server sends a file in chunks (in any order, overlapping or not, as long as they cover the contents), the last one final.  If
the device is ready for each of the requests in the state in which it comes, then, whatever else happens in between, as long as the
temporary file is not disturbed: every request is answered with success and the position at the end of its chunk; and afterwards the
file lies, with exactly the contents sent, under the first of the names `name`, `name(1)`, ..., `name(100)` that was free before the last
request; the temporary file is gone; and all other files are as before that request. -/
theorem c129_delivered (c : Cfg) (hs : c.Sane) (hn : Cfg.Clean c) (id : Text) (hid : GoodName id) (hl : (utf8Encode id).length ≤ maxSize)
    (hdl : (utf8Encode (downloadPath c id)).length ≤ maxSize) (hout : ¬ lexKey c.root <+: downloadKey c id)
    (hout' : ¬ downloadKey c id <+: lexKey c.root) (path : Text) (names : List Text) (hp : PathOf path names) (content : Bytes) (hlen : content.length ≤ maxSize) (chunks : List Chunk) (hne : chunks ≠ [])
    (hch : ∀ x ∈ chunks, x.of content) (hcov : Covers content chunks) (s : Sys) (hh : s.client.hung = false) (ms : List Move) (last : Move)
    (hreq : writeRequests (utf8Encode id) (ms ++ [last]) = chunkRequests (utf8Encode path) (utf8Encode (downloadPath c id)) [] chunks)
    (hlast : last.writes (utf8Encode id) = true)
    (hun : Undisturbed c (downloadKey c id) (Move.writes (utf8Encode id)) s (ms ++ [last])) (hfair : ∀ m ∈ ms ++ [last], m.fair)
    (hz : Sized (run c s (ms ++ [last])).2) (hready : Ready c id path names s (ms ++ [last])) :
    let before := (run c s ms).1.fs
    let after := (run c s (ms ++ [last])).1.fs
    writeAnswers (utf8Encode id) (run c s (ms ++ [last])).2 = chunks.map (accepted (utf8Encode (downloadPath c id))) ∧
    (∃ n, n ≤ 100 ∧ before (lexKey (candidate c before path n)) = none ∧
      (∀ m, m < n → before (lexKey (candidate c before path m)) ≠ none) ∧
      after (lexKey (candidate c before path n)) = some (.file content)) ∧
    after (downloadKey c id) = none ∧ ∀ k, k ≠ downloadKey c id → before k ≠ none → after k = before k := by
  intro before after
  have hoff : ∀ ch ∈ chunks, ch.offset ≤ maxSize := by
    intro ch hm
    have := (hch ch hm).2
    omega
  obtain ⟨a1, a2⟩ := healthy_run c hs hn id hid hl hdl hout path names hp (ms ++ [last]) s hh hfair hz chunks hoff [] hreq hun hready (.inl rfl)
  obtain ⟨b1, fs', dest, b2, b3, b3', b4, b5, b6⟩ := c112_stored c hs id (plain_tame hid.1).1 (utf8Encode path) content chunks hne hch hcov s hh ms last
    hreq hlast hun hfair hz a1 a2
  have hin := destination_inside c hs fs' (utf8Encode path)
    (fun p h => by rw [utf8Decode_encode] at h; injection h with h; subst h; exact pathOf_up hp) dest b3
  have hnk : lexKey (join c.cwd dest) ≠ downloadKey c id := fun h => hout (h ▸ hin)
  -- the last request is the final one
  have hcan : CanEnd c path names before := by
    obtain ⟨w, hw⟩ := Option.isSome_iff_exists.1 hlast
    obtain ⟨-, r2⟩ := ready_append.1 hready
    rw [writeRequests_append] at hreq
    have hrl : writeRequests (utf8Encode id) [last] = [w] := by simp [writeRequests, hw]
    rw [hrl] at hreq
    obtain ⟨init, v, hv1, hv2⟩ := chunkRequests_final (utf8Encode path) (utf8Encode (downloadPath c id)) [] chunks hne
    rw [hv1] at hreq
    have hwv : w = v := by
      have := congrArg List.getLast? hreq
      simpa using this
    exact (r2.1 _ _ _ _ _ hw).2.2 (by rw [hwv, hv2]; decide)
  obtain ⟨hcl, hpar, -⟩ := hcan
  have hfold : ∀ k, lexKey c.root <+: k → fs' k = before k := by
    intro k hk
    have hd : lexKey (join c.cwd (downloadDir c)) <+: downloadKey c id := by
      rw [downloadKey_name hs hid, join_abs c.cwd (downloadDir c) (join_head _ _ hs.temp)]; exact List.prefix_append _ _
    exact b2 k (fun e => hout (e ▸ hk)) (.inr (fun e => hout (List.IsPrefix.trans (e ▸ hk) hd)))
  have hpd := parent_dir hs hn hp hcl hpar
  have hpd' : fs'.isDir c.cwd (Path.split (join c.root (lstripSlash path))).1 = true := by
    obtain ⟨p1, p2⟩ := (isDir_iff _ _ _).1 hpd
    have hk : lexKey (join c.cwd (Path.split (join c.root (lstripSlash path))).1) = lexKey c.root ++ names.dropLast := parent_key hs hp
    have hkeep : Keep (lexKey c.root ++ names.dropLast) before fs' := by
      refine ⟨fun k hk hd => ?_, fun d hd => by rw [hpar] at hd; exact (nomatch hd)⟩
      refine (b2 k ?_ (.inl (by show before k ≠ none; rw [hd]; simp))).trans hd
      intro e
      subst e
      rcases List.prefix_or_prefix_of_prefix hk (List.prefix_append (lexKey c.root) names.dropLast) with h | h
      · exact hout' h
      · exact hout h
    have hup : ¬ GoesUp (join c.cwd (Path.split (join c.root (lstripSlash path))).1) := by
      rw [join_abs _ _ (split_head _ (join_head c.root _ hs.root))]
      apply split_up
      rw [GoesUp, split_join _ _ (ne_nil_of_head hs.root) (lstripSlash_head path)]
      rintro (h | h)
      · exact hs.rootUp h
      · exact pathOf_up hp ((lstripSlash_split path).2.1 h)
    rw [isDir_iff]
    refine ⟨place_keep hkeep hup p1 (by rw [hk]; exact List.prefix_refl _), ?_⟩
    exact hkeep.1 _ (by rw [hk]; exact List.prefix_refl _) p2
  have hcand : ∀ m, candidate c fs' path m = candidate c before path m := by
    intro m
    cases m with
    | zero => rfl
    | succ m =>
      rw [candidate_succ, candidate_succ, if_pos hpd, if_pos hpd']
  obtain ⟨n, n1, n2, n3, n4⟩ := (c59_first_free c fs' path dest).1 b3
  have hkey : ∀ m, lexKey (join c.cwd (candidate c before path m)) = lexKey (candidate c before path m) ∧
      lexKey c.root <+: lexKey (candidate c before path m) := by
    intro m
    obtain ⟨i1, i2⟩ := candidate_inside c hs before path (pathOf_up hp) m
    exact ⟨by rw [join_abs _ _ i2], i1⟩
  rw [n2, hcand, (hkey n).1] at b3' b4 hnk
  refine ⟨b1, ⟨n, n1, b3'.resolve_left hnk, ?_, b4⟩, ?_, b6⟩
  · intro m hm
    have h := n4 m hm
    rw [hcand] at h
    rw [← hfold _ (hkey m).2, ← (hkey m).1]
    intro hno
    simp only [FS.pathExists, FS.stat] at h
    cases hpl : fs'.place c.cwd (candidate c before path m) with
    | none => rw [hpl] at h; exact Bool.noConfusion h
    | some k =>
      have := FS.place_lex hpl
      subst this
      rw [hpl, Option.bind_some, hno] at h
      exact Bool.noConfusion h
  · rcases b5 with h | h
    · rw [n2, hcand, (hkey n).1] at h
      exact absurd h.symm hnk
    · exact h

/-! ### A device that is ready -/

theorem exampleCfg_sane : exampleCfg.Sane :=
  Cfg.init_sane _ _ _ _ _ (by decide +kernel) (by decide +kernel) (by rw [← validatePath_iff]; decide +kernel)

theorem exampleFS_closed : Closed exampleFS := by
  intro k name h
  simp only [exampleFS] at h
  split at h
  · rename_i hk
    have := List.dropLast_concat (l₁ := k) (b := name)
    rcases hk with hk | hk | hk | hk | hk | hk | hk
    · simp at hk
    all_goals (rw [hk] at this; subst this; decide +kernel)
  · have := List.dropLast_concat (l₁ := k) (b := name)
    split at h
    · rename_i hk; rw [hk] at this; subst this; decide +kernel
    · split at h
      · rename_i hk; rw [hk] at this; subst this; decide +kernel
      · split at h
        · rename_i hk; rw [hk] at this; subst this; decide +kernel
        · exact absurd rfl h

/-- The conditions of C128 hold for the file `a` in the example. -/
example : Cfg.Clean exampleCfg ∧ PathOf "//a".toList ["a".toList] ∧ OpenEnv.Healthy { usage := some (1, 50000006) } ∧
    OpenEnv.Room { usage := some (1, 50000006) } 5 ∧ exampleFS (lexKey exampleCfg.root ++ ["a".toList]) = some (.file [1, 2, 3, 4, 5]) ∧
    exampleFS (lexKey exampleCfg.temp) = some .dir ∧ Folder exampleFS (snapDir exampleCfg) ∧
    exampleFS (snapKey exampleCfg "u1".toList) ≠ some .dir ∧ snapKey exampleCfg "u1".toList ≠ lexKey exampleCfg.root ++ ["a".toList] ∧
    GoodName "u1".toList := by
  refine ⟨by unfold Cfg.Clean; decide +kernel, ⟨by decide, by decide +kernel, by decide +kernel⟩, by unfold OpenEnv.Healthy; decide, ?_,
    by decide +kernel, by decide +kernel, by unfold Folder; decide +kernel, by decide +kernel, by decide +kernel, by decide +kernel⟩
  intro used total h
  simp only [Option.some.injEq, Prod.mk.injEq] at h
  omega

/-- One byte less of room, and the request is refused. -/
example : openAnswers (asc "u1") (step exampleCfg ⟨{}, exampleFS⟩ (.event { opn := { usage := some (1, 50000006) } }
    (.binary (asc "li24e2:u13://ae")))).2 = [(5, 0)] ∧
  openAnswers (asc "u1") (step exampleCfg ⟨{}, exampleFS⟩ (.event { opn := { usage := some (1, 50000005) } }
    (.binary (asc "li24e2:u13://ae")))).2 = [(-1, 1)] := by decide +kernel

/-- The conditions of C129 hold for the download of `b` in the example of C112: nothing disturbs it and the device is ready. -/
example : ¬ lexKey exampleCfg.root <+: downloadKey exampleCfg "d1".toList ∧ ¬ downloadKey exampleCfg "d1".toList <+: lexKey exampleCfg.root ∧
    PathOf "b".toList ["b".toList] ∧ CanBegin exampleCfg "d1".toList exampleFS := by
  refine ⟨by decide +kernel, by decide +kernel, ⟨by decide, by decide +kernel, by decide +kernel⟩, exampleFS_closed, by decide +kernel,
    by unfold Folder; decide +kernel, by decide +kernel⟩

/-- The name `b` is taken, `b(1)` is free. -/
example : exampleFS (lexKey exampleCfg.root ++ ["b".toList].dropLast) = some .dir ∧
    exampleFS (lexKey (candidate exampleCfg exampleFS "b".toList 0)) = some (.file [9, 8, 7]) ∧
    exampleFS (lexKey (candidate exampleCfg exampleFS "b".toList 1)) = none := by decide +kernel

/-- A download in one chunk. -/
def oneChunk : Bytes := asc "li31e2:d11:b0:i0e3:abci1ee"
def oneMove : Move := .event {} (.binary oneChunk)

theorem oneMove_write : oneMove.write (utf8Encode "d1".toList) = some (utf8Encode "b".toList, [], ((0 : Nat) : Int), asc "abc", 1) := by
  decide +kernel

/-- All the conditions of C129 together. -/
example : writeRequests (utf8Encode "d1".toList) ([] ++ [oneMove]) =
      chunkRequests (utf8Encode "b".toList) (utf8Encode (downloadPath exampleCfg "d1".toList)) [] [⟨0, asc "abc"⟩] ∧
    oneMove.writes (utf8Encode "d1".toList) = true ∧
    Undisturbed exampleCfg (downloadKey exampleCfg "d1".toList) (Move.writes (utf8Encode "d1".toList)) ⟨{}, exampleFS⟩ ([] ++ [oneMove]) ∧
    oneMove.fair ∧ Sized (run exampleCfg ⟨{}, exampleFS⟩ ([] ++ [oneMove])).2 ∧
    Ready exampleCfg "d1".toList "b".toList ["b".toList] ⟨{}, exampleFS⟩ ([] ++ [oneMove]) := by
  have hw : oneMove.writes (utf8Encode "d1".toList) = true := by rw [Move.writes, oneMove_write]; rfl
  refine ⟨by decide +kernel, hw, ⟨fun h => ?_, trivial⟩, ?_, by unfold Sized; decide +kernel, ⟨?_, trivial⟩⟩
  · rw [hw] at h; exact Bool.noConfusion h
  · intro data h
    injection h with h
    subst h
    exact ⟨by unfold Hangs; decide +kernel, by decide +kernel⟩
  · intro p device offset data final h
    rw [oneMove_write] at h
    simp only [Option.some.injEq, Prod.mk.injEq] at h
    obtain ⟨-, rfl, -, -, rfl⟩ := h
    refine ⟨?_, fun _ => ⟨exampleFS_closed, by decide +kernel, by unfold Folder; decide +kernel, by decide +kernel⟩,
      fun _ => ⟨exampleFS_closed, by decide +kernel, 1, by decide, by decide +kernel⟩⟩
    intro env e he
    injection he with he _
    subst he
    unfold WriteEnv.Healthy
    exact ⟨rfl, rfl, rfl, .inl rfl⟩

end Verif.RemoteFiles
