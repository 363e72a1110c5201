import Verif.Proofs.Library
import Verif.Props.RemoteDirectory
/-!
Functions of Python that the model and the specifications have in common, each characterised on its own; and what they mean for the names under which
downloads are stored (C59).
-/
namespace Verif.Library
open Verif RemoteDirectory
open _root_.Verif.Path (join)

/-- Data is decoded exactly if it is the encoding of a text, and then to that text: no other form of a character is taken. -/
theorem utf8_strict (bs : Bytes) (t : Text) : utf8Decode bs = some t ↔ bs = utf8Encode t :=
  ⟨decode_sound bs.length bs t (Nat.le_refl _), fun h => by rw [h]; exact utf8Decode_encode t⟩

/-- The two long forms of a slash, a surrogate, a cut character. -/
example : utf8Decode [0xc0, 0xaf] = none ∧ utf8Decode [0xe0, 0x80, 0xaf] = none ∧ utf8Decode [0xed, 0xa0, 0x80] = none ∧ utf8Decode [0xe2, 0x82] = none ∧
    utf8Decode [0xe2, 0x82, 0xac] = some ['€'] := by decide +kernel

theorem utf8_ignore (bs : Bytes) (t : Text) : utf8DecodeIgnore bs = t ↔ Ignoring bs t :=
  ⟨fun h => h ▸ ignoring bs.length bs (Nat.le_refl _), ignoring_unique⟩

example : utf8DecodeIgnore [0x61, 0xe2, 0x82, 0x62, 0xff, 0xe2, 0x82, 0xac] = ['a', 'b', '€'] := by decide +kernel

theorem bytes_order (a b : Bytes) : bytesLt a b = true ↔ Before a b := ⟨bytesLt_sound, bytesLt_complete⟩

example : bytesLt (asc "ab") (asc "abc") = true ∧ bytesLt (asc "b") (asc "abc") = false ∧ bytesLt [0x7f] [0x80] = true := by decide +kernel

theorem text_pieces (sep : Char) (s : Text) (ps : List Text) : splitOn sep s = ps ↔ Pieces sep s ps :=
  ⟨fun h => h ▸ pieces_split sep s, pieces_unique⟩

example : splitOn '/' "/a//b".toList = [[], ['a'], [], ['b']] := by decide +kernel

theorem path_parts (p h t : Text) : Path.split p = (h, t) ↔ Parts p h t := by
  constructor
  · intro e
    have := parts_split p
    rwa [e] at this
  · intro e
    obtain ⟨h1, h2⟩ := parts_unique (parts_split p) e
    rw [← h1, ← h2]

example : Path.split "/a//b".toList = ("/a".toList, "b".toList) ∧ Path.split "//b".toList = ("//".toList, "b".toList) ∧
    Path.split "b".toList = ([], "b".toList) ∧ Path.split "a/".toList = ("a".toList, []) := by decide +kernel

theorem name_extension (p b e : Text) : Path.splitext p = (b, e) ↔ Extension p b e := by
  constructor
  · intro h
    have := splitext_sound p
    rwa [h] at this
  · intro h
    obtain ⟨h1, h2⟩ := extension_unique (splitext_sound p) h
    rw [← h1, ← h2]

example : Path.splitext "x.tar.gz".toList = ("x.tar".toList, ".gz".toList) ∧ Path.splitext "..profile".toList = ("..profile".toList, []) ∧
    Path.splitext "a.".toList = ("a".toList, ".".toList) ∧ Path.splitext "...".toList = ("...".toList, []) := by decide +kernel

theorem joinWith_cons (sep : Char) (p : Text) (ps : List Text) (h : ps ≠ []) : joinWith sep (p :: ps) = p ++ sep :: joinWith sep ps := by
  cases ps with
  | nil => exact absurd rfl h
  | cons q r => rfl

theorem joinWith_concat (sep : Char) (ps : List Text) (p : Text) (h : ps ≠ []) : joinWith sep (ps ++ [p]) = joinWith sep ps ++ sep :: p := by
  induction ps with
  | nil => exact absurd rfl h
  | cons q r ih =>
    cases r with
    | nil => rfl
    | cons q' r =>
      have := ih (by simp)
      rw [List.cons_append, joinWith_cons _ _ _ (by simp), this, joinWith_cons _ _ (q' :: r) (by simp)]
      simp

/-- A path whose last part is `p`, not empty, ends as `p` does. -/
theorem joinWith_getLast (sep : Char) (ps : List Text) (hne : ps ≠ []) (h : ∀ p ∈ ps, ∃ c, p.getLast? = some c ∧ c ≠ sep) :
    ∃ c, (joinWith sep ps).getLast? = some c ∧ c ≠ sep := by
  rcases List.eq_nil_or_concat ps with rfl | ⟨qs, p, rfl⟩
  · exact absurd rfl hne
  · rw [List.concat_eq_append] at h ⊢
    obtain ⟨c, h1, h2⟩ := h p (by simp)
    refine ⟨c, ?_, h2⟩
    cases qs with
    | nil => exact h1
    | cons q r =>
      rw [joinWith_concat _ _ _ (by simp), List.getLast?_append, List.getLast?_cons, h1]
      simp

/-- C59, the names: a download for `<dirs>/<base><ext>` is stored under the remote directory as asked, or, if that is taken, under
`<base>(N)<ext>` in the same directory, or in the remote directory itself if that one is missing. -/
theorem c59_names (c : Cfg) (fs : FS) (path : Text) (dirs : List Text) (name base ext : Text) (hr : ∃ x, c.root.getLast? = some x ∧ x ≠ '/')
    (hd : ∀ d ∈ dirs, d ≠ [] ∧ '/' ∉ d) (hn : '/' ∉ name) (hp : lstripSlash path = joinWith '/' (dirs ++ [name])) (he : Extension name base ext) :
    candidate c fs path 0 = joinWith '/' (c.root :: dirs ++ [name]) ∧
    ∀ n, candidate c fs path (n + 1) =
      joinWith '/' ((if fs.isDir c.cwd (joinWith '/' (c.root :: dirs)) then c.root :: dirs else [c.root]) ++
        [base ++ "(".toList ++ decimal (n + 1) ++ ")".toList ++ ext]) := by
  have hrne : c.root ≠ [] := by
    rintro e
    rw [e] at hr
    obtain ⟨_, h, _⟩ := hr
    exact nomatch h
  have h0 : join c.root (lstripSlash path) = joinWith '/' (c.root :: dirs ++ [name]) := by
    have hlast : ¬ (c.root = [] ∨ c.root.getLast? = some '/') := by
      rintro (h | h)
      · exact hrne h
      · obtain ⟨x, h1, h2⟩ := hr
        rw [h1] at h
        exact h2 (Option.some.inj h)
    rw [join, if_neg (lstripSlash_head path), if_neg hlast, hp, List.cons_append, joinWith_cons _ _ _ (by simp)]
  refine ⟨h0, fun n => ?_⟩
  have hparts : Path.split (joinWith '/' (c.root :: dirs ++ [name])) = (joinWith '/' (c.root :: dirs), name) := by
    rw [path_parts]
    refine ⟨hn, .inr ⟨['/'], by simp, by simp, ?_, ?_⟩⟩
    · rw [joinWith_concat _ _ _ (by simp)]
      simp
    · refine joinWith_getLast '/' _ (by simp) ?_
      intro p hm
      rcases List.mem_cons.1 hm with rfl | hm
      · exact hr
      · obtain ⟨h1, h2⟩ := hd p hm
        refine ⟨p.getLast h1, List.getLast?_eq_some_getLast h1, fun e => h2 ?_⟩
        rw [← e]
        exact List.getLast_mem h1
  simp only [candidate, h0, hparts, (name_extension name base ext).2 he]
  split
  · rw [joinWith_concat _ _ _ (by simp)]
    simp
  · simp [joinWith]

theorem ext_tar : Extension "x.tar.gz".toList "x.tar".toList ".gz".toList := (name_extension _ _ _).1 (by decide +kernel)

/-- For every number; there is no directory `new`. -/
example (n : Nat) : candidate exampleCfg exampleFS "/new/x.tar.gz".toList (n + 1) =
    joinWith '/' [exampleCfg.root, "x.tar".toList ++ "(".toList ++ decimal (n + 1) ++ ")".toList ++ ".gz".toList] := by
  have h := (c59_names exampleCfg exampleFS "/new/x.tar.gz".toList ["new".toList] _ _ _ ⟨'e', by decide +kernel, by decide +kernel⟩
    (by decide +kernel) (by decide +kernel) (by decide +kernel) ext_tar).2 n
  rwa [if_neg (by decide +kernel)] at h

/-- `/new/.profile` where the directory `new` is missing: the second name is in the remote directory. -/
example : candidate exampleCfg exampleFS "/new/.profile".toList 0 = "/home/dataplicity/remote/new/.profile".toList ∧
    candidate exampleCfg exampleFS "/new/.profile".toList 1 = "/home/dataplicity/remote/.profile(1)".toList := by decide +kernel

end Verif.Library
