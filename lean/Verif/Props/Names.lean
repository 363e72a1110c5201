import Verif.Proofs.Names
import Verif.Props.Library
import Verif.Props.Instructions
/-!
C169: what a scan lists for a name determines the name.  C170: requests for files whose name is not UTF-8.  C171: the instruction to read such a file.
-/
namespace Verif.Names
open Verif JsonText Library

/-! ### C169 -/

/-- The string that Python has for a name on the disk. -/
theorem fs_decode (b : Bytes) (s : Points) : fsDecode b = s ↔ Stands b s :=
  ⟨fun h => h ▸ stands b.length b (Nat.le_refl _), stands_unique⟩

/-- C169: what is written to the list for a name reads as the string that stands for the name, and as no other. -/
theorem c169_listed (b : Bytes) (s : Points) : Reads (escapePoints (fsDecode b)) s ↔ Stands b s := by
  have h1 := reads_escape (fsDecode b) (fine_stands ((fs_decode b _).1 rfl))
  constructor
  · rintro ⟨v, h2, h3⟩
    obtain ⟨v', h4, h5⟩ := h1
    rw [units_unique h2 h4] at h3
    rw [joined_unique h3 h5]
    exact (fs_decode b _).1 rfl
  · intro h
    rw [(fs_decode b s).2 h] at h1
    rwa [(fs_decode b s).2 h]

/-- C169: whoever passes the string on the list to the operating system of the device gets the file. -/
theorem c169_opened (b : Bytes) (s : Points) (h : Reads (escapePoints (fsDecode b)) s) : fsEncode s = some b :=
  encode_stands ((c169_listed b s).1 h)

/-- C169: two names are listed in the same way only if they are the same. -/
theorem c169_distinct (a b : Bytes) (h : escapePoints (fsDecode a) = escapePoints (fsDecode b)) : a = b := by
  have h1 := c169_opened a (fsDecode a) ((c169_listed a _).2 ((fs_decode a _).1 rfl))
  have h2 := c169_opened b (fsDecode a) (h ▸ (c169_listed a _).2 ((fs_decode a _).1 rfl))
  rw [h1] at h2
  injection h2

/-- C169: a path on the list is that of its directory, a slash, and the name; nothing is merged across the slash. -/
theorem c169_path (a b : Bytes) : fsDecode (a ++ 0x2f :: b) = fsDecode a ++ 0x2f :: fsDecode b :=
  (fs_decode _ _).2 (stands_slash ((fs_decode a _).1 rfl) ((fs_decode b _).1 rfl))

/-- A name in Latin-1, a name with a character outside the basic plane next to a stray byte, and the encoding of a surrogate. -/
example : fsDecode [0x63, 0x61, 0x66, 0xe9] = [0x63, 0x61, 0x66, 0xdce9] ∧ fsDecode [0xf0, 0x9f, 0x98, 0x80, 0xff] = [0x1f600, 0xdcff] ∧
    fsDecode [0xed, 0xb3, 0xbf] = [0xdced, 0xdcb3, 0xdcbf] ∧ fsDecode [0xe2, 0x82] = [0xdce2, 0xdc82] ∧
    escapePoints [0x1f600, 0xdcff] = ['\\', 'u', 'd', '8', '3', 'd', '\\', 'u', 'd', 'e', '0', '0', '\\', 'u', 'd', 'c', 'f', 'f'] := by decide +kernel

/-! ### C170 -/

/-- C170, exactly: a request names the file with exactly the bytes that it contains, if they are UTF-8 without NUL, and otherwise none. -/
theorem c170_iff (p b : Bytes) : requested p = some b ↔ p = b ∧ (∃ t, utf8Decode b = some t) ∧ 0 ∉ b := by
  unfold requested
  cases h : utf8Decode p with
  | none =>
    constructor
    · intro h'; exact (nomatch h')
    · rintro ⟨rfl, ⟨t, ht⟩, _⟩
      rw [h] at ht
      exact (nomatch ht)
  | some t =>
    have hp := (utf8_strict p t).1 h
    simp only [Option.bind_eq_bind, Option.bind_some, passed_iff]
    constructor
    · rintro ⟨rfl, hn⟩
      rw [← hp] at hn ⊢
      exact ⟨rfl, ⟨t, h⟩, hn⟩
    · rintro ⟨rfl, _, hn⟩
      exact ⟨hp, hn⟩

/-- C170, the part that holds: a file whose name is UTF-8 can be asked for (no name holds a NUL).  Missing for the full property: other names,
`c170_unnamed`. -/
theorem c170_partial (t : Text) (h : 0 ∉ utf8Encode t) : requested (utf8Encode t) = some (utf8Encode t) :=
  (c170_iff _ _).2 ⟨rfl, ⟨t, utf8Decode_encode t⟩, h⟩

/-- C170 fails for every name that is not UTF-8: no request names the file. -/
theorem c170_unnamed (b : Bytes) (h : utf8Decode b = none) (p : Bytes) : requested p ≠ some b := by
  intro h'
  obtain ⟨_, ⟨t, ht⟩, _⟩ := (c170_iff p b).1 h'
  rw [h] at ht
  exact (nomatch ht)

/-- `café` in Latin-1: it is on the list, and no request names it. -/
theorem c170_counterexample : Stands [0x63, 0x61, 0x66, 0xe9] [0x63, 0x61, 0x66, 0xdce9] ∧ ∀ p, requested p ≠ some [0x63, 0x61, 0x66, 0xe9] :=
  ⟨(fs_decode _ _).1 (by decide +kernel), c170_unnamed _ (by decide +kernel)⟩

example : requested [0x63, 0x61, 0x66, 0xc3, 0xa9] = some [0x63, 0x61, 0x66, 0xc3, 0xa9] ∧ requested [0x61, 0] = none ∧
    requested [0xed, 0xb3, 0xa9] = none := by decide +kernel

/-! ### C171 -/

/-- From the message to the path that the file service is given. -/
theorem c171_message (w : Instructions.World) (n : Int) (p : Bytes) :
    Instructions.instruct w [(.bytes (asc "action"), .bytes (asc "read-file")), (.bytes (asc "port"), .int n), (.bytes (asc "path"), .bytes p)] =
      .ok [.fileSent (.int n) (.text (utf8DecodeIgnore p))] := by
  have h1 : Instructions.decodeItems [] [(.bytes (asc "action"), .bytes (asc "read-file")), (.bytes (asc "port"), .int n), (.bytes (asc "path"), .bytes p)] =
      .ok [("action".toList, .text "read-file".toList), ("port".toList, .int n), ("path".toList, .text (utf8DecodeIgnore p))] := by
    have e1 : utf8DecodeIgnore (asc "action") = "action".toList := by decide +kernel
    have e2 : utf8DecodeIgnore (asc "read-file") = "read-file".toList := by decide +kernel
    have e3 : utf8DecodeIgnore (asc "port") = "port".toList := by decide +kernel
    have e4 : utf8DecodeIgnore (asc "path") = "path".toList := by decide +kernel
    simp only [Instructions.decodeItems, Instructions.decodeItem, Instructions.decodeString, e1, e2, e3, e4]
    rfl
  unfold Instructions.instruct
  rw [h1]
  rfl

/-- C171, exactly when the file in the instruction is the one that is opened: its path is UTF-8 (and holds no NUL: then there is no such file). -/
theorem c171_iff (p : Bytes) : fileRead p = some (FromRoot p) ↔ (∃ t, utf8Decode p = some t) ∧ 0 ∉ p := by
  have hi := ignore_length ((utf8_ignore p _).1 rfl)
  unfold fileRead
  rw [passed_iff, encode_absPath, root_nul]
  constructor
  · rintro ⟨e, hn⟩
    refine ⟨⟨utf8DecodeIgnore p, (utf8_strict p _).2 (hi.2 ?_)⟩, hn⟩
    have hl := congrArg List.length e.symm
    unfold FromRoot at hl
    split at hl
    · split at hl
      · exact hl
      · rw [List.length_cons] at hl
        omega
    · split at hl
      · rename_i h1 h2
        -- a slash at the start is a character of its own
        refine absurd ?_ h1
        cases p with
        | nil => exact (nomatch h2)
        | cons a r =>
          injection h2 with h2
          subst h2
          have := ignoring_unique (.char (c := '/') ((utf8_ignore r _).1 rfl))
          rw [show (0x2f : UInt8) :: r = String.utf8EncodeChar '/' ++ r from rfl, this]
          rfl
      · simpa using hl
  · rintro ⟨⟨t, ht⟩, hn⟩
    rw [utf8DecodeIgnore_of_valid ht, ← (utf8_strict p t).1 ht]
    exact ⟨rfl, hn⟩

/-- C171, the part that holds.  Missing for the full property: paths that are not UTF-8, for which another file is opened. -/
theorem c171_partial (p : Bytes) (t : Text) (h : utf8Decode p = some t) (hn : 0 ∉ p) : fileRead p = some (FromRoot p) := (c171_iff p).2 ⟨⟨t, h⟩, hn⟩

theorem ignored_shorter {p : Bytes} (h : utf8Decode p = none) : (utf8Encode (utf8DecodeIgnore p)).length < p.length := by
  have hi := ignore_length ((utf8_ignore p _).1 rfl)
  refine Nat.lt_of_le_of_ne hi.1 fun e => ?_
  rw [(utf8_strict p _).2 (hi.2 e)] at h
  exact (nomatch h)

/-- C171 fails for every path that is not UTF-8: a file with a shorter path is opened. -/
theorem c171_other (p : Bytes) (h : utf8Decode p = none) (hn : 0 ∉ p) : ∃ q, fileRead p = some q ∧ q ≠ FromRoot p ∧ q.length ≤ p.length := by
  have hq : fileRead p = some (FromRoot (utf8Encode (utf8DecodeIgnore p))) := by
    unfold fileRead
    rw [passed_iff, encode_absPath, root_nul]
    exact ⟨rfl, fun h => hn (ignore_subset ((utf8_ignore p _).1 rfl) 0 h)⟩
  refine ⟨_, hq, fun e => ?_, ?_⟩
  · obtain ⟨⟨t, ht⟩, _⟩ := (c171_iff p).1 (by rw [hq, e])
    rw [h] at ht
    exact (nomatch ht)
  · have hl := ignored_shorter h
    unfold FromRoot
    split
    · exact Nat.le_of_lt hl
    · rw [List.length_cons]; omega

/-- The instruction names the file `/a` with a stray byte; the file `/a` is opened and sent. -/
theorem c171_counterexample : fileRead [0x2f, 0x61, 0xff] = some [0x2f, 0x61] ∧ FromRoot [0x2f, 0x61, 0xff] = [0x2f, 0x61, 0xff] := by decide +kernel

example : fileRead (asc "etc/hosts") = some (asc "/etc/hosts") ∧ fileRead [0xff, 0x2f, 0x61] = some (asc "/a") := by decide +kernel

/-! ### C172 -/

/-- From the message to the command that the service is given. -/
theorem c172_message (w : Instructions.World) (n : Int) (p : Bytes) :
    Instructions.instruct w [(.bytes (asc "action"), .bytes (asc "run-command")), (.bytes (asc "command"), .bytes p), (.bytes (asc "port"), .int n)] =
      .ok [.commandRun (.int n) (.text (utf8DecodeIgnore p))] := by
  have h1 : Instructions.decodeItems [] [(.bytes (asc "action"), .bytes (asc "run-command")), (.bytes (asc "command"), .bytes p), (.bytes (asc "port"), .int n)] =
      .ok [("action".toList, .text "run-command".toList), ("command".toList, .text (utf8DecodeIgnore p)), ("port".toList, .int n)] := by
    have e1 : utf8DecodeIgnore (asc "action") = "action".toList := by decide +kernel
    have e2 : utf8DecodeIgnore (asc "run-command") = "run-command".toList := by decide +kernel
    have e3 : utf8DecodeIgnore (asc "port") = "port".toList := by decide +kernel
    have e4 : utf8DecodeIgnore (asc "command") = "command".toList := by decide +kernel
    simp only [Instructions.decodeItems, Instructions.decodeItem, Instructions.decodeString, e1, e2, e3, e4]
    rfl
  unfold Instructions.instruct
  rw [h1]
  rfl

/-- C172, exactly when the command in the instruction is the one that is run: it is UTF-8 (and holds no NUL: then there is no such command). -/
theorem c172_iff (p : Bytes) : commandRun p = some p ↔ (∃ t, utf8Decode p = some t) ∧ 0 ∉ p := by
  unfold commandRun
  rw [passed_iff]
  constructor
  · rintro ⟨e, hn⟩
    exact ⟨⟨utf8DecodeIgnore p, (utf8_strict p _).2 e⟩, hn⟩
  · rintro ⟨⟨t, ht⟩, hn⟩
    rw [utf8DecodeIgnore_of_valid ht]
    exact ⟨(utf8_strict p t).1 ht, hn⟩

/-- C172, the part that holds.  Missing for the full property: commands that are not UTF-8. -/
theorem c172_partial (p : Bytes) (t : Text) (h : utf8Decode p = some t) (hn : 0 ∉ p) : commandRun p = some p := (c172_iff p).2 ⟨⟨t, h⟩, hn⟩

/-- C172 fails for every command that is not UTF-8: a shorter one is run. -/
theorem c172_other (p : Bytes) (h : utf8Decode p = none) (hn : 0 ∉ p) : ∃ q, commandRun p = some q ∧ q.length < p.length := by
  refine ⟨utf8Encode (utf8DecodeIgnore p), ?_, ignored_shorter h⟩
  unfold commandRun
  rw [passed_iff]
  exact ⟨rfl, fun h => hn (ignore_subset ((utf8_ignore p _).1 rfl) 0 h)⟩

/-- `rm -r /a` with a stray byte at the end of the name: the directory `/a` is removed. -/
theorem c172_counterexample : commandRun (asc "rm -r /a" ++ [0xe9]) = some (asc "rm -r /a") := by decide +kernel

example : commandRun (asc "ls") = some (asc "ls") ∧ commandRun [0x6c, 0] = none := by decide +kernel

end Verif.Names
