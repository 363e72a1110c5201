import Verif.Proofs.Grammar
import Verif.Props.Bencode
/-!
C130: the language that `bencode.decode` reads.
-/
namespace Verif.Props
open Verif Bencode

/-- C130: `decode(data)` returns `v` exactly if `data` begins with a notation of `v`. -/
theorem c130_returns (data : Bytes) (v : PyVal) : decode data = .ok v ↔ ∃ rest, Grammar.Reads data v rest := by
  rw [Grammar.decode_eq]
  constructor
  · intro h
    cases hd : Grammar.D data with
    | ok v' r => rw [hd] at h; injection h with h; exact ⟨r, h ▸ Grammar.D_ok_iff.1 hd⟩
    | raise e => rw [hd] at h; exact (nomatch h)
    | out => rw [hd] at h; exact (nomatch h)
  · rintro ⟨r, h⟩; rw [Grammar.D_ok_iff.2 h]

/-- C130: it raises `e` exactly if the notation is broken in the way that belongs to `e`. -/
theorem c130_raises (data : Bytes) (e : Err) : decode data = .raise e ↔ Grammar.Fails data e := by
  rw [Grammar.decode_eq]
  constructor
  · intro h
    cases hd : Grammar.D data with
    | ok v' r => rw [hd] at h; exact (nomatch h)
    | raise e' => rw [hd] at h; injection h with h; exact h ▸ Grammar.D_raise_iff.1 hd
    | out => rw [hd] at h; exact (nomatch h)
  · intro h; rw [Grammar.D_raise_iff.2 h]

/-- C130: it runs for ever exactly if there is a byte string without a `:` after its length. -/
theorem c130_hangs (data : Bytes) : decode data = .hang ↔ Grammar.Endless data := by
  rw [Grammar.decode_eq]
  constructor
  · intro h
    cases hd : Grammar.D data with
    | ok v' r => rw [hd] at h; exact (nomatch h)
    | raise e' => rw [hd] at h; exact (nomatch h)
    | out => exact Grammar.D_out_iff.1 hd
  · intro h; rw [Grammar.D_out_iff.2 h]

/-- C130: the language contains the whole bencode format. -/
theorem c130_format (v : PyVal) (data : Bytes) (hw : WF v) (h : Wire v data) : ∃ w, Same v w ∧ ∀ rest, Grammar.Reads (data ++ rest) w rest := by
  obtain ⟨_, _, w, h1, h2⟩ := encode_ok hw ((c89_wire_iff v data hw).2 h)
  refine ⟨w, h1, fun rest => Grammar.D_ok_iff.1 (h2.2.2 rest _ ?_)⟩
  rw [List.length_append]; omega

/-! What the format does not have but `decode` takes: leading zeros, minus zero, plus signs, white space and underscores in lengths, a negative
length for all that is left, byte strings cut short by the end of the input, integers as keys, `None` as a value, keys in any order and more than
once. -/
example : decode (asc "i007e") = .ok (.int 7) := by decide +kernel
example : decode (asc "i-0e") = .ok (.int 0) := by decide +kernel
example : decode (asc " +0_2 :abc") = .ok (.bytes (asc "ab")) := by decide +kernel
example : decode (asc "-3:abc") = .ok (.bytes (asc "abc")) := by decide +kernel
example : decode (asc "9:abc") = .ok (.bytes (asc "abc")) := by decide +kernel
example : decode (asc "di5ei1e1:bi2e1:ae1:bi3ee") = .ok (.dict [(.int 5, .int 1), (.bytes (asc "b"), .int 3), (.bytes (asc "a"), .none)]) := by
  decide +kernel
/-! And what it refuses. -/
example : decode (asc "i1_0e") = .raise .decode ∧ decode (asc "i1-e") = .raise .value ∧ decode (asc "ie") = .raise .value := by decide +kernel
example : decode (asc "1__0:a") = .raise .value ∧ decode (asc "_1:a") = .raise .value ∧ decode (asc "1_:a") = .raise .value ∧
    decode (asc "- 1:a") = .raise .value ∧ decode (asc "x:a") = .raise .value := by decide +kernel
example : decode (asc "9223372036854775808:a") = .raise .overflow ∧ decode (asc "dlei1ee") = .raise .unhashable := by decide +kernel
/-- A derivation in the grammar. -/
example : Grammar.Reads (asc "l 2:abe!") (.list [.bytes (asc "ab")]) (asc "!") := by
  refine .list (.cons (r := asc "e!") (x := .bytes (asc "ab")) ?_ (by simp) .nil)
  exact Grammar.Reads.bytes (ds := asc " 2") (r := asc "abe!") (n := 2) ⟨32, [50], by decide, by decide, by decide, by decide, by decide, by decide⟩
    (.plain (l := [32]) (ds := [50]) (r := []) (by simp [Grammar.White]) (.one (by simp [Grammar.Digit])) (by simp)) (by decide)

end Verif.Props
