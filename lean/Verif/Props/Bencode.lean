import Verif.Proofs.Bencode4
/-!
C01-C07: `dataplicity/m2m/bencode.py`.
-/
namespace Verif.Props
open Verif Bencode

/-! ### C01 -/

/-- C01. Every supported value can be encoded, and decoding the bytes gives back its bencode view. -/
theorem c01_round_trip (v : PyVal) (hw : WF v) (hs : Supported v) :
    ∃ data w, encode v = .ok data ∧ decode data = .ok w ∧ Same v w := by
  obtain ⟨e, he⟩ := addEncode_supported hs
  rcases fate v e he hw with ⟨_, w, h1, h2⟩ | ⟨h, _⟩
  · exact ⟨e, w, encode_good he h2, decode_good h2, h1⟩
  · exact absurd hs h

/-- C01, for whatever `encode` returned. -/
theorem c01_round_trip_any (v : PyVal) (data : Bytes) (hw : WF v) (h : encode v = .ok data) :
    ∃ w, decode data = .ok w ∧ Same v w := by
  obtain ⟨_, _, w, h1, h2⟩ := encode_ok hw h
  exact ⟨w, decode_good h2, h1⟩

/-- The value `[b"a", -12, ("é", {b"z": 1, b"b": []})]`. -/
def sample : PyVal :=
  .list [.bytes [97], .int (-12), .tuple [.text ['é'], .dict [(.bytes [122], .int 1), (.bytes [98], .list [])]]]

example : WF sample :=
  .list (.cons (.bytes (by simp [maxSize])) (.cons (.int _) (.cons (.tuple (.cons (.text (by decide +kernel)) (.cons
    (.dict (.cons (.bytes (by simp [maxSize])) (.int _) (.cons (.bytes (by simp [maxSize])) (.list .nil) .nil)) (by simp)) .nil))) .nil)))
example : Supported sample :=
  .list (.cons (.bytes _) (.cons (.int _) (.cons (.tuple (.cons (.text _) (.cons
    (.dict (.cons (.int _) (.cons (.list .nil) .nil))) .nil))) .nil)))
example : addEncode sample = some (asc "l1:ai-12el2:\xc3\xa9d1:ble1:zi1eeee") := by decide

/-! ### C02 -/

/-- C02, canonicity: values that are equal up to text/bytes, tuple/list and the insertion order of dicts at any depth
encode alike. -/
theorem c02_canonical (v₁ v₂ w : PyVal) (h₁ : WF v₁) (h₂ : WF v₂) (s₁ : Same v₁ w) (s₂ : Same v₂ w) :
    encode v₁ = encode v₂ := by
  simp only [encode, same_encode s₁ h₁, same_encode s₂ h₂]

/-- C02 for one dict: the insertion order does not matter. -/
theorem c02_insertion_order (kvs kvs' : List (PyVal × PyVal)) (hp : kvs.Perm kvs') (hw : WF (.dict kvs))
    (hs : Supported (.dict kvs)) : encode (.dict kvs) = encode (.dict kvs') := by
  cases hw with
  | dict hi hn =>
    cases hs with
    | dict hs =>
      obtain ⟨es, hes⟩ := addEncodeItems_supported hs
      obtain ⟨fs, hfs, hpp⟩ := items_perm hp hes
      have hk := items_keys hes
      rw [hk, nodup_map_bytes] at hn
      simp only [encode, addEncode, hes, hfs, Option.map_some, sortItems_eq_of_perm hpp hn]

/-- C02, unambiguity: values with the same encoding have the same bencode view, which is what decoding returns. -/
theorem c02_unambiguous (v₁ v₂ : PyVal) (data : Bytes) (h₁ : WF v₁) (h₂ : WF v₂)
    (e₁ : encode v₁ = .ok data) (e₂ : encode v₂ = .ok data) :
    ∃ w, decode data = .ok w ∧ Same v₁ w ∧ Same v₂ w := by
  obtain ⟨w₁, d₁, s₁⟩ := c01_round_trip_any v₁ data h₁ e₁
  obtain ⟨w₂, d₂, s₂⟩ := c01_round_trip_any v₂ data h₂ e₂
  rw [d₁] at d₂
  injection d₂ with d₂
  subst d₂
  exact ⟨w₁, d₁, s₁, s₂⟩

example : addEncode (.dict [(.bytes [122], .int 1), (.bytes [98], .int 2)]) =
    addEncode (.dict [(.bytes [98], .int 2), (.bytes [122], .int 1)]) := by decide
example : addEncode (.dict [(.bytes [98], .int 2)]) ≠ addEncode (.dict [(.bytes [98], .int 3)]) := by decide

/-! ### C03 -/

/-- C03: with any bytes following, the reader returns the value and stops exactly at the end of its encoding. -/
theorem c03_self_delimiting (v : PyVal) (data : Bytes) (hw : WF v) (h : encode v = .ok data) :
    ∃ w, Same v w ∧ decode data = .ok w ∧ ∀ rest, decode (data ++ rest) = .ok w ∧ Reads (data ++ rest) w rest := by
  obtain ⟨_, _, w, h1, h2⟩ := encode_ok hw h
  refine ⟨w, h1, decode_good h2, fun rest => ?_⟩
  have := h2.2.2 rest (2 * data.length + 1) (by omega)
  exact ⟨decode_ok_iff.2 ⟨_, _, this⟩, _, this⟩

/-- C03: no encoding is a proper prefix of another; a byte stream splits into encodings in at most one way. -/
theorem c03_prefix_free (v₁ v₂ : PyVal) (d₁ d₂ r₁ r₂ : Bytes) (h₁ : WF v₁) (h₂ : WF v₂)
    (e₁ : encode v₁ = .ok d₁) (e₂ : encode v₂ = .ok d₂) (h : d₁ ++ r₁ = d₂ ++ r₂) : d₁ = d₂ ∧ r₁ = r₂ := by
  obtain ⟨_, _, w₁, _, g₁⟩ := encode_ok h₁ e₁
  obtain ⟨_, _, w₂, _, g₂⟩ := encode_ok h₂ e₂
  have a := g₁.2.2 r₁ (2 * d₁.length + 2 * d₂.length + 1) (by omega)
  have b := g₂.2.2 r₂ (2 * d₁.length + 2 * d₂.length + 1) (by omega)
  rw [h, b] at a
  injection a with _ a
  subst a
  exact ⟨List.append_cancel_right h, rfl⟩

example : encode (.int 12) = .ok [105, 49, 50, 101] := by rfl

/-! ### C04 -/

/-- C04: `encode` returns exactly for supported values. -/
theorem c04_encode_iff_supported (v : PyVal) (hw : WF v) : (∃ data, encode v = .ok data) ↔ Supported v := by
  constructor
  · rintro ⟨data, h⟩; exact (encode_ok hw h).2.1
  · intro hs
    obtain ⟨data, w, h, _⟩ := c01_round_trip v hw hs
    exact ⟨data, h⟩

/-- C04: in every other case it raises (never loops): `EncodingError`, or `DecodeError` from its own final check. -/
theorem c04_unsupported_raises (v : PyVal) (hw : WF v) (hs : ¬ Supported v) :
    (encode v = .error .encoding ∨ encode v = .error .decode) := by
  cases ha : addEncode v with
  | none => left; simp [encode, ha]
  | some e =>
    right
    rcases fate v e ha hw with ⟨h, _⟩ | ⟨_, hb⟩
    · exact absurd h hs
    · simp [encode, ha, decode_bad hb]

/-- C04: the final check of `encode` always comes to an end, on every value. -/
theorem c04_encode_check_ends (v : PyVal) (data : Bytes) (hw : WF v) (h : addEncode v = some data) : decode data ≠ .hang := by
  rcases fate v data h hw with ⟨_, w, _, hg⟩ | ⟨_, hb⟩
  · simp [decode_good hg]
  · simp [decode_bad hb]

example : WF (.list [.int 1, .dict [(.bytes [97], .bool true)]]) ∧ ¬ Supported (.list [.int 1, .dict [(.bytes [97], .bool true)]]) := by
  refine ⟨.list (.cons (.int _) (.cons (.dict (.cons (.bytes (by simp [maxSize])) (.bool _) .nil) (by simp)) .nil)), ?_⟩
  intro h
  cases h with | list h => cases h with | cons _ h => cases h with | cons h _ => cases h with | dict h => cases h with | cons h _ => cases h

/-! ### C05 -/

/-- C05 fails: on `b"5"` the decoder runs for ever (bencode.py:142-147 spins at end of input). -/
theorem c05_counterexample : decode [53] = .hang := by decide +kernel

/-- C05 fails for a whole class: any input whose first byte is none of `e i l d` and that has no `:` after it. -/
theorem c05_diverges (t : UInt8) (rest : Bytes) (ht : t ≠ 101 ∧ t ≠ 105 ∧ t ≠ 108 ∧ t ≠ 100) (hc : 58 ∉ rest) :
    ∀ n, decodeF n (t :: rest) = .out := by
  intro n; exact (stuck_out n).1 _ (.length ht hc)

/-- C05, exact: `decode` runs for ever precisely when its reader comes to a string length with no `:` behind it. -/
theorem c05_hang_iff (data : Bytes) : decode data = .hang ↔ Stuck data := hang_iff_stuck data

/-- C05, the part that holds: `decode` ends on every input that starts with `e`, `i`, or a string length ended by a `:`
somewhere.  Missing: the inputs described by `c05_hang_iff`, on which the claim is false. -/
theorem c05_terminates_partial (t : UInt8) (rest : Bytes)
    (h : t = 101 ∨ t = 105 ∨ (t ≠ 108 ∧ t ≠ 100 ∧ 58 ∈ rest)) : decode (t :: rest) ≠ .hang := by
  intro hh
  have := (hang_iff_stuck _).1 hh
  cases this with
  | length hs hc =>
    rcases h with h | h | h
    · exact hs.1 h
    · exact hs.2.1 h
    · exact hc h.2.2
  | list _ => rcases h with h | h | h <;> simp_all
  | dict _ => rcases h with h | h | h <;> simp_all

/-- C05, the part that holds: a complete encoding, followed by anything, is decoded in finite time. -/
theorem c05_terminates_on_encodings_partial (v : PyVal) (data rest : Bytes) (hw : WF v) (h : encode v = .ok data) :
    decode (data ++ rest) ≠ .hang := by
  obtain ⟨w, _, _, h3⟩ := c03_self_delimiting v data hw h
  rw [(h3 rest).1]; simp

/-- A hang nested in a list after a complete item: `l1:a5`. -/
example : decode (asc "l1:a5") = .hang := by decide +kernel
example : decode (asc "l1:ae") = .ok (.list [.bytes [97]]) := by decide +kernel

/-! ### C06 -/

/-- C06: a proper prefix of an encoded list, tuple, dict or integer is never decoded to a value. -/
theorem c06_truncated_not_accepted (v : PyVal) (data p s : Bytes) (hw : WF v) (h : encode v = .ok data)
    (hv : (∃ i, v = .int i) ∨ (∃ l, v = .list l) ∨ (∃ l, v = .tuple l) ∨ (∃ l, v = .dict l))
    (hcut : data = p ++ s) (hs : s ≠ []) : ∀ w, decode p ≠ .ok w := by
  intro w hd
  obtain ⟨ha, _, w0, _, g⟩ := encode_ok hw h
  obtain ⟨n, r, hn⟩ := decode_ok_iff.1 hd
  have hfst : ∃ t q, data = t :: q ∧ (t = 105 ∨ t = 108 ∨ t = 100) := by
    rcases hv with ⟨i, rfl⟩ | ⟨l, rfl⟩ | ⟨l, rfl⟩ | ⟨l, rfl⟩ <;>
      simp only [addEncode, Option.map_eq_some_iff, Option.some.injEq] at ha
    · subst ha; exact ⟨_, _, rfl, .inl rfl⟩
    · obtain ⟨b, _, rfl⟩ := ha; exact ⟨_, _, rfl, .inr (.inl rfl)⟩
    · obtain ⟨b, _, rfl⟩ := ha; exact ⟨_, _, rfl, .inr (.inl rfl)⟩
    · obtain ⟨b, _, rfl⟩ := ha; exact ⟨_, _, rfl, .inr (.inr rfl)⟩
  obtain ⟨t, q, hq, ht⟩ := hfst
  rcases (more n s).1 _ _ _ hn with hm | ⟨_, b, rfl⟩
  · rw [← hcut] at hm
    have h1 := g.2.2 [] (2 * data.length + 1) (by omega)
    rw [List.append_nil] at h1
    have h2 := (fuel n).1 data (2 * data.length + 1) (by simp [hm]) (by omega)
    rw [h1, hm] at h2
    injection h2 with _ h2
    have : r ++ s = [] := h2.symm
    exact hs (List.append_eq_nil_iff.1 this).2
  · cases p with
    | nil => exact decodeF_nil_ne_ok hn
    | cons t' p =>
      rw [hq] at hcut
      simp only [List.cons_append, List.cons.injEq] at hcut
      obtain ⟨rfl, _⟩ := hcut
      cases n with
      | zero => simp [decodeF] at hn
      | succ n =>
        simp only [decodeF] at hn
        rcases ht with rfl | rfl | rfl
        · rw [if_neg (by decide), if_pos (by decide)] at hn
          obtain ⟨i, hi⟩ := readInt_int hn
          simp at hi
        · rw [if_neg (by decide), if_neg (by decide), if_pos (by decide)] at hn
          obtain ⟨_, l, hl⟩ := (more n []).2.1 _ _ _ _ hn
          simp at hl
        · rw [if_neg (by decide), if_neg (by decide), if_neg (by decide), if_pos (by decide)] at hn
          obtain ⟨_, l, hl⟩ := (more n []).2.2 _ _ _ _ hn
          simp at hl

/-- The list `l3:abci7ee`, cut inside its string, is refused. -/
example : asc "l3:abci7ee" = asc "l3:ab" ++ asc "ci7ee" ∧ decode (asc "l3:ab") = .raise .decode := ⟨by decide, by decide +kernel⟩
/-- Outside the claim: a cut byte string at the top is accepted. -/
theorem c06_byte_string_cut_accepted : decode (asc "5:ab") = .ok (.bytes (asc "ab")) := by decide +kernel

/-! ### C07 -/

/-- C07: whatever is decoded is built from byte strings, integers, lists without `None` and dicts with byte-string or
integer keys, and `None` only at the top or as a dict value. -/
theorem c07_decoded_clean (data : Bytes) (v : PyVal) (hl : data.length ≤ maxSize) (h : decode data = .ok v) : Clean v := by
  obtain ⟨n, r, hn⟩ := decode_ok_iff.1 h
  exact ((clean_result n).1 _ _ _ hl hn).1

/-- C07: it can be encoded again unless a `None` or a non-bytes key is inside, and then decodes to itself
(dicts as mappings). -/
theorem c07_re_encode (data : Bytes) (v : PyVal) (hl : data.length ≤ maxSize) (h : decode data = .ok v) :
    ((∃ d, encode v = .ok d) ↔ Supported v) ∧
    ∀ d, encode v = .ok d → ∃ w, decode d = .ok w ∧ Same v w := by
  obtain ⟨n, r, hn⟩ := decode_ok_iff.1 h
  have hw := ((clean_result n).1 _ _ _ hl hn).2
  exact ⟨c04_encode_iff_supported v hw, fun d hd => c01_round_trip_any v d hw hd⟩

/-- Non-canonical input: keys out of order, a repeated key, surplus bytes. -/
example : decode (asc "d1:b0:1:ai1e1:bi2eeXYZ") = .ok (.dict [(.bytes [98], .int 2), (.bytes [97], .int 1)]) := by decide +kernel
/-- `None` can come back as a dict value. -/
example : decode (asc "d1:aee") = .ok (.dict [(.bytes [97], .none)]) := by decide +kernel

/-! ### C89 -/

/-- C89: what `encode` returns is the standard bencode notation of the value: decimal numbers without leading zeros, byte lengths,
dict keys in ascending order. -/
theorem c89_wire_format (v : PyVal) (data : Bytes) (hw : WF v) (h : encode v = .ok data) : Wire v data := by
  obtain ⟨h1, h2, _⟩ := encode_ok hw h
  exact wire v data h1 hw h2

/-- C89: every supported value has such an encoding. -/
theorem c89_wire_total (v : PyVal) (hw : WF v) (hs : Supported v) : ∃ data, encode v = .ok data ∧ Wire v data := by
  obtain ⟨data, _, h, _⟩ := c01_round_trip v hw hs
  exact ⟨data, h, c89_wire_format v data hw h⟩

/-- C89: and there is no other notation, so that `encode` returns `data` exactly if it is the notation of the value. -/
theorem c89_wire_iff (v : PyVal) (data : Bytes) (hw : WF v) : encode v = .ok data ↔ Wire v data := by
  refine ⟨c89_wire_format v data hw, fun h => ?_⟩
  obtain ⟨data', _, h', _⟩ := c01_round_trip v hw (wire_supported h)
  have := wire_unique h
  rw [(encode_ok hw h').1] at this
  injection this with this
  rw [← this]; exact h'

/-- Keys in the wrong order, a leading zero, a plus sign: not the notation of the value. -/
example : ¬ Wire (.int 7) (asc "i07e") ∧ ¬ Wire (.dict [(.bytes (asc "b"), .int 1), (.bytes (asc "a"), .int 2)]) (asc "d1:bi1e1:ai2ee") := by
  constructor
  · intro h; have := wire_unique h; exact absurd this (by decide +kernel)
  · intro h; have := wire_unique h; exact absurd this (by decide +kernel)

example : encode (.dict [(.bytes (asc "b"), .int (-10)), (.bytes (asc "a"), .text ['é'])]) =
    .ok (asc "d1:a2:\xc3\xa91:bi-10ee") := by decide +kernel

end Verif.Props
