import Verif.Proofs.Limits2
import Verif.Props.Bencode
/-!
C136 and C137: limits of the Python interpreter on nesting and on digits.
-/
namespace Verif.Limits
open Verif Bencode

/-! ### C136 -/

/-- C136: whatever the limits, `decode` does what it does without them, or raises `RecursionError` or `ValueError`. -/
theorem c136_only_refuses (lim : Limits) (data : Bytes) :
    decode lim data = free (Bencode.decode data) ∨ decode lim data = .recursion ∨ decode lim data = .raise .value := decode_rel lim data

/-- C136: the limits have no effect on data that is too short to exceed them. -/
theorem c136_out_of_reach (lim : Limits) (data : Bytes) (h : OutOfReach lim data) : decode lim data = free (Bencode.decode data) :=
  decode_reach h.1 (tooLong_reach h)

/-- C136, exactly, for data in bencode format: it is decoded if and only if it is not nested too deeply and no number is too long; otherwise
the exception tells which. -/
theorem c136_exact (lim : Limits) (v : PyVal) (data : Bytes) (hw : WF v) (h : Wire v data) :
    ((∃ w, decode lim data = .ok w) ↔ levels v + 1 ≤ lim.depth ∧ Short lim v) ∧
    (levels v + 1 ≤ lim.depth → Short lim v → decode lim data = free (Bencode.decode data)) ∧
    (lim.depth < levels v + 1 → Short lim v → decode lim data = .recursion) ∧
    (levels v + 1 ≤ lim.depth → ¬ Short lim v → decode lim data = .raise .value) := by
  obtain ⟨h1, h2, h3, h4⟩ := decode_wire lim hw h
  refine ⟨⟨fun ⟨w, hd⟩ => ?_, fun ⟨f, s⟩ => ?_⟩, h1, h2, h3⟩
  · by_cases f : levels v + 1 ≤ lim.depth <;> by_cases s : Short lim v
    · exact ⟨f, s⟩
    · rw [h3 f s] at hd; exact nomatch hd
    · rw [h2 (by omega) s] at hd; exact nomatch hd
    · rcases h4 (by omega) s with h | h <;> (rw [h] at hd; exact nomatch hd)
  · obtain ⟨w, hg⟩ := good_of_wire hw h
    rw [h1 f s, decode_good hg]
    exact ⟨w, rfl⟩

/-- C136: a message that opens lists again and again can not be decoded, whatever follows; the exception is not a `DecodeError`. -/
theorem c136_nested (lim : Limits) (n : Nat) (h : lim.depth ≤ n + 1) (rest : Bytes) :
    decode lim (List.replicate n 108 ++ rest) = .recursion := by
  unfold decode
  cases hd : lim.depth with
  | zero => rfl
  | succ d =>
    simp only
    rw [nested lim d n _ rest (by omega) (by simp only [enough, List.length_append, List.length_replicate]; omega)]

/-- C136, the client: whatever limits there are at each message, the client does exactly what it would do without limits if some of the
messages that may exceed them were empty.  So whatever holds for all histories without limits (C15-C30, C90, C91, C99-C110) also holds with
them, and no message stops the client because of a limit. -/
theorem c136_client (s : WSClient.St) (hist : List (Limits × WSClient.Env × WSClient.Ev)) :
    ∃ hist', Blanked hist hist' ∧ run s hist = WSClient.run s hist' := run_blanked hist s

/-- C136: an empty message has no effect. -/
theorem c136_empty (env : WSClient.Env) (s : WSClient.St) : WSClient.step env s (.binary []) = (s, []) := by
  have hd : Dispatcher.onBinary [] = .dropped := rfl
  simp only [WSClient.step, WSClient.Ev.isSocket, if_true, WSClient.onEvent, hd, ite_self]

/-- C136: a message in bencode format is handled as without limits if it is not nested too deeply and no number is too long. -/
theorem c136_message (lim : Limits) (env : WSClient.Env) (s : WSClient.St) (v : PyVal) (data : Bytes) (hw : WF v) (h : Wire v data)
    (hd : levels v + 1 ≤ lim.depth) (hs : Short lim v) : step lim env s (.binary data) = WSClient.step env s (.binary data) :=
  step_same ((decode_wire lim hw h).1 hd hs)

/-- An instruction needs four nested calls. -/
example : levels (.list [.int 16, .bytes (asc "s"), .dict [(.bytes (asc "port"), .int 7)]]) = 3 := by decide +kernel
example : decode ⟨4, none⟩ (asc "li16e1:sd4:porti7eee") = .ok (.list [.int 16, .bytes (asc "s"), .dict [(.bytes (asc "port"), .int 7)]]) := by
  decide +kernel
example : decode ⟨3, none⟩ (asc "li16e1:sd4:porti7eee") = .recursion := by decide +kernel
/-- The end of a list is read like a value; data after the value does not matter. -/
example : decode ⟨3, none⟩ (asc "lelll") = .ok (.list []) ∧ decode ⟨2, none⟩ (asc "lelll") = .recursion := by decide +kernel
/-- A number of 641 digits, with limits of 640 and 641 digits; below 640 Python knows no limit. -/
example : decode ⟨9, some 640⟩ (asc "i" ++ List.replicate 641 49 ++ asc "e") = .raise .value := by decide +kernel
example : (match decode ⟨9, some 641⟩ (asc "i" ++ List.replicate 641 49 ++ asc "e") with | .ok _ => true | _ => false) = true := by decide +kernel
example : (match decode ⟨9, some 3⟩ (asc "i1234e") with | .ok v => v == .int 1234 | _ => false) = true := by decide +kernel
/-- A message that is nested too deeply has no effect where a flat one has. -/
example : (run {} [(⟨5, none⟩, {}, .binary (asc "lllllleeeeee")), (⟨5, none⟩, {}, .binary (asc "li14ei1ee"))]).1.channels.length = 1 := by
  decide +kernel

/-! ### C137 -/

/-- C137: what `encode` returns with limits it also returns without. -/
theorem c137_only_refuses (lim : Limits) (v : PyVal) (data : Bytes) (h : encode lim v = .ok data) : Bencode.encode v = .ok data := by
  obtain ⟨ha, w, hd, hn⟩ := encode_inv h
  unfold Bencode.encode
  rw [addEncodeL_ok ha]
  have hq : Bencode.decode data = .ok w := by
    rcases decode_rel lim data with hr | hr | hr
    · rw [hr] at hd
      cases hq : Bencode.decode data with
      | ok x => rw [hq] at hd; injection hd with hd; rw [hd]
      | raise x => rw [hq] at hd; exact nomatch hd
      | hang => rw [hq] at hd; exact nomatch hd
    · rw [hr] at hd; exact nomatch hd
    · rw [hr] at hd; exact nomatch hd
  simp only [hq, hn, Bool.false_eq_true, if_false]

/-- C137, exactly: a value is encoded with limits if and only if it is without, it is not nested too deeply, and no number is too long. -/
theorem c137_iff (lim : Limits) (v : PyVal) (data : Bytes) (hw : WF v) :
    encode lim v = .ok data ↔ Bencode.encode v = .ok data ∧ levels v + 1 ≤ lim.depth ∧ Short lim v := by
  constructor
  · intro h
    have h1 := c137_only_refuses lim v data h
    obtain ⟨_, w, hd, _⟩ := encode_inv h
    exact ⟨h1, (c136_exact lim v data hw (Props.c89_wire_format v data hw h1)).1.1 ⟨w, hd⟩⟩
  · rintro ⟨h, f, s⟩
    have hwire := Props.c89_wire_format v data hw h
    obtain ⟨w, hg⟩ := good_of_wire hw hwire
    unfold encode
    rw [addEncodeL_fit (by omega) s (wire_unique hwire)]
    simp only
    rw [(decode_wire lim hw hwire).1 f s, decode_good hg]
    simp only [free, hg.2.1, Bool.false_eq_true, if_false]

/-- C137: the packets of the agent are lists of a type and of byte strings, texts and numbers; three nested calls are enough for them. -/
theorem c137_packets (lim : Limits) (hd : 3 ≤ lim.depth) (type : Int) (xs : List PyVal)
    (hx : ∀ x ∈ xs, (∃ b, x = .bytes b) ∨ (∃ t, x = .text t) ∨ ∃ i, x = .int i)
    (hs : ∀ m, lim.digits = some m → ∀ i, i = type ∨ .int i ∈ xs → i.natAbs < 10 ^ max 640 m) (hw : WF (.list (.int type :: xs))) (data : Bytes) :
    encode lim (.list (.int type :: xs)) = .ok data ↔ Bencode.encode (.list (.int type :: xs)) = .ok data := by
  rw [c137_iff lim _ data hw]
  refine ⟨fun h => h.1, fun h => ⟨h, ?_, ?_⟩⟩
  · have : levelsList (.int type :: xs) ≤ 1 := by
      rw [levelsList_le]
      intro x hx'
      rcases List.mem_cons.1 hx' with rfl | hx'
      · simp [levels]
      · rcases hx x hx' with ⟨b, rfl⟩ | ⟨b, rfl⟩ | ⟨b, rfl⟩ <;> simp [levels]
    simp only [levels]
    omega
  · rw [short_list]
    intro x hx' m hm i hi
    rcases List.mem_cons.1 hx' with rfl | hx'
    · simp only [ints, List.mem_singleton] at hi
      exact hs m hm i (.inl hi)
    · rcases hx x hx' with ⟨b, rfl⟩ | ⟨b, rfl⟩ | ⟨b, rfl⟩
      · simp [ints] at hi
      · simp [ints] at hi
      · simp only [ints, List.mem_singleton] at hi
        exact hs m hm i (.inr (hi ▸ hx'))

/-- The check at the end of `encode` needs more calls than the encoding itself. -/
example : encode ⟨3, none⟩ (.list [.int 5, .text ['x']]) = .ok (asc "li5e1:xe") ∧ encode ⟨2, none⟩ (.list [.int 5, .text ['x']]) = .error none := by
  decide +kernel
example : encode ⟨4, none⟩ (.dict [(.bytes (asc "k"), .list [])]) = .ok (asc "d1:klee") ∧
    encode ⟨3, none⟩ (.dict [(.bytes (asc "k"), .list [])]) = .error none := by decide +kernel
/-- A number with 641 digits. -/
example : encode ⟨3, some 640⟩ (.int (10 ^ 640)) = .error (some .value) ∧ levels (.int (10 ^ 640)) = 1 := by decide +kernel
example : ¬ Short ⟨3, some 640⟩ (.int (10 ^ 640)) := by
  intro h
  have := h 640 rfl (10 ^ 640) (by simp [ints])
  revert this
  decide +kernel

end Verif.Limits
