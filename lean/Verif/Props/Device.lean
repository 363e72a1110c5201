import Verif.Proofs.Device
import Verif.Proofs.Bytes
/-!
C80-C86 and C95: what the agent reads from the device.
-/
namespace Verif.Device
open Verif

/-! ### C80 -/

def exFacts : Facts := ⟨"0.5".toList, .ok none, .ok "pi".toList, "os".toList, "linux".toList, some ["10.0.0.1".toList]⟩

/-- C80, the part that holds: as long as nobody changes the dict returned by the first call, or the list of addresses, which all
dicts share, all calls return the same. -/
theorem c80_kept_partial (f : Facts) {h1 : Heap} {c : Nat} (hf : getMeta .init f = (h1, .ok c)) (ops : List MetaOp)
    (hd : ∀ key v, .set c key v ∉ ops) (hl : ∀ v, .change 0 v ∉ ops) (g : Facts) :
    ∃ h2 d, getMeta (metaRun h1 ops) g = (h2, .ok d) ∧ content h2 d = content h1 c := by
  have hk : Kept h1 h1 c 0 ∧ ∀ k l, h1.dicts c k = some (.list l) → l = 0 := by
    unfold getMeta at hf
    simp only [Heap.init] at hf
    split at hf
    · injection hf with e1 e2
      injection e2 with e2
      subst e1; subst e2
      refine ⟨⟨rfl, rfl, rfl, by simp⟩, fun k l h => ?_⟩
      simp only [setAt, if_true] at h
      split at h
      · injection h with h; exact nomatch h
      · split at h
        · injection h with h
          revert h
          unfold optVal
          split <;> exact fun h => nomatch h
        · split at h
          · injection h with h; exact nomatch h
          · split at h
            · injection h with h; exact nomatch h
            · split at h
              · injection h with h; exact nomatch h
              · split at h
                · injection h with h; injection h with h; exact h.symm
                · exact nomatch h
    · injection hf with _ e2
      exact nomatch e2
  obtain ⟨hk, hlist⟩ := hk
  have k2 := kept_run hk ops hd hl
  refine ⟨_, (metaRun h1 ops).nDicts, by simp only [getMeta, k2.cache]; rfl, ?_⟩
  funext k
  simp only [content, setAt, if_true, k2.dict]
  cases hv : h1.dicts c k with
  | none => rfl
  | some v =>
    cases v with
    | none => rfl
    | text t => rfl
    | list l =>
      have := hlist k l hv
      subst this
      simp only [k2.list]

/-- C80, exactly what later calls return: a new dict with what the dict of the first call holds at that moment, whatever callers have done to the
dicts and lists they were given.  So C80 fails exactly if that dict, or a list in it, was changed. -/
theorem c80_exact (f : Facts) {h1 : Heap} {c : Nat} (hf : getMeta .init f = (h1, .ok c)) (ops : List MetaOp) (g : Facts) :
    ∃ h2 d, getMeta (metaRun h1 ops) g = (h2, .ok d) ∧ content h2 d = content (metaRun h1 ops) c ∧
      (content h2 d = content h1 c ↔ content (metaRun h1 ops) c = content h1 c) := by
  have hc : h1.cache = some c := by
    unfold getMeta at hf
    simp only [Heap.init] at hf
    split at hf
    · injection hf with e1 e2
      injection e2 with e2
      subst e1; subst e2
      rfl
    · injection hf with _ e2
      exact nomatch e2
  have hk : (metaRun h1 ops).cache = some c := by
    clear hf
    induction ops generalizing h1 with
    | nil => exact hc
    | cons op ops ih =>
      refine ih ?_
      cases op with
      | get f => simp only [metaStep, getMeta, hc]
      | set d k v => exact hc
      | change l v => exact hc
  generalize metaRun h1 ops = h at hk
  have he : content { h with dicts := setAt h.dicts h.nDicts (h.dicts c), nDicts := h.nDicts + 1 } h.nDicts = content h c := by
    funext k
    simp only [content, setAt, if_true]
  refine ⟨_, _, by simp only [getMeta, hk], he, by rw [he]⟩

/-- C80 is false for the dict returned by the first call: it is the one that is kept. -/
theorem c80_first_false : ¬ ∀ (f : Facts) (ops : List MetaOp) (g : Facts) (h1 h2 : Heap) (c d : Nat), getMeta .init f = (h1, .ok c) →
    getMeta (metaRun h1 ops) g = (h2, .ok d) → content h2 d = content h1 c := by
  intro h
  have := congrFun (h exFacts [.set 0 kUname (some (.text []))] exFacts _ _ 0 1 rfl rfl) kUname
  revert this
  decide +kernel

/-- It is also false for every other, by way of the list of addresses. -/
theorem c80_list_false : ∃ (h1 h2 h3 : Heap) (d l : Nat), getMeta .init exFacts = (h1, .ok 0) ∧ getMeta h1 exFacts = (h2, .ok d) ∧ d ≠ 0 ∧
    h2.dicts d kIps = some (.list l) ∧ getMeta (metaStep h2 (.change l [])) exFacts = (h3, .ok 2) ∧
    content h3 2 kIps ≠ content h1 0 kIps := by
  refine ⟨_, _, _, 1, 0, rfl, rfl, by simp, ?_, rfl, ?_⟩ <;> decide +kernel

/-- A later dict may be changed without harm. -/
example : content (getMeta (metaRun (getMeta .init exFacts).1 [.get exFacts, .set 1 kUname none]) exFacts).1 2 kUname =
    some (.text "linux".toList) := by decide +kernel

/-! ### C81 -/

/-- C81: the tags are the words of the output, in their order, each cut to 25 characters. -/
theorem c81_words {text : Text} {words : List Text} (h : Laid text words) : tagsOf text = words.map (·.take 25) := by
  unfold tagsOf
  rw [laid_pieces h]
  exact List.map_congr_left (fun w hw => by rw [strip_word (laid_words h w hw).2])

/-- C81: every output has words. -/
theorem c81_all (text : Text) : ∃ words, Laid text words ∧ tagsOf text = words.map (·.take 25) := by
  obtain ⟨ws, h⟩ := laid_exists text
  exact ⟨ws, h, c81_words h⟩

/-- C81: the separators are the comma and the 29 characters that Unicode counts as white space. -/
theorem c81_separators (c : Char) : Separator c ↔ c = ',' ∨ c.toNat ∈ whiteSpace := by
  simp only [Separator, isSpaceC, whiteSpace, List.mem_cons, List.not_mem_nil, or_false, Bool.or_eq_true, Bool.and_eq_true, decide_eq_true_eq, beq_iff_eq]
  generalize c.toNat = n
  refine or_congr Iff.rfl ⟨fun h => ?_, fun h => ?_⟩ <;> omega

/-- C81: tags are well formed. -/
theorem c81_form (s : Script) {tags : List Text} (h : getTagList s = some tags) :
    ∀ t ∈ tags, t ≠ [] ∧ t.length ≤ 25 ∧ ∀ c ∈ t, ¬ Separator c := by
  intro t ht
  cases s with
  | missing => injection h with h; subst h; exact nomatch ht
  | osError => injection h with h; subst h; exact nomatch ht
  | failed => exact nomatch h
  | output data =>
    injection h with h
    subst h
    obtain ⟨ws, h1, h2⟩ := c81_all (utf8DecodeIgnore data)
    rw [h2, List.mem_map] at ht
    obtain ⟨w, hw, rfl⟩ := ht
    obtain ⟨g1, g2⟩ := laid_words h1 w hw
    refine ⟨?_, List.length_take_le _ _, fun c hc => g2 c (List.mem_of_mem_take hc)⟩
    cases w with
    | nil => exact absurd rfl g1
    | cons c w => simp

/-- C81: well formed tags with separators between them are read back unchanged. -/
theorem c81_round_trip {text : Text} {tags : List Text} (h : Laid text tags) (hl : ∀ t ∈ tags, t.length ≤ 25) :
    getTagList (.output (utf8Encode text)) = some tags := by
  have hd : utf8DecodeIgnore (utf8Encode text) = text := utf8DecodeIgnore_of_valid (utf8Decode_encode text)
  simp only [getTagList, hd, c81_words h]
  congr 1
  rw [List.map_congr_left (g := fun t => t) (fun t ht => List.take_of_length_le (hl t ht))]
  simp

/-- C81: no script, or one that can not be run, gives no tags; a failing one an error. -/
theorem c81_failures : getTagList .missing = some [] ∧ getTagList .osError = some [] ∧ getTagList .failed = none := ⟨rfl, rfl, rfl⟩

example : getTagList (.output (utf8Encode "a, bee\n\tcé,,0123456789012345678901234567 \n".toList)) =
    some ["a".toList, "bee".toList, "cé".toList, "0123456789012345678901234".toList] := by decide +kernel
/-- Bytes that are no UTF-8 are left out. -/
example : getTagList (.output [97, 255, 98, 0xe2, 0x82, 44, 99]) = some ["ab".toList, "c".toList] := by decide +kernel

/-! ### C82 -/

/-- C82, the part that holds: the value of the first line with the key is returned, if it is UTF-8. -/
theorem c82_first_partial (pre : List Bytes) (line : Bytes) (post : List Bytes) (last v : Bytes) (hn : ∀ l ∈ pre ++ line :: post, 10 ∉ l)
    (hlast : 10 ∉ last) (hpre : ∀ l ∈ pre, ∀ w, ¬ IsEntry l w) (hline : IsEntry line v) {text : Text} (ht : utf8Decode v = some text) :
    machineRevision (some (fileOf (pre ++ line :: post) last)) = .ok (some text) := by
  simp only [machineRevision, find_file _ last hn hlast]
  have h1 : pre.findSome? revisionIn = none := by
    rw [List.findSome?_eq_none_iff]
    intro l hl
    cases hr : revisionIn l with
    | none => rfl
    | some w => exact absurd ((revisionIn_iff l w).1 hr) (hpre l hl w)
  rw [List.append_assoc, List.findSome?_append, h1, Option.none_or]
  simp only [List.cons_append, List.findSome?_cons, (revisionIn_iff line v).2 hline, ht]

/-- C82: the same if the line is the last and has no newline. -/
theorem c82_last_partial (pre : List Bytes) (line v : Bytes) (hn : ∀ l ∈ pre, 10 ∉ l) (hl : 10 ∉ line)
    (hpre : ∀ l ∈ pre, ∀ w, ¬ IsEntry l w) (hline : IsEntry line v) {text : Text} (ht : utf8Decode v = some text) :
    machineRevision (some (fileOf pre line)) = .ok (some text) := by
  simp only [machineRevision, find_file _ line hn hl]
  have h1 : pre.findSome? revisionIn = none := by
    rw [List.findSome?_eq_none_iff]
    intro l hl
    cases hr : revisionIn l with
    | none => rfl
    | some w => exact absurd ((revisionIn_iff l w).1 hr) (hpre l hl w)
  rw [List.findSome?_append, h1, Option.none_or]
  simp only [List.findSome?_cons, (revisionIn_iff line v).2 hline, ht]

/-- C82: without such a line, or without file, the revision is `None`. -/
theorem c82_none (ls : List Bytes) (last : Bytes) (hn : ∀ l ∈ ls, 10 ∉ l) (hlast : 10 ∉ last) (h : ∀ l ∈ ls ++ [last], ∀ w, ¬ IsEntry l w) :
    machineRevision (some (fileOf ls last)) = .ok none ∧ machineRevision none = .ok none := by
  refine ⟨?_, rfl⟩
  simp only [machineRevision, find_file ls last hn hlast]
  have : (ls ++ [last]).findSome? revisionIn = none := by
    rw [List.findSome?_eq_none_iff]
    intro l hl
    cases hr : revisionIn l with
    | none => rfl
    | some w => exact absurd ((revisionIn_iff l w).1 hr) (h l hl w)
  rw [this]

/-- C82: every file has such lines. -/
theorem c82_all (data : Bytes) : ∃ ls last, data = fileOf ls last ∧ (∀ l ∈ ls, 10 ∉ l) ∧ 10 ∉ last := fileOf_exists data

/-- C82, exactly when there is an exception: the first line with the key has a value that is not UTF-8. -/
theorem c82_error_iff (ls : List Bytes) (last : Bytes) (hn : ∀ l ∈ ls, 10 ∉ l) (hlast : 10 ∉ last) :
    machineRevision (some (fileOf ls last)) = .error () ↔ ∃ pre line post v, ls ++ [last] = pre ++ line :: post ∧
      (∀ l ∈ pre, ∀ w, ¬ IsEntry l w) ∧ IsEntry line v ∧ utf8Decode v = none := by
  simp only [machineRevision, find_file ls last hn hlast]
  constructor
  · intro h
    cases hf : (ls ++ [last]).findSome? revisionIn with
    | none => rw [hf] at h; exact nomatch h
    | some v =>
      rw [hf] at h
      obtain ⟨pre, line, post, he, hv, hpre⟩ := List.findSome?_eq_some_iff.1 hf
      refine ⟨pre, line, post, v, he, ?_, (revisionIn_iff line v).1 hv, ?_⟩
      · intro l hl w hw
        have := hpre l hl
        rw [(revisionIn_iff l w).2 hw] at this
        exact nomatch this
      · cases hu : utf8Decode v with
        | none => rfl
        | some t => simp only [hu] at h; exact nomatch h
  · rintro ⟨pre, line, post, v, he, hpre, hline, hu⟩
    have h1 : pre.findSome? revisionIn = none := by
      rw [List.findSome?_eq_none_iff]
      intro l hl
      cases hr : revisionIn l with
      | none => rfl
      | some w => exact absurd ((revisionIn_iff l w).1 hr) (hpre l hl w)
    rw [he, List.findSome?_append, h1, Option.none_or]
    simp only [List.findSome?_cons, (revisionIn_iff line v).2 hline, hu]

/-- C82 is false for a revision that is not UTF-8: then there is an exception. -/
theorem c82_undecodable_false : machineRevision (some (asc "Revision: " ++ [255, 10])) = .error () := by decide +kernel

example : machineRevision (some (asc "processor\t: 0\nflags\n\nREVISION\t: A02082 \nrevision: 2\n")) = .ok (some "a02082".toList) := by
  decide +kernel
example : IsEntry (asc "REVISION\t: A02082 ") (asc "a02082") := (revisionIn_iff _ _).1 (by decide +kernel)
example : machineRevision (some (asc "processor\t: 0\nrevision x: 5")) = .ok none := by decide +kernel

/-! ### C83 -/

/-- C83, the part that holds: for interfaces with ASCII names, name and address of each are returned, in their order. -/
theorem c83_faithful_partial {size : Nat} (rs : List Record) (hv : ∀ r ∈ rs, r.Valid size) (rest : Bytes)
    (ha : ∀ r ∈ rs, ∀ b ∈ r.name, b.toNat < 128) :
    interfaces size (size * rs.length) ((rs.map Record.bytes).flatten ++ rest) =
      some (rs.map (fun r => (r.name.map (fun b => Char.ofNat b.toNat), r.address))) := by
  cases rs with
  | nil => simp [interfaces, interfacesF]
  | cons r0 rs0 =>
    have hs : 0 < size := by
      have := (hv r0 (by simp)).2.2.2
      omega
    have hf : (r0 :: rs0).length ≤ size * (r0 :: rs0).length := Nat.le_mul_of_pos_left _ hs
    unfold interfaces
    rw [interfacesF_eq hs (r0 :: rs0) hv rest _ (by omega)]
    congr 1
    refine List.map_congr_left (fun r hr => ?_)
    congr 1
    refine List.map_congr_left (fun b hb => ?_)
    simp [asciiReplace, ha r hr b hb]

/-- C83: the addresses are right whatever the names are. -/
theorem c83_addresses {size : Nat} (rs : List Record) (hv : ∀ r ∈ rs, r.Valid size) (rest : Bytes) :
    (interfaces size (size * rs.length) ((rs.map Record.bytes).flatten ++ rest)).map (fun l => l.map (·.2)) = some (rs.map Record.address) := by
  cases rs with
  | nil => simp [interfaces, interfacesF]
  | cons r0 rs0 =>
    have hs : 0 < size := by
      have := (hv r0 (by simp)).2.2.2
      omega
    have hf : (r0 :: rs0).length ≤ size * (r0 :: rs0).length := Nat.le_mul_of_pos_left _ hs
    unfold interfaces
    rw [interfacesF_eq hs (r0 :: rs0) hv rest _ (by omega)]
    simp

theorem asciiReplace_same (b b' : UInt8) : asciiReplace b = asciiReplace b' ↔ (b.toNat < 128 ∨ b'.toNat < 128 → b = b') := by
  have small : ∀ {n : Nat}, n < 128 → (Char.ofNat n).toNat = n := by
    intro n h
    have : n.isValidChar := .inl (by omega)
    simp [Char.ofNat, this, Char.ofNatAux, Char.toNat]
  have big : (Char.ofNat 0xfffd).toNat = 0xfffd := by decide
  constructor
  · intro h hb
    unfold asciiReplace at h
    have h := congrArg Char.toNat h
    split at h <;> split at h
    · rename_i h1 h2
      rw [small h1, small h2] at h
      exact UInt8.toNat.inj h
    · rename_i h1 h2
      rw [small h1, big] at h
      omega
    · rename_i h1 h2
      rw [small h2, big] at h
      omega
    · rename_i h1 h2
      omega
  · intro h
    by_cases hb : b.toNat < 128 ∨ b'.toNat < 128
    · rw [h hb]
    · unfold asciiReplace
      rw [if_neg (fun h => hb (.inl h)), if_neg (fun h => hb (.inr h))]

/-- C83: exactly which names come out the same: those of equal length that agree where one of them is ASCII. -/
theorem c83_same_iff {size : Nat} (r r' : Record) (hv : r.Valid size) (hv' : r'.Valid size) :
    (interface r.bytes).map (·.1) = (interface r'.bytes).map (·.1) ↔
      r.name.length = r'.name.length ∧ ∀ (i : Nat) (b b' : UInt8), r.name[i]? = some b → r'.name[i]? = some b' → b.toNat < 128 ∨ b'.toNat < 128 → b = b' := by
  rw [interface_eq hv, interface_eq hv']
  simp only [Option.map_some, Option.some.injEq]
  constructor
  · intro h
    have hl : r.name.length = r'.name.length := by
      have := congrArg List.length h
      simpa using this
    refine ⟨hl, fun i b b' h1 h2 => ?_⟩
    have h3 := congrArg (·[i]?) h
    simp only [List.getElem?_map, h1, h2, Option.map_some, Option.some.injEq] at h3
    exact (asciiReplace_same b b').1 h3
  · rintro ⟨hl, h⟩
    refine List.ext_getElem? fun i => ?_
    rw [List.getElem?_map, List.getElem?_map]
    cases h1 : r.name[i]? with
    | none =>
      rw [List.getElem?_eq_none_iff] at h1
      rw [List.getElem?_eq_none (by omega)]
    | some b =>
      have hi : i < r'.name.length := by
        rw [← hl]
        exact (List.getElem?_eq_some_iff.1 h1).1
      rw [List.getElem?_eq_getElem hi]
      simp only [Option.map_some, Option.some.injEq]
      exact (asciiReplace_same b _).2 (h i b _ h1 (List.getElem?_eq_getElem hi))

/-- C83 is false for other names: two interfaces may come out with the same name. -/
theorem c83_names_false : ∃ r r' : Record, r.Valid 40 ∧ r'.Valid 40 ∧ r.name ≠ r'.name ∧
    (interface r.bytes).map (·.1) = (interface r'.bytes).map (·.1) := by
  refine ⟨⟨[200], [2, 0, 0, 0], 10, 0, 0, 1, List.replicate 16 0⟩, ⟨[201], [2, 0, 0, 0], 10, 0, 0, 1, List.replicate 16 0⟩, ?_, ?_, ?_, ?_⟩
  · exact ⟨by decide, by decide, rfl, rfl⟩
  · exact ⟨by decide, by decide, rfl, rfl⟩
  · decide
  · decide +kernel

example : interfaces 32 64 (asc "lo" ++ List.replicate 14 0 ++ [2, 0, 0, 0, 127, 0, 0, 1] ++ List.replicate 8 0 ++
    asc "eth0" ++ List.replicate 12 0 ++ [2, 0, 0, 0, 192, 168, 33, 10] ++ List.replicate 8 0 ++ List.replicate 100 0) =
    some [("lo".toList, "127.0.0.1".toList), ("eth0".toList, "192.168.33.10".toList)] := by decide +kernel

/-! ### C84 -/

/-- C84: the limit is the integer in the variable, or the default. -/
theorem c84_value (intOf : Text → Option Int) (var : Option Text) (default : Int) :
    (∀ t n, var = some t → intOf t = some n → environInt intOf var default = n) ∧
    (∀ t, var = some t → intOf t = none → environInt intOf var default = default) ∧ (var = none → environInt intOf var default = default) := by
  refine ⟨?_, ?_, ?_⟩
  · rintro t n rfl h; simp [environInt, h]
  · rintro t rfl h; simp [environInt, h]
  · rintro rfl; rfl

/-- C84, the part that holds: the agent starts unless the variable holds zero or a negative number. -/
theorem c84_starts_partial (intOf : Text → Option Int) (var : Option Text) (default : Int) (hd : 0 < default)
    (h : ∀ t n, var = some t → intOf t = some n → 0 < n) : startWith (environInt intOf var default) = some (environInt intOf var default) := by
  have hpos : 0 < environInt intOf var default := by
    cases var with
    | none => exact hd
    | some t =>
      cases hi : intOf t with
      | none => simpa [environInt, hi] using hd
      | some n => simpa [environInt, hi] using h t n rfl hi
  simp [startWith, hpos]

/-- C84, exactly when the agent starts. -/
theorem c84_starts_iff (intOf : Text → Option Int) (var : Option Text) (default : Int) (hd : 0 < default) :
    startWith (environInt intOf var default) ≠ none ↔ ∀ t n, var = some t → intOf t = some n → 0 < n := by
  constructor
  · rintro h t n rfl hi
    apply Classical.byContradiction
    intro hn
    exact h (by simp only [environInt, hi, Option.getD_some, startWith, hn, if_false])
  · intro h
    rw [c84_starts_partial intOf var default hd h]
    exact fun h => nomatch h

/-- C84 is false for zero and negative numbers: the agent does not start. -/
theorem c84_zero_false (intOf : Text → Option Int) (t : Text) (n default : Int) (h : intOf t = some n) (hn : n ≤ 0) :
    startWith (environInt intOf (some t) default) = none := by
  simp [environInt, h, startWith]
  omega

example : startWith (environInt (fun t => pyInt (utf8Encode t)) (some " 1_0 ".toList) 500) = some 10 := by decide +kernel
example : startWith (environInt (fun t => pyInt (utf8Encode t)) (some "ten".toList) 500) = some 500 := by decide +kernel
example : startWith (environInt (fun t => pyInt (utf8Encode t)) (some "0".toList) 500) = none := by decide +kernel

/-! ### C85 -/

/-- C85: used space and space free for root add up to the total. -/
theorem c85_sum (rnd rnd1 : Rat → Rat) (st : Stat) :
    (diskUsage rnd rnd1 st).2.1 + st.bfree * st.frsize = (diskUsage rnd rnd1 st).1 ∧ (diskUsage rnd rnd1 st).1 = st.blocks * st.frsize ∧
    (diskUsage rnd rnd1 st).2.2.1 = st.bavail * st.frsize := by
  simp only [diskUsage, and_true]
  omega

/-- C85: the used space is between nothing and all, if no more blocks are free than there are. -/
theorem c85_used (rnd rnd1 : Rat → Rat) (st : Stat) (h : st.bfree ≤ st.blocks) :
    0 ≤ (diskUsage rnd rnd1 st).2.1 ∧ (diskUsage rnd rnd1 st).2.1 ≤ (diskUsage rnd rnd1 st).1 := by
  have h1 : st.bfree * st.frsize ≤ st.blocks * st.frsize := Nat.mul_le_mul_right _ h
  simp only [diskUsage]
  have h2 : ((st.bfree * st.frsize : Nat) : Int) ≤ ((st.blocks * st.frsize : Nat) : Int) := Int.ofNat_le.2 h1
  simp only [Int.natCast_mul] at h2
  have h3 : (0 : Int) ≤ (st.bfree : Int) * (st.frsize : Int) := Int.mul_nonneg (Int.natCast_nonneg _) (Int.natCast_nonneg _)
  omega

/-- C85: the percentage is between 0 and 100, for any roundings that keep the order and the numbers 0, 1 and 100. -/
theorem c85_percent (rnd rnd1 : Rat → Rat) (hm : ∀ x y, x ≤ y → rnd x ≤ rnd y) (hm1 : ∀ x y, x ≤ y → rnd1 x ≤ rnd1 y)
    (h0 : rnd 0 = 0) (h1 : rnd 1 = 1) (h100 : rnd 100 = 100) (g0 : rnd1 0 = 0) (g100 : rnd1 100 = 100) (st : Stat)
    (h : st.bfree ≤ st.blocks) : 0 ≤ (diskUsage rnd rnd1 st).2.2.2 ∧ (diskUsage rnd rnd1 st).2.2.2 ≤ 100 := by
  have hu := (c85_used rnd rnd1 st h).1
  simp only [diskUsage] at hu ⊢
  generalize hU : (st.blocks : Int) * st.frsize - st.bfree * st.frsize = used at hu
  have hA : (0 : Int) ≤ (st.bavail : Int) * st.frsize := Int.mul_nonneg (Int.natCast_nonneg _) (Int.natCast_nonneg _)
  generalize (st.bavail : Int) * st.frsize = avail at hA
  unfold usagePercent
  split
  · rw [g0]; exact ⟨Rat.le_refl, by decide⟩
  · rename_i hne
    have hpos : 0 < used + avail := by omega
    have hposQ : (0 : Rat) < ((used + avail : Int) : Rat) := by exact_mod_cast hpos
    have huQ : (0 : Rat) ≤ (used : Rat) := by exact_mod_cast hu
    have hleQ : (used : Rat) ≤ ((used + avail : Int) : Rat) := by
      have : used ≤ used + avail := by omega
      exact_mod_cast this
    have q0 : (0 : Rat) ≤ (used : Rat) / ((used + avail : Int) : Rat) := by
      refine Rat.not_lt.1 (fun h => ?_)
      rw [Rat.div_lt_iff hposQ] at h
      grind
    have q1 : (used : Rat) / ((used + avail : Int) : Rat) ≤ 1 := by
      refine Rat.not_lt.1 (fun h => ?_)
      rw [Rat.lt_div_iff hposQ] at h
      grind
    generalize (used : Rat) / ((used + avail : Int) : Rat) = q at q0 q1
    have r0 := hm _ _ q0
    have r1 := hm _ _ q1
    rw [h0] at r0
    rw [h1] at r1
    have s0 : (0 : Rat) ≤ rnd q * 100 := by grind
    have s1 : rnd q * 100 ≤ 100 := by grind
    have t0 := hm _ _ s0
    have t1 := hm _ _ s1
    rw [h0] at t0
    rw [h100] at t1
    have u0 := hm1 _ _ t0
    have u1 := hm1 _ _ t1
    rw [g0] at u0
    rw [g100] at u1
    exact ⟨u0, u1⟩

example : diskUsage (fun x => x) (fun x => x) ⟨1000, 250, 200, 4096⟩ = (4096000, 3072000, 819200, 1500 / 19) := by decide +kernel
/-- An empty file system. -/
example : diskUsage (fun x => x) (fun x => x) ⟨0, 0, 0, 4096⟩ = (0, 0, 0, 0) := by decide +kernel

/-! ### C86 -/

/-- C86: the process is killed exactly if more than 180 seconds passed in a round that was made. -/
theorem c86_killed_iff (rounds : List (Bool × Int × Int)) :
    clockLoop rounds = true ↔ ∃ pre start now post, rounds = pre ++ (true, start, now) :: post ∧ (∀ r ∈ pre, r.1 = true) ∧
      now - start > 180 * 1000000 := by
  induction rounds with
  | nil => simp [clockLoop]
  | cons r rounds ih =>
    obtain ⟨running, start, now⟩ := r
    cases running with
    | false =>
      simp only [clockLoop, Bool.false_eq_true, if_false, false_iff]
      rintro ⟨pre, s, n, post, h1, h2, h3⟩
      cases pre with
      | nil => simp at h1
      | cons x pre =>
        simp only [List.cons_append, List.cons.injEq] at h1
        have := h2 x (by simp)
        rw [← h1.1] at this
        exact nomatch this
    | true =>
      simp only [clockLoop, if_true]
      by_cases hd : now - start > maxDiscrepancy
      · simp only [if_pos hd, true_iff]
        exact ⟨[], start, now, rounds, rfl, by simp, hd⟩
      · rw [if_neg hd, ih]
        constructor
        · rintro ⟨pre, s, n, post, h1, h2, h3⟩
          refine ⟨(true, start, now) :: pre, s, n, post, by rw [h1]; rfl, ?_, h3⟩
          rw [List.forall_mem_cons]
          exact ⟨rfl, h2⟩
        · rintro ⟨pre, s, n, post, h1, h2, h3⟩
          cases pre with
          | nil =>
            simp only [List.nil_append, List.cons.injEq, Prod.mk.injEq] at h1
            obtain ⟨⟨_, rfl, rfl⟩, _⟩ := h1
            exact absurd h3 hd
          | cons x pre =>
            simp only [List.cons_append, List.cons.injEq] at h1
            rw [List.forall_mem_cons] at h2
            exact ⟨pre, s, n, post, h1.2, h2.2, h3⟩

example : clockLoop [(true, 0, 1000000), (true, 1000000, 182000000)] = true := by decide
example : clockLoop [(true, 0, 180000000), (true, 500000000, 1000000), (false, 0, 999000000), (true, 0, 999000000)] = false := by decide

/-! ### C95 -/

/-- C95, the part that holds: if the system files are UTF-8 as far as they are read, the first call returns all six items. -/
theorem c95_available_partial (cpuinfo model : Option Bytes) (version os uname : Text) (ips : Option (List Text)) {rev : Option Text} {name : Text}
    (hc : machineRevision cpuinfo = .ok rev) (hm : modelName model = .ok name) :
    ∃ h c, getMeta .init ⟨version, machineRevision cpuinfo, modelName model, os, uname, ips⟩ = (h, .ok c) ∧
      content h c "agent_version".toList = some (.text version) ∧
      content h c "machine_revision".toList = some (match rev with | some t => .text t | none => .none) ∧
      content h c "model_name".toList = some (.text name) ∧ content h c "os_version".toList = some (.text os) ∧
      content h c "uname".toList = some (.text uname) ∧ content h c "ip_list".toList = some (.list (ips.getD [])) := by
  refine ⟨_, 0, by simp only [getMeta, Heap.init, hc, hm]; rfl, rfl, ?_, rfl, rfl, rfl, rfl⟩
  cases rev <;> rfl

/-- C95, exactly when the first call fails: the revision is not UTF-8 (see `c82_error_iff`) or the model name is not. -/
theorem c95_fails_iff (cpuinfo model : Option Bytes) (version os uname : Text) (ips : Option (List Text)) :
    (getMeta .init ⟨version, machineRevision cpuinfo, modelName model, os, uname, ips⟩).2 = .error () ↔
      machineRevision cpuinfo = .error () ∨ ∃ d, model = some d ∧ utf8Decode d = none := by
  have hm : modelName model = .error () ↔ ∃ d, model = some d ∧ utf8Decode d = none := by
    cases model with
    | none => exact ⟨fun h => (nomatch h), fun ⟨_, h, _⟩ => (nomatch h)⟩
    | some d =>
      simp only [modelName]
      cases hu : utf8Decode d with
      | none => exact ⟨fun _ => ⟨d, rfl, hu⟩, fun _ => rfl⟩
      | some t =>
        refine ⟨fun h => (nomatch h), ?_⟩
        rintro ⟨d', hd, hu'⟩
        injection hd with hd
        rw [← hd, hu] at hu'
        exact nomatch hu'
  rw [← hm]
  cases hc : machineRevision cpuinfo with
  | error e => exact ⟨fun _ => .inl rfl, fun _ => rfl⟩
  | ok rev =>
    cases hn : modelName model with
    | error e => exact ⟨fun _ => .inr rfl, fun _ => rfl⟩
    | ok name => exact ⟨fun h => (nomatch h), fun h => by rcases h with h | h <;> exact nomatch h⟩

/-- C95 is false otherwise: an undecodable revision or model name makes the whole call fail. -/
theorem c95_false : (getMeta .init ⟨[], machineRevision (some (asc "revision:" ++ [200])), .ok [], [], [], none⟩).2 = .error () ∧
    (getMeta .init ⟨[], .ok none, modelName (some [200]), [], [], none⟩).2 = .error () := by
  constructor
  · have : machineRevision (some (asc "revision:" ++ [200])) = .error () := by decide +kernel
    simp only [this]; rfl
  · have : modelName (some [200]) = .error () := by decide +kernel
    simp only [this]; rfl

end Verif.Device
