import Verif.Proofs.Bencode
/-! Further lemmas for the bencode properties: canonicity (C02), clean results (C07), divergence (C05). -/
namespace Verif.Bencode
open Verif

/-! ### Canonicity -/

mutual
theorem same_supported {v w : PyVal} (h : Same v w) : Supported v ∧ Supported w := by
  match h with
  | .bytes b => exact ⟨.bytes b, .bytes b⟩
  | .text s => exact ⟨.text s, .bytes _⟩
  | .int i => exact ⟨.int i, .int i⟩
  | .list h => exact ⟨.list (sameL_supported h).1, .list (sameL_supported h).2⟩
  | .tuple h => exact ⟨.tuple (sameL_supported h).1, .list (sameL_supported h).2⟩
  | .dict h hp => exact ⟨.dict (sameI_supported h).1, .dict (supportedItems_perm hp (sameI_supported h).2)⟩
theorem sameL_supported {v w : List PyVal} (h : SameList v w) : SupportedList v ∧ SupportedList w := by
  match h with
  | .nil => exact ⟨.nil, .nil⟩
  | .cons h1 h2 =>
    exact ⟨.cons (same_supported h1).1 (sameL_supported h2).1, .cons (same_supported h1).2 (sameL_supported h2).2⟩
theorem sameI_supported {v w : List (PyVal × PyVal)} (h : SameItems v w) : SupportedItems v ∧ SupportedItems w := by
  match h with
  | .nil => exact ⟨.nil, .nil⟩
  | .cons h1 h2 =>
    exact ⟨.cons (same_supported h1).1 (sameI_supported h2).1, .cons (same_supported h1).2 (sameI_supported h2).2⟩
theorem supportedItems_perm {v w : List (PyVal × PyVal)} (hp : v.Perm w) (h : SupportedItems v) : SupportedItems w := by
  induction hp with
  | nil => exact .nil
  | cons x _ ih => cases h with | cons h1 h2 => exact .cons h1 (ih h2)
  | swap x y l => cases h with | cons h1 h2 => cases h2 with | cons h3 h4 => exact .cons h3 (.cons h1 h4)
  | trans _ _ ih1 ih2 => exact ih2 (ih1 h)
end

theorem items_cons {kv : PyVal × PyVal} {r es} (h : addEncodeItems (kv :: r) = some es) :
    ∃ k e es', kv.1 = .bytes k ∧ addEncode kv.2 = some e ∧ addEncodeItems r = some es' ∧ es = (k, e) :: es' := by
  obtain ⟨k, v⟩ := kv
  cases k <;> simp only [addEncodeItems, Option.bind_eq_bind, Option.bind_eq_some_iff, Option.pure_def, Option.some.injEq] at h
  case bytes k =>
    obtain ⟨e, he, es', hes, rfl⟩ := h
    exact ⟨k, e, es', rfl, he, hes, rfl⟩
  all_goals simp at h

theorem items_cons_intro {k : Bytes} {v : PyVal} {r e es} (h1 : addEncode v = some e) (h2 : addEncodeItems r = some es) :
    addEncodeItems ((.bytes k, v) :: r) = some ((k, e) :: es) := by
  simp [addEncodeItems, h1, h2]

theorem items_perm {l m : List (PyVal × PyVal)} (hp : l.Perm m) : ∀ {es}, addEncodeItems l = some es →
    ∃ es', addEncodeItems m = some es' ∧ es.Perm es' := by
  induction hp with
  | nil => intro es h; exact ⟨es, h, List.Perm.refl _⟩
  | cons x _ ih =>
    intro es h
    obtain ⟨k, v⟩ := x
    obtain ⟨k, e, es', rfl, he, hes, rfl⟩ := items_cons h
    obtain ⟨fs, hf, hp⟩ := ih hes
    exact ⟨(k, e) :: fs, items_cons_intro he hf, hp.cons _⟩
  | swap x y l =>
    intro es h
    obtain ⟨k, v⟩ := x; obtain ⟨k', v'⟩ := y
    obtain ⟨k, e, es', rfl, he, hes, rfl⟩ := items_cons h
    obtain ⟨k', e', es'', rfl, he', hes', rfl⟩ := items_cons hes
    exact ⟨_, items_cons_intro he' (items_cons_intro he hes'), List.Perm.swap _ _ _⟩
  | trans _ _ ih1 ih2 =>
    intro es h
    obtain ⟨es', h1, p1⟩ := ih1 h
    obtain ⟨es'', h2, p2⟩ := ih2 h1
    exact ⟨es'', h2, p1.trans p2⟩

theorem items_keys {kvs : List (PyVal × PyVal)} {es} (h : addEncodeItems kvs = some es) :
    kvs.map (·.1) = (es.map (·.1)).map PyVal.bytes := by
  induction kvs generalizing es with
  | nil => simp only [addEncodeItems, Option.some.injEq] at h; subst h; rfl
  | cons kv r ih =>
    obtain ⟨k, v⟩ := kv
    obtain ⟨k, e, es', rfl, he, hes, rfl⟩ := items_cons h
    simp [ih hes]

mutual
theorem same_encode {v w : PyVal} (h : Same v w) (hw : WF v) : addEncode v = addEncode w := by
  match h with
  | .bytes b => rfl
  | .text s => rfl
  | .int i => rfl
  | .list h => cases hw with | list hl => simp only [addEncode, sameL_encode h hl]
  | .tuple h => cases hw with | tuple hl => simp only [addEncode, sameL_encode h hl]
  | .dict (kvs := kvs) (kws := kws) (kws' := kws') h hp =>
    cases hw with
    | dict hi hn =>
      have h1 := sameI_encode h hi
      obtain ⟨es, hes⟩ := addEncodeItems_supported (sameI_supported h).2
      obtain ⟨fs, hfs, hpp⟩ := items_perm hp hes
      rw [hes] at h1
      have hk := items_keys h1
      rw [hk, nodup_map_bytes] at hn
      simp only [addEncode, h1, hfs, Option.map_some, sortItems_eq_of_perm hpp hn]
theorem sameL_encode {v w : List PyVal} (h : SameList v w) (hw : WFList v) : addEncodeList v = addEncodeList w := by
  match h with
  | .nil => rfl
  | .cons h1 h2 => cases hw with | cons hx hxs => simp only [addEncodeList, same_encode h1 hx, sameL_encode h2 hxs]
theorem sameI_encode {v w : List (PyVal × PyVal)} (h : SameItems v w) (hw : WFItems v) : addEncodeItems v = addEncodeItems w := by
  match h with
  | .nil => rfl
  | .cons h1 h2 => cases hw with | cons hk hx hxs => simp only [addEncodeItems, same_encode h1 hx, sameI_encode h2 hxs]
end

/-! ### Clean results -/

theorem isNone_iff {v : PyVal} : isNone v = true ↔ v = .none := by cases v <;> simp [isNone]

theorem cleanList_append {xs x} (h : CleanList xs) (hx : Clean x) (hn : x ≠ .none) : CleanList (xs ++ [x]) := by
  match xs, h with
  | [], _ => exact .cons hx hn .nil
  | y :: ys, .cons h1 h2 h3 => exact .cons h1 h2 (cleanList_append h3 hx hn)

theorem wfList_append {xs x} (h : WFList xs) (hx : WF x) : WFList (xs ++ [x]) := by
  match xs, h with
  | [], _ => exact .cons hx .nil
  | y :: ys, .cons h1 h3 => exact .cons h1 (wfList_append h3 hx)

/-- A dict under construction. -/
structure DictOK (d : List (PyVal × PyVal)) : Prop where
  clean : CleanItems d
  wf : WFItems d
  nodup : (d.map (·.1)).Nodup

theorem dictSet_keys {k v d} (x : PyVal) : x ∈ (dictSet k v d).map (·.1) → x = k ∨ x ∈ d.map (·.1) := by
  induction d with
  | nil => intro h; simp [dictSet] at h; exact .inl h
  | cons p d ih =>
    obtain ⟨k', v'⟩ := p
    simp only [dictSet]
    split
    · intro h; exact .inr h
    · intro h
      simp only [List.map_cons, List.mem_cons] at h ⊢
      rcases h with h | h
      · exact .inr (.inl h)
      · rcases ih h with h | h
        · exact .inl h
        · exact .inr (.inr h)

theorem dictSet_ok {k v : PyVal} {d} (hd : DictOK d) (hk : (∃ b, k = .bytes b) ∨ ∃ i, k = .int i) (hkw : WF k)
    (hv : Clean v) (hvw : WF v) : DictOK (dictSet k v d) := by
  obtain ⟨hc, hw, hn⟩ := hd
  induction d with
  | nil =>
    refine ⟨?_, .cons hkw hvw .nil, by simp [dictSet]⟩
    rcases hk with ⟨b, rfl⟩ | ⟨i, rfl⟩
    · exact .bytesKey hv .nil
    · exact .intKey hv .nil
  | cons p d ih =>
    obtain ⟨k', v'⟩ := p
    have hw1 : WF k' ∧ WF v' ∧ WFItems d := by cases hw with | cons h1 h2 h3 => exact ⟨h1, h2, h3⟩
    have hc1 : ((∃ b, k' = .bytes b) ∨ ∃ i, k' = .int i) ∧ Clean v' ∧ CleanItems d := by
      cases hc with
      | bytesKey h1 h2 => exact ⟨.inl ⟨_, rfl⟩, h1, h2⟩
      | intKey h1 h2 => exact ⟨.inr ⟨_, rfl⟩, h1, h2⟩
    simp only [List.map_cons, List.nodup_cons] at hn
    have mk : ∀ {x : PyVal} {dd}, Clean x → CleanItems dd → CleanItems ((k', x) :: dd) := by
      intro x dd hx hdd
      rcases hc1.1 with ⟨b, rfl⟩ | ⟨i, rfl⟩
      · exact .bytesKey hx hdd
      · exact .intKey hx hdd
    simp only [dictSet]
    split
    · exact ⟨mk hv hc1.2.2, .cons hw1.1 hvw hw1.2.2, by simpa using hn⟩
    · rename_i hke
      obtain ⟨i1, i2, i3⟩ := ih hc1.2.2 hw1.2.2 hn.2
      refine ⟨mk hc1.2.1 i1, .cons hw1.1 hw1.2.1 i2, ?_⟩
      simp only [List.map_cons, List.nodup_cons]
      refine ⟨?_, i3⟩
      intro hm
      rcases dictSet_keys _ hm with h | h
      · subst h
        rcases hk with ⟨b, rfl⟩ | ⟨i, rfl⟩ <;> simp [keyEq] at hke
      · exact hn.1 h

theorem mkDict_ok {kv d} (h : mkDict kv = some d) (hc : ∀ p ∈ kv, Clean p.1 ∧ p.1 ≠ .none ∧ WF p.1 ∧ Clean p.2 ∧ WF p.2) : DictOK d := by
  simp only [mkDict] at h
  split at h
  · rename_i hh
    simp only [Option.some.injEq] at h
    subst h
    have key : ∀ p ∈ kv, (∃ b, p.1 = .bytes b) ∨ ∃ i, p.1 = .int i := by
      intro p hp
      have h1 := (List.all_eq_true.1 hh) p hp
      have h2 := hc p hp
      cases hx : p.1 with
      | none => exact absurd hx h2.2.1
      | bytes b => exact .inl ⟨b, rfl⟩
      | int i => exact .inr ⟨i, rfl⟩
      | list l => rw [hx] at h1; simp [hashable] at h1
      | dict l => rw [hx] at h1; simp [hashable] at h1
      | bool => rw [hx] at h2; cases h2.1
      | float => rw [hx] at h2; cases h2.1
      | text => rw [hx] at h2; cases h2.1
      | tuple => rw [hx] at h2; cases h2.1
    clear hh
    have : ∀ d0, DictOK d0 → DictOK (kv.foldl (fun d p => dictSet p.1 p.2 d) d0) := by
      induction kv with
      | nil => intro d0 h0; exact h0
      | cons p kv ih =>
        intro d0 h0
        have hp := hc p (by simp)
        exact ih (fun q hq => hc q (by simp [hq])) (fun q hq => key q (by simp [hq])) _
          (dictSet_ok h0 (key p (by simp)) hp.2.2.1 hp.2.2.2.1 hp.2.2.2.2)
    exact this [] ⟨.nil, .nil, by simp⟩
  · simp at h

theorem readN_clean {size inp v r} (hl : inp.length ≤ maxSize) (h : readN size inp = .ok v r) : Clean v ∧ WF v := by
  simp only [readN] at h
  split at h
  · simp at h
  · split at h
    · simp only [DRes.ok.injEq] at h; obtain ⟨rfl, _⟩ := h; exact ⟨.bytes _, .bytes hl⟩
    · simp only [DRes.ok.injEq] at h; obtain ⟨rfl, _⟩ := h
      exact ⟨.bytes _, .bytes (by simp only [List.length_take]; omega)⟩

theorem sizeLoop_clean {n acc inp v r} (hl : inp.length ≤ maxSize) (h : sizeLoop n acc inp = .ok v r) : Clean v ∧ WF v := by
  induction n generalizing acc inp with
  | zero => simp [sizeLoop] at h
  | succ n ih =>
    cases inp with
    | nil => rw [sizeLoop_nil] at h; simp at h
    | cons c inp =>
      simp only [List.length_cons] at hl
      simp only [sizeLoop] at h
      split at h
      · split at h
        · exact readN_clean (by omega) h
        · simp at h
      · exact ih (by omega) h

theorem clean_result (n : Nat) :
    (∀ inp v r, inp.length ≤ maxSize → decodeF n inp = .ok v r → Clean v ∧ WF v) ∧
    (∀ acc inp v r, inp.length ≤ maxSize → CleanList acc → WFList acc → listLoop n acc inp = .ok v r → Clean v ∧ WF v) ∧
    (∀ acc inp v r, inp.length ≤ maxSize → (∀ p ∈ acc, Clean p.1 ∧ p.1 ≠ .none ∧ WF p.1 ∧ Clean p.2 ∧ WF p.2) →
      dictLoop n acc inp = .ok v r → Clean v ∧ WF v) := by
  induction n with
  | zero => simp [decodeF, listLoop, dictLoop]
  | succ n ih =>
    obtain ⟨ih1, ih2, ih3⟩ := ih
    refine ⟨?_, ?_, ?_⟩
    · intro inp v r hl h
      cases inp with
      | nil => simp [decodeF] at h
      | cons t inp =>
        simp only [List.length_cons] at hl
        simp only [decodeF] at h
        split at h
        · simp only [DRes.ok.injEq] at h; obtain ⟨rfl, _⟩ := h; exact ⟨.none, .none⟩
        · split at h
          · obtain ⟨i, rfl⟩ := readInt_int h; exact ⟨.int i, .int i⟩
          · split at h
            · exact ih2 [] _ _ _ (by omega) .nil .nil h
            · split at h
              · exact ih3 [] _ _ _ (by omega) (by simp) h
              · exact sizeLoop_clean (by omega) h
    · intro acc inp v r hl hc hw h
      simp only [listLoop] at h
      split at h
      · rename_i v' r' hd
        have hv := ih1 _ _ _ hl hd
        have := (consumes n).1 _ _ _ hd
        split at h
        · simp only [DRes.ok.injEq] at h; obtain ⟨rfl, _⟩ := h; exact ⟨.list hc, .list hw⟩
        · rename_i hn
          refine ih2 _ _ _ _ (by omega) (cleanList_append hc hv.1 ?_) (wfList_append hw hv.2) h
          intro he; exact hn (isNone_iff.2 he)
      · simp at h
      · simp at h
    · intro acc inp v r hl hc h
      simp only [dictLoop] at h
      split at h
      · rename_i v' r' hd
        have hv := ih1 _ _ _ hl hd
        have := (consumes n).1 _ _ _ hd
        split at h
        · split at h
          · rename_i d hmk
            simp only [DRes.ok.injEq] at h; obtain ⟨rfl, _⟩ := h
            have := mkDict_ok hmk hc
            exact ⟨.dict this.clean, .dict this.wf this.nodup⟩
          · simp at h
        · rename_i hn
          split at h
          · rename_i v2 r2 hd2
            have hv2 := ih1 _ _ _ (by omega) hd2
            have := (consumes n).1 _ _ _ hd2
            refine ih3 _ _ _ _ (by omega) ?_ h
            intro p hp
            rcases List.mem_append.1 hp with hp | hp
            · exact hc p hp
            · simp only [List.mem_singleton] at hp; subst hp
              exact ⟨hv.1, fun he => hn (isNone_iff.2 he), hv.2, hv2.1, hv2.2⟩
          · simp at h
          · simp at h
      · simp at h
      · simp at h

/-! ### Divergence -/

/-- A byte that starts a string length: anything but `e`, `i`, `l`, `d`. -/
def startsLength (t : UInt8) : Prop := t ≠ 101 ∧ t ≠ 105 ∧ t ≠ 108 ∧ t ≠ 100

/-- The reader consumes a value from `inp` and leaves `r`. -/
def Reads (inp : Bytes) (v : PyVal) (r : Bytes) : Prop := ∃ n, decodeF n inp = .ok v r

mutual
/-- The reader comes to a string length after which there is no `:` any more. -/
inductive Stuck : Bytes → Prop where
  | length {t rest} : startsLength t → 58 ∉ rest → Stuck (t :: rest)
  | list {r} : StuckInList r → Stuck (108 :: r)
  | dict {r} : StuckInDict r → Stuck (100 :: r)
/-- ... inside a list. -/
inductive StuckInList : Bytes → Prop where
  | here {inp} : Stuck inp → StuckInList inp
  | later {inp v r} : Reads inp v r → v ≠ .none → StuckInList r → StuckInList inp
/-- ... inside a dict. -/
inductive StuckInDict : Bytes → Prop where
  | key {inp} : Stuck inp → StuckInDict inp
  | value {inp k r} : Reads inp k r → k ≠ .none → Stuck r → StuckInDict inp
  | later {inp k v r r'} : Reads inp k r → k ≠ .none → Reads r v r' → StuckInDict r' → StuckInDict inp
end

theorem sizeLoop_no_colon {n acc inp} (h : (58 : UInt8) ∉ inp) : sizeLoop n acc inp = .out := by
  induction n generalizing acc inp with
  | zero => rfl
  | succ n ih =>
    cases inp with
    | nil => exact sizeLoop_nil _ _
    | cons c inp =>
      simp only [List.mem_cons, not_or] at h
      simp only [sizeLoop]
      rw [if_neg (by simpa using fun hc => h.1 hc.symm)]
      exact ih h.2

theorem sizeLoop_colon {n acc inp} (h : (58 : UInt8) ∈ inp) (hn : inp.length ≤ n) : sizeLoop n acc inp ≠ .out := by
  induction n generalizing acc inp with
  | zero => cases inp <;> simp_all
  | succ n ih =>
    cases inp with
    | nil => simp at h
    | cons c inp =>
      simp only [List.length_cons] at hn
      simp only [sizeLoop]
      split
      · split
        · simp only [readN]; split
          · simp
          · split <;> simp
        · simp
      · rename_i hc
        rcases List.mem_cons.1 h with h | h
        · exact absurd h.symm (by simpa using hc)
        · exact ih h (by omega)

theorem reads_fuel {inp v r} (h : Reads inp v r) {m} (hm : decodeF m inp ≠ .out) : decodeF m inp = .ok v r := by
  obtain ⟨n, hn⟩ := h
  have h1 := (fuel n).1 inp (max n m + (2 * inp.length + 1)) (by simp [hn]) (by omega)
  have h2 := (fuel m).1 inp (max n m + (2 * inp.length + 1)) hm (by omega)
  rw [← h2, h1, hn]

theorem startsLength_iff (t : UInt8) : startsLength t ↔ (t == 101) = false ∧ (t == 105) = false ∧ (t == 108) = false ∧ (t == 100) = false := by
  simp [startsLength]

theorem stuck_out (n : Nat) :
    (∀ inp, Stuck inp → decodeF n inp = .out) ∧
    (∀ acc inp, StuckInList inp → listLoop n acc inp = .out) ∧
    (∀ acc inp, StuckInDict inp → dictLoop n acc inp = .out) := by
  induction n with
  | zero => simp [decodeF, listLoop, dictLoop]
  | succ n ih =>
    obtain ⟨ih1, ih2, ih3⟩ := ih
    refine ⟨?_, ?_, ?_⟩
    · intro inp h
      cases h with
      | length hs hc =>
        obtain ⟨h1, h2, h3, h4⟩ := (startsLength_iff _).1 hs
        simp only [decodeF, h1, h2, h3, h4, Bool.false_eq_true, if_false]
        exact sizeLoop_no_colon hc
      | list h =>
        simp only [decodeF]
        rw [if_neg (by decide), if_neg (by decide), if_pos (by decide)]
        exact ih2 _ _ h
      | dict h =>
        simp only [decodeF]
        rw [if_neg (by decide), if_neg (by decide), if_neg (by decide), if_pos (by decide)]
        exact ih3 _ _ h
    · intro acc inp h
      simp only [listLoop]
      cases h with
      | here h => rw [ih1 _ h]
      | later hr hn h =>
        by_cases ho : decodeF n inp = .out
        · rw [ho]
        · rw [reads_fuel hr ho]
          simp only
          rw [if_neg (fun hh => hn (isNone_iff.1 hh))]
          exact ih2 _ _ h
    · intro acc inp h
      simp only [dictLoop]
      cases h with
      | key h => rw [ih1 _ h]
      | value hr hn h =>
        by_cases ho : decodeF n inp = .out
        · rw [ho]
        · rw [reads_fuel hr ho]
          simp only
          rw [if_neg (fun hh => hn (isNone_iff.1 hh)), ih1 _ h]
      | later hr hn hr2 h =>
        by_cases ho : decodeF n inp = .out
        · rw [ho]
        · rw [reads_fuel hr ho]
          simp only
          rw [if_neg (fun hh => hn (isNone_iff.1 hh))]
          rename_i k v r r'
          by_cases ho2 : decodeF n r = .out
          · rw [ho2]
          · rw [reads_fuel hr2 ho2]
            exact ih3 _ _ h

theorem out_stuck (n : Nat) :
    (∀ inp, 2 * inp.length + 1 ≤ n → decodeF n inp = .out → Stuck inp) ∧
    (∀ acc inp, 2 * inp.length + 2 ≤ n → listLoop n acc inp = .out → StuckInList inp) ∧
    (∀ acc inp, 2 * inp.length + 2 ≤ n → dictLoop n acc inp = .out → StuckInDict inp) := by
  induction n with
  | zero => refine ⟨?_, ?_, ?_⟩ <;> intros <;> omega
  | succ n ih =>
    obtain ⟨ih1, ih2, ih3⟩ := ih
    refine ⟨?_, ?_, ?_⟩
    · intro inp hn h
      cases inp with
      | nil => simp [decodeF] at h
      | cons t inp =>
        simp only [List.length_cons] at hn
        simp only [decodeF] at h
        split at h
        · simp at h
        · rename_i h1
          split at h
          · exfalso
            have : ∀ acc inp, readInt acc inp ≠ .out := by
              intro acc inp
              induction inp generalizing acc with
              | nil => simp [readInt]
              | cons c inp ih =>
                simp only [readInt]
                split
                · split
                  · simp
                  · split <;> simp
                · exact ih _
            exact this _ _ h
          · rename_i h2
            split at h
            · rename_i h3
              have : t = 108 := by simpa using h3
              subst this
              exact .list (ih2 _ _ (by omega) h)
            · rename_i h3
              split at h
              · rename_i h4
                have : t = 100 := by simpa using h4
                subst this
                exact .dict (ih3 _ _ (by omega) h)
              · rename_i h4
                refine .length ⟨by simpa using h1, by simpa using h2, by simpa using h3, by simpa using h4⟩ ?_
                intro hc
                exact sizeLoop_colon hc (by omega) h
    · intro acc inp hn h
      simp only [listLoop] at h
      split at h
      · rename_i v r hd
        have := (consumes n).1 _ _ _ hd
        split at h
        · simp at h
        · rename_i hnn
          exact .later ⟨n, hd⟩ (fun he => hnn (isNone_iff.2 he)) (ih2 _ _ (by omega) h)
      · simp at h
      · rename_i hd
        exact .here (ih1 _ (by omega) hd)
    · intro acc inp hn h
      simp only [dictLoop] at h
      split at h
      · rename_i v r hd
        have := (consumes n).1 _ _ _ hd
        split at h
        · split at h <;> simp at h
        · rename_i hnn
          split at h
          · rename_i v' r' hd2
            have := (consumes n).1 _ _ _ hd2
            exact .later ⟨n, hd⟩ (fun he => hnn (isNone_iff.2 he)) ⟨n, hd2⟩ (ih3 _ _ (by omega) h)
          · simp at h
          · rename_i hd2
            exact .value ⟨n, hd⟩ (fun he => hnn (isNone_iff.2 he)) (ih1 _ (by omega) hd2)
      · simp at h
      · rename_i hd
        exact .key (ih1 _ (by omega) hd)

theorem hang_iff_stuck (data : Bytes) : decode data = .hang ↔ Stuck data := by
  constructor
  · intro h
    exact (out_stuck (enough data)).1 data (by simp only [enough]; omega) ((fuel_enough data).1 h _)
  · intro h
    exact (fuel_enough data).2 fun n => (stuck_out n).1 data h

end Verif.Bencode
