import Verif.Proofs.Packets
import Verif.Spec.WSClient
/-! Lemmas about the dispatcher. -/
namespace Verif.Dispatcher
open Verif Packets WSClient

theorem handlers_arity : ∀ h ∈ handlers, ∀ c ∈ classes, h.num = c.num → h.params.length = c.attrs.length := by decide +kernel

theorem handlers_handled : ∀ h ∈ handlers, h.num ∈ handledTypes := by decide +kernel

theorem handled_handlers : ∀ k ∈ handledTypes, ∃ h ∈ handlers, h.num = k := by decide +kernel

theorem classes_types : ∀ c ∈ classes, ∃ e ∈ packetTypes, e.2 = c.num := by decide +kernel

theorem dispatchPacket_eq (p : Packet) (hc : p.cls ∈ classes) (hl : p.vals.length = p.cls.attrs.length) :
    dispatchPacket p = if p.cls.num ∈ handledTypes then .call p.cls.num p.vals else .dropped := by
  unfold dispatchPacket
  cases hf : handlers.find? (fun h => h.num == p.cls.num) with
  | none =>
    rw [if_neg]
    intro hm
    obtain ⟨h, hh, he⟩ := handled_handlers _ hm
    have := List.find?_eq_none.1 hf h hh
    simp [he] at this
  | some h =>
    have hm := List.mem_of_find?_eq_some hf
    have he : h.num = p.cls.num := by simpa using List.find?_some hf
    have ha := handlers_arity h hm p.cls hc he
    rw [if_pos (he ▸ handlers_handled h hm)]
    have h1 : p.vals.take (h.params.length + 2) = p.vals := List.take_of_length_le (by omega)
    have h2 : ((p.cls.attrs.map (·.1)).zip p.vals).drop (h.params.length + 2) = [] :=
      List.drop_eq_nil_of_le (by simp; omega)
    have h3 : h.params.drop p.vals.length = [] := List.drop_eq_nil_of_le (by omega)
    simp only [methodArgs, h1, h2, callable, bind, h3]
    simp [he, hl, ha]

theorem dispatch_call_iff (n : Int) (body : List PyVal) (hb : NoText body) (m : Nat) (args : List PyVal) :
    dispatch n body = .call m args ↔
      ∃ c ∈ classes, (c.num : Int) = n ∧ c.num = m ∧ m ∈ handledTypes ∧ Typed c.attrs args ∧ ∃ surplus, body = args ++ surplus := by
  unfold dispatch create
  cases hl : lookupClass n with
  | none =>
    simp only [reduceCtorEq, false_iff]
    rintro ⟨c, hc, hn, _⟩
    have := (lookupClass_iff n c).2 ⟨hc, hn⟩
    rw [hl] at this; simp at this
  | some c =>
    obtain ⟨hc, hn⟩ := (lookupClass_iff n c).1 hl
    simp only
    have hpos := fun p => construct_positional (fun _ => "") c body p (classes_attrs_nodup c hc) hb
    cases hk : construct (fun _ => "") c body [] with
    | error e =>
      simp only [reduceCtorEq, false_iff]
      rintro ⟨c', hc', hn', _, _, ht, surplus, hbody⟩
      have hcc : c' = c := inj_of_nodup_map (·.num) classes_nums_nodup hc' hc (by omega)
      subst hcc
      have := (hpos ⟨c', args⟩).2 ⟨rfl, by rw [hbody, typed_length ht]; simp, by rw [hbody, typed_length ht]; simp, ht⟩
      rw [hk] at this; simp at this
    | ok p =>
      obtain ⟨h1, h2, h3, h4⟩ := (hpos p).1 hk
      simp only
      rw [dispatchPacket_eq p (h1 ▸ hc) (by rw [h1]; exact (typed_length h4).symm), h1]
      constructor
      · intro h
        split at h
        · simp only [Disp.call.injEq] at h
          obtain ⟨rfl, rfl⟩ := h
          rename_i hh
          exact ⟨c, hc, hn, rfl, hh, h4, body.drop c.attrs.length, by rw [h3, List.take_append_drop]⟩
        · simp at h
      · rintro ⟨c', hc', hn', hm, hh, ht, surplus, hbody⟩
        have hcc : c' = c := inj_of_nodup_map (·.num) classes_nums_nodup hc' hc (by omega)
        subst hcc
        rw [hm, if_pos hh]
        have : p.vals = args := by rw [h3, hbody, typed_length ht]; simp
        rw [this]

theorem dispatch_unhandled (n : Int) (body : List PyVal) (hb : NoText body) (h : ∀ k ∈ handledTypes, (k : Int) ≠ n) :
    dispatch n body = .dropped ∨ dispatch n body = .raised := by
  cases hd : dispatch n body with
  | dropped => exact .inl rfl
  | raised => exact .inr rfl
  | call m args =>
    obtain ⟨c, _, h1, h2, h3, _⟩ := (dispatch_call_iff n body hb m args).1 hd
    exact absurd (show (m : Int) = n by omega) (h m h3)
  | hang =>
    exfalso
    unfold dispatch at hd
    split at hd
    · simp at hd
    · unfold dispatchPacket at hd
      split at hd
      · simp at hd
      · simp only at hd
        split at hd <;> simp at hd

theorem dispatch_ne_hang (n : Int) (body : List PyVal) : dispatch n body ≠ .hang := by
  intro hd
  unfold dispatch at hd
  split at hd
  · simp at hd
  · unfold dispatchPacket at hd
    split at hd
    · simp at hd
    · simp only at hd
      split at hd <;> simp at hd

theorem known_of_class {c : PClass} (hc : c ∈ classes) : packetTypes.any (fun e => decide ((e.2 : Int) = (c.num : Int))) = true := by
  obtain ⟨e, he, hn⟩ := classes_types c hc
  rw [List.any_eq_true]
  exact ⟨e, he, by simp [hn]⟩

theorem ints_noText (bs : Bytes) : NoText (bs.map fun b => PyVal.int b.toNat) := by
  intro v hv s
  obtain ⟨b, _, rfl⟩ := List.mem_map.1 hv
  simp

theorem noText_tail {x xs} (h : NoText (x :: xs)) : NoText xs := fun v hv => h v (by simp [hv])

theorem byType_call_iff (t : PyVal) (body : List PyVal) (hb : NoText body) (m args) :
    byType t body = .call m args ↔
      ∃ c ∈ classes, t = .int c.num ∧ c.num = m ∧ m ∈ handledTypes ∧ Typed c.attrs args ∧ ∃ surplus, body = args ++ surplus := by
  unfold byType
  split
  · rename_i n
    split
    · rw [dispatch_call_iff n body hb]
      simp only [PyVal.int.injEq]
      constructor <;> rintro ⟨c, hc, h, r⟩ <;> exact ⟨c, hc, h.symm, r⟩
    · rename_i hk
      simp only [reduceCtorEq, false_iff]
      rintro ⟨c, hc, h, _⟩
      simp only [PyVal.int.injEq] at h
      subst h
      exact hk (known_of_class hc)
  · rename_i hne
    simp only [reduceCtorEq, false_iff]
    rintro ⟨c, _, h, _⟩
    exact hne _ h

theorem onBinary_call_iff (data : Bytes) (hl : data.length ≤ maxSize) (m : Nat) (args : List PyVal) :
    onBinary data = .call m args ↔ m ∈ handledTypes ∧ ∃ v c, Bencode.decode data = .ok v ∧ c.num = m ∧ (ListMessage v c args ∨ ByteMessage v c args) := by
  unfold onBinary
  cases hd : Bencode.decode data with
  | hang => simp
  | raise e => simp
  | ok v =>
    simp only
    unfold onPacket
    split
    · rename_i t body
      have hcl := clean_noText (decode_list_clean hl hd)
      rw [byType_call_iff t body (noText_tail hcl)]
      constructor
      · rintro ⟨c, hc, rfl, rfl, hh, ht, surplus, rfl⟩
        exact ⟨hh, _, c, rfl, rfl, .inl ⟨hc, ht, surplus, rfl⟩⟩
      · rintro ⟨hh, v, c, hv, rfl, h⟩
        simp only [Bencode.Outcome.ok.injEq] at hv
        subst hv
        rcases h with ⟨hc, ht, surplus, he⟩ | ⟨_, _, _, _, _, he, _⟩
        · simp only [List.cons_append, PyVal.list.injEq, List.cons.injEq] at he
          exact ⟨c, hc, he.1, rfl, hh, ht, surplus, he.2⟩
        · simp at he
    · rename_i t body
      rw [byType_call_iff _ _ (ints_noText body)]
      constructor
      · rintro ⟨c, hc, htc, rfl, hh, ht, surplus, he⟩
        simp only [PyVal.int.injEq] at htc
        exact ⟨hh, _, c, rfl, rfl, .inr ⟨hc, ht, t, body, surplus, rfl, by omega, he⟩⟩
      · rintro ⟨hh, v, c, hv, rfl, h⟩
        simp only [Bencode.Outcome.ok.injEq] at hv
        subst hv
        rcases h with ⟨_, _, _, he⟩ | ⟨hc, ht, t', bs, surplus, he, htn, hbs⟩
        · simp at he
        · simp only [PyVal.bytes.injEq, List.cons.injEq] at he
          obtain ⟨rfl, rfl⟩ := he
          exact ⟨c, hc, by simp [htn], rfl, hh, ht, surplus, hbs⟩
    · rename_i h1 h2
      simp only [reduceCtorEq, false_iff]
      rintro ⟨_, v', c, hv, _, h⟩
      simp only [Bencode.Outcome.ok.injEq] at hv
      subst hv
      rcases h with ⟨_, _, _, he⟩ | ⟨_, _, _, _, _, he, _⟩
      · exact h1 _ _ he
      · exact h2 _ _ he

theorem onBinary_hang_iff (data : Bytes) : onBinary data = .hang ↔ Bencode.decode data = .hang := by
  unfold onBinary
  cases hd : Bencode.decode data with
  | hang => simp
  | raise e => simp
  | ok v =>
    simp only [reduceCtorEq, iff_false]
    unfold onPacket
    have hb : ∀ t body, byType t body ≠ .hang := by
      intro t body
      unfold byType
      split
      · split
        · exact dispatch_ne_hang _ _
        · simp
      · simp
    split
    · exact hb _ _
    · exact hb _ _
    · simp

theorem onBinary_unhandled (data : Bytes) (hl : data.length ≤ maxSize) (t : PyVal) (body : List PyVal)
    (hd : Bencode.decode data = .ok (.list (t :: body))) (h : ∀ k ∈ handledTypes, t ≠ .int k) :
    onBinary data = .dropped ∨ onBinary data = .raised := by
  cases ho : onBinary data with
  | dropped => exact .inl rfl
  | raised => exact .inr rfl
  | hang => rw [onBinary_hang_iff, hd] at ho; simp at ho
  | call m args =>
    obtain ⟨hm, v, c, hv, rfl, hmsg⟩ := (onBinary_call_iff data hl m args).1 ho
    rw [hd] at hv
    simp only [Bencode.Outcome.ok.injEq] at hv
    subst hv
    rcases hmsg with ⟨_, _, _, he⟩ | ⟨_, _, _, _, _, he, _⟩
    · simp only [List.cons_append, PyVal.list.injEq, List.cons.injEq] at he
      exact absurd he.1 (h _ hm)
    · simp at he

end Verif.Dispatcher
