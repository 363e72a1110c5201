import Verif.Proofs.Packets
import Verif.Props.Bencode
/-!
C08-C13: `dataplicity/m2m/packetbase.py`, `dataplicity/m2m/packets.py`.
In all theorems `r` is any function standing for Python's `repr()` of a value.
-/
namespace Verif.Props
open Verif Packets

/-! ### C08 -/

/-- C08: for every registered class and every list of values of the declared types that bencode supports, the packet can be
created and encoded, and reading the bytes gives a packet of the same class with the same values (dicts as mappings,
text inside lists or dicts as bytes). -/
theorem c08_packet_round_trip (r : PyVal → String) (c : PClass) (hc : c ∈ classes) (vals : List PyVal)
    (ht : Typed c.attrs vals) (hs : SupportedList vals) (hw : WFList vals) :
    ∃ p data p', create r c.num vals [] = .ok p ∧ p.cls = c ∧ p.vals = vals ∧ encodeBinary p = .ok data ∧
      (data.length ≤ maxSize → fromBytes r data = .ok p' ∧ p'.cls = c ∧ SameList vals p'.vals) := by
  have hcr : create r c.num vals [] = .ok ⟨c, vals⟩ := by
    simp only [create, (lookupClass_iff c.num c).2 ⟨hc, rfl⟩]
    refine (construct_positional r c vals ⟨c, vals⟩ (classes_attrs_nodup c hc) (typed_noText ht)).2 ⟨rfl, ?_, ?_, ht⟩
    · rw [typed_length ht]; exact Nat.le_refl _
    · rw [typed_length ht]; simp
  have hw' : WF (encodeList ⟨c, vals⟩) := .list (.cons (.int _) hw)
  obtain ⟨data, w, he, hd, hsame⟩ := c01_round_trip (encodeList ⟨c, vals⟩) hw' (.list (.cons (.int _) hs))
  unfold encodeList at hsame
  cases hsame with
  | list hl =>
    cases hl with
    | cons h1 h2 =>
      rename_i i body
      cases h1
      refine ⟨⟨c, vals⟩, data, ⟨c, body⟩, hcr, rfl, rfl, he, fun hlen => ⟨?_, rfl, h2⟩⟩
      have hty := sameList_typed h2 ht
      refine (fromBytes_ok_iff r data ⟨c, body⟩ hlen).2 ⟨body, hd, hc, ?_, ?_, hty⟩
      · rw [typed_length hty]; exact Nat.le_refl _
      · show body = _
        rw [typed_length hty]; simp

/-- C08: for packets whose attributes are integers and byte strings (all but instructions, responses and node lists) reading the
encoded packet gives the identical packet. -/
theorem c08_flat_round_trip (r : PyVal → String) (c : PClass) (hc : c ∈ classes) (vals : List PyVal) (ht : Typed c.attrs vals)
    (hflat : ∀ v ∈ vals, (∃ i, v = .int i) ∨ ∃ b, v = .bytes b) (hw : WFList vals) :
    ∃ data, encodeBinary ⟨c, vals⟩ = .ok data ∧ (data.length ≤ maxSize → fromBytes r data = .ok ⟨c, vals⟩) := by
  obtain ⟨⟨pc, pv⟩, data, ⟨qc, qv⟩, _, h1, h2, h3, h4⟩ := c08_packet_round_trip r c hc vals ht (flat_supported hflat) hw
  simp only at h1 h2 h4
  subst h1 h2
  refine ⟨data, h3, fun hl => ?_⟩
  obtain ⟨g1, g2, g3⟩ := h4 hl
  rw [g1, g2, flat_same hflat g3]

/-- The class of route packets and some values for it. -/
example : ∃ c ∈ classes, c.num = 6 ∧ Typed c.attrs [.int 3, .bytes [1, 2]] ∧ SupportedList [.int 3, .bytes [1, 2]] ∧
    WFList [.int 3, .bytes [1, 2]] :=
  ⟨⟨6, "RoutePacket", [("channel", .int), ("data", .bytes)]⟩, by decide, rfl, ⟨rfl, rfl, trivial⟩,
   .cons (.int _) (.cons (.bytes _) .nil), .cons (.int _) (.cons (.bytes (by simp [maxSize])) .nil)⟩

/-! ### C09 -/

/-- C09: what `from_bytes` returns.  The bytes decode to a list that starts with the number of the packet's registered class, and
the attributes are the following elements, each of its declared type; surplus elements are ignored. -/
theorem c09_from_bytes_sound (r : PyVal → String) (data : Bytes) (p : Packet) (hl : data.length ≤ maxSize)
    (h : fromBytes r data = .ok p) :
    ∃ surplus, Bencode.decode data = .ok (.list (.int p.cls.num :: p.vals ++ surplus)) ∧ p.cls ∈ classes ∧
      p.vals.length = p.cls.attrs.length ∧ Typed p.cls.attrs p.vals := by
  obtain ⟨body, h1, h2, h3, h4, h5⟩ := (fromBytes_ok_iff r data p hl).1 h
  refine ⟨body.drop p.cls.attrs.length, ?_, h2, (typed_length h5).symm, h5⟩
  rw [h1]
  have : p.vals ++ body.drop p.cls.attrs.length = body := by rw [h4]; exact List.take_append_drop _ _
  rw [List.cons_append, this]

/-- C09, converse: every such message is accepted. -/
theorem c09_from_bytes_complete (r : PyVal → String) (data : Bytes) (c : PClass) (vals surplus : List PyVal) (hl : data.length ≤ maxSize)
    (hc : c ∈ classes) (ht : Typed c.attrs vals) (hd : Bencode.decode data = .ok (.list (.int c.num :: vals ++ surplus))) :
    fromBytes r data = .ok ⟨c, vals⟩ := by
  refine (fromBytes_ok_iff r data ⟨c, vals⟩ hl).2 ⟨vals ++ surplus, hd, hc, ?_, ?_, ht⟩
  · show c.attrs.length ≤ _
    rw [typed_length ht]; simp
  · show vals = _
    rw [typed_length ht]; simp

/-- A message with a surplus element. -/
example : fromBytes (fun _ => "") (asc "li7e2:hi3:xyze") =
    .ok ⟨⟨7, "PingPacket", [("data", .bytes)]⟩, [.bytes (asc "hi")]⟩ := by decide +kernel

/-! ### C10 -/

/-- C10 fails: on the empty list `from_bytes` raises `IndexError`. -/
theorem c10_counterexample_empty_list (r : PyVal → String) : fromBytes r (asc "le") = .raise .indexError := by
  have : Bencode.decode (asc "le") = .ok (.list []) := by decide +kernel
  simp only [fromBytes, this]
/-- C10 fails: on an ill-formed integer it raises `ValueError`. -/
theorem c10_counterexample_bad_integer (r : PyVal → String) : fromBytes r (asc "li--ee") = .raise .valueError := by
  have : Bencode.decode (asc "li--ee") = .raise .value := by decide +kernel
  simp only [fromBytes, this]
/-- C10 fails: with a list as dict key it raises `TypeError`. -/
theorem c10_counterexample_unhashable (r : PyVal → String) : fromBytes r (asc "li16e1:xdlei1eee") = .raise .typeError := by
  have : Bencode.decode (asc "li16e1:xdlei1eee") = .raise .unhashable := by decide +kernel
  simp only [fromBytes, this]
/-- C10 fails: a length beyond `sys.maxsize` raises `OverflowError`. -/
theorem c10_counterexample_overflow (r : PyVal → String) : fromBytes r (asc "l9223372036854775808:e") = .raise .overflowError := by
  have : Bencode.decode (asc "l9223372036854775808:e") = .raise .overflow := by decide +kernel
  simp only [fromBytes, this]
/-- C10 fails: a length without colon makes it run for ever. -/
theorem c10_counterexample_hang (r : PyVal → String) : fromBytes r (asc "li7e5") = .hang := by
  have : Bencode.decode (asc "li7e5") = .hang := by decide +kernel
  simp only [fromBytes, this]

/-- C10, exact: which inputs make `from_bytes` raise something outside the `PacketError` family. -/
theorem c10_escape_iff (r : PyVal → String) (data : Bytes) :
    (∃ e, fromBytes r data = .raise e ∧ e.isPacketError = false) ↔
      (∃ e, Bencode.decode data = .raise e ∧ e ≠ .decode) ∨ Bencode.decode data = .ok (.list []) := by
  unfold fromBytes
  split <;> rename_i h <;> simp only [h]
  case h_9 =>
    constructor
    · rintro ⟨e, he, hp⟩
      split at he
      · simp only [FB.raise.injEq] at he; subst he; simp [PErr.isPacketError] at hp
      · split at he
        · simp at he
        · rename_i hb
          obtain ⟨m, rfl⟩ := construct_error hb
          simp only [FB.raise.injEq] at he; subst he; simp [PErr.isPacketError] at hp
    · simp
  all_goals simp [PErr.isPacketError]
  · rename_i hne _ _; intro h; exact absurd h (hne ·)

/-- C10, the part that holds: unless `bencode.decode` itself runs for ever or raises something other than `DecodeError`, or the
message is the empty list, `from_bytes` returns a packet or raises a `PacketError`. -/
theorem c10_packet_errors_partial (r : PyVal → String) (data : Bytes) (h1 : Bencode.decode data ≠ .hang)
    (h2 : ∀ e, Bencode.decode data = .raise e → e = .decode) (h3 : Bencode.decode data ≠ .ok (.list [])) :
    (∃ p, fromBytes r data = .ok p) ∨ ∃ e, fromBytes r data = .raise e ∧ e.isPacketError = true := by
  cases hf : fromBytes r data with
  | ok p => exact .inl ⟨p, rfl⟩
  | hang =>
    exfalso
    unfold fromBytes at hf
    split at hf <;> try (simp at hf; done)
    · rename_i h; exact h1 h
    · split at hf
      · simp at hf
      · split at hf <;> simp at hf
  | raise e =>
    refine .inr ⟨e, rfl, ?_⟩
    cases hp : e.isPacketError with
    | true => rfl
    | false =>
      rcases (c10_escape_iff r data).1 ⟨e, hf, hp⟩ with ⟨e', he, hne⟩ | h
      · exact absurd (h2 e' he) hne
      · exact absurd h h3

/-- C10, the part that holds: every encoded value other than the empty list is accepted or reported as a `PacketError`. -/
theorem c10_encoded_values_partial (r : PyVal → String) (v : PyVal) (data : Bytes) (hw : WF v) (he : Bencode.encode v = .ok data)
    (hn : v ≠ .list [] ∧ v ≠ .tuple []) :
    (∃ p, fromBytes r data = .ok p) ∨ ∃ e, fromBytes r data = .raise e ∧ e.isPacketError = true := by
  obtain ⟨w, hd, hs⟩ := c01_round_trip_any v data hw he
  apply c10_packet_errors_partial
  · simp [hd]
  · simp [hd]
  · rw [hd]
    simp only [ne_eq, Bencode.Outcome.ok.injEq]
    rintro rfl
    cases hs with
    | list h => cases h; exact hn.1 rfl
    | tuple h => cases h; exact hn.2 rfl

example : fromBytes (fun _ => "") (asc "li23ee") = .raise .unknown := by decide +kernel

/-! ### C11 -/

/-- C11: creating a packet of a registered class succeeds exactly if every declared attribute is meant to have a value
(by keyword, or by position) and that value, with text as UTF-8, has the declared type; then these are its values. -/
theorem c11_create_iff (r : PyVal → String) (c : PClass) (hc : c ∈ classes) (args : List PyVal) (kwargs : List (String × PyVal))
    (hk : (kwargs.map (·.1)).Nodup) (p : Packet) :
    create r c.num args kwargs = .ok p ↔ p.cls = c ∧ Resolved (meant c.attrs args kwargs) c.attrs p.vals := by
  simp only [create, (lookupClass_iff c.num c).2 ⟨hc, rfl⟩]
  exact construct_ok r c args kwargs p (classes_attrs_nodup c hc) hk

/-- C11: otherwise `PacketFormatError` is raised and nothing else. -/
theorem c11_create_raises (r : PyVal → String) (c : PClass) (hc : c ∈ classes) (args : List PyVal) (kwargs : List (String × PyVal)) (e : PErr)
    (h : create r c.num args kwargs = .error e) : ∃ m, e = .format m := by
  simp only [create, (lookupClass_iff c.num c).2 ⟨hc, rfl⟩] at h
  exact construct_error h

/-- C11: giving the values by position or by keyword makes no difference. -/
theorem c11_position_or_keyword (r : PyVal → String) (c : PClass) (hc : c ∈ classes) (args : List PyVal) (p : Packet) :
    create r c.num args [] = .ok p ↔ create r c.num [] ((c.attrs.map (·.1)).zip args) = .ok p := by
  rw [c11_create_iff r c hc args [] (by simp), c11_create_iff r c hc [] _ (zip_keys_nodup (classes_attrs_nodup c hc))]
  have : meant c.attrs args [] = meant c.attrs [] ((c.attrs.map (·.1)).zip args) := by
    funext n
    simp only [meant, List.find?_nil, List.zip_nil_right]
  rw [this]

/-- C11: an unregistered number raises `ValueError`. -/
theorem c11_unregistered (r : PyVal → String) (n : Int) (args kwargs) (h : ∀ c ∈ classes, (c.num : Int) ≠ n) :
    create r n args kwargs = .error .valueError := by
  cases hl : lookupClass n with
  | none => simp [create, hl]
  | some c => exact absurd ((lookupClass_iff n c).1 hl).2 (h c ((lookupClass_iff n c).1 hl).1)

/-- Text is turned into bytes, a keyword wins over the position, surplus arguments are dropped. -/
example : create (fun _ => "") 6 [.int 1, .text ['x'], .none] [("channel", .int 2)] =
    .ok ⟨⟨6, "RoutePacket", [("channel", .int), ("data", .bytes)]⟩, [.int 2, .bytes [120]]⟩ := by decide +kernel
example : create (fun _ => "") 6 [.int 1] [] = .error (.format (.missing "data" "RoutePacket(channel=)")) := by decide +kernel

/-! ### C12 -/

/-- C12: registering all classes never trips over a number used twice, and a number finds exactly the class that declares it. -/
theorem c12_registry_exact :
    registryOf classes ≠ none ∧ ∀ (n : Int) (c : PClass), lookupClass n = some c ↔ c ∈ classes ∧ (c.num : Int) = n :=
  ⟨by rw [registry_eq]; simp, lookupClass_iff⟩

/-- C12: whatever classes are declared, defining two with the same number fails, and otherwise each is registered under its number. -/
theorem c12_duplicates_refused (cs : List PClass) :
    ((∃ c d pre mid post, cs = pre ++ c :: mid ++ d :: post ∧ c.num = d.num) ↔ registryOf cs = none) ∧
    ∀ reg, registryOf cs = some reg → ∀ e, e ∈ reg ↔ e.2 ∈ cs ∧ e.1 = e.2.num := by
  rw [registryOf_eq]
  constructor
  · constructor
    · rintro ⟨c, d, pre, mid, post, rfl, h⟩
      rw [if_neg]
      simp [List.nodup_append, h]
    · intro h
      split at h
      · simp at h
      · rename_i hn
        exact not_nodup_split hn
  · intro reg h e
    split at h
    · simp only [Option.some.injEq] at h
      subst h
      simp only [List.mem_map]
      constructor
      · rintro ⟨c, hc, rfl⟩; exact ⟨hc, rfl⟩
      · rintro ⟨h1, h2⟩; exact ⟨e.2, h1, by rw [← h2]⟩
    · simp at h

/-- C12: no two classes have the same number or the same name, and each class's number is that of a packet type. -/
theorem c12_numbers_unique :
    (∀ c ∈ classes, ∀ d ∈ classes, c.num = d.num ∨ c.name = d.name → c = d) ∧
    (∀ c ∈ classes, ∃ t ∈ packetTypes, t.2 = c.num) := by
  refine ⟨?_, by decide +kernel⟩
  rintro c hc d hd (h | h)
  · exact inj_of_nodup_map (·.num) classes_nums_nodup hc hd h
  · exact inj_of_nodup_map (·.name) (by decide +kernel) hc hd h

/-- C12: no two packet types have the same number or the same name. -/
theorem c12_types_unique :
    ∀ s ∈ packetTypes, ∀ t ∈ packetTypes, s.1 = t.1 ∨ s.2 = t.2 → s = t := by
  rintro s hs t ht (h | h)
  · exact inj_of_nodup_map (·.1) (by decide +kernel) hs ht h
  · exact inj_of_nodup_map (·.2) (by decide +kernel) hs ht h

/-- A packet type without a class. -/
example : ("request_open", 10) ∈ packetTypes ∧ lookupClass 10 = none := by decide +kernel

/-! ### C13 -/

/-- What a caller or the log gets to see of an attempt to build a packet: the printable form, or the error with its message. -/
def shown (r : PyVal → String) : Except PErr Packet → Except PErr String
  | .ok p => .ok (reprPacket r p)
  | .error e => .error e

/-- C13: the printable form of a finished packet does not depend on the value of an attribute called `password`. -/
theorem c13_repr_hides_password (r : PyVal → String) (c : PClass) (before after : List (String × AType)) (t : AType)
    (hc : c.attrs = before ++ ("password", t) :: after) (vs ws : List PyVal) (hv : vs.length = before.length) (p q : PyVal) :
    reprPacket r ⟨c, vs ++ p :: ws⟩ = reprPacket r ⟨c, vs ++ q :: ws⟩ := by
  simp only [reprPacket, hc]
  apply reprData_except
  simp only [EqExcept, List.map_append, List.map_cons]
  rw [List.zip_append (by simp [hv]), List.zip_append (by simp [hv])]
  simp

/-- C13: whatever is passed, by position or keyword, complete or incomplete, what is shown of the attempt (printable form or error
message) does not depend on the value meant for `password`, only on its Python type and on whether there is one. -/
theorem c13_password_never_shown (r : PyVal → String) (c : PClass) (hc : c ∈ classes) (args args' : List PyVal)
    (kwargs kwargs' : List (String × PyVal)) (hk : (kwargs.map (·.1)).Nodup) (hk' : (kwargs'.map (·.1)).Nodup)
    (h : ∀ n, n ≠ "password" → meant c.attrs args kwargs n = meant c.attrs args' kwargs' n)
    (hp : (meant c.attrs args kwargs "password").map typeName = (meant c.attrs args' kwargs' "password").map typeName) :
    shown r (create r c.num args kwargs) = shown r (create r c.num args' kwargs') := by
  have hn := classes_attrs_nodup c hc
  simp only [create, (lookupClass_iff c.num c).2 ⟨hc, rfl⟩, construct]
  rcases checkAttrs_shown r c (collect c args kwargs) (collect c args' kwargs')
    (fun n hne => by rw [getParam_collect c hn _ _ hk, getParam_collect c hn _ _ hk', h n hne])
    (by rw [getParam_collect c hn _ _ hk, getParam_collect c hn _ _ hk', hp])
    has_of_typeName [] [] c.attrs rfl with ⟨vs, vs', g1, g2, g3⟩ | ⟨e, g1, g2⟩
  · rw [g1, g2]
    simp only [shown, reprPacket]
    rw [reprData_except r c (by simpa using g3)]
  · rw [g1, g2]

/-- Login packets with different passwords. -/
example : reprPacket (fun _ => "b'joe'") ⟨⟨15, "RequestLoginPacket", [("username", .bytes), ("password", .bytes)]⟩,
    [.bytes (asc "joe"), .bytes (asc "secret")]⟩ = "RequestLoginPacket(password=********, username=b'joe')" := by decide +kernel
example : (meant [("username", .bytes), ("password", .bytes)] [.bytes [1], .bytes [2]] [] "password").map typeName =
    (meant [("username", .bytes), ("password", .bytes)] [.bytes [1], .bytes [3, 4]] [] "password").map typeName := by decide +kernel

/-! ### C143 -/

/-- C143: the printable form of a packet depends only on the first 32 bytes and the length of each longer byte string in it. -/
theorem c143_first_bytes (r : PyVal → String) (c : PClass) (vs ws : List PyVal) (hl : vs.length = ws.length)
    (h : ∀ (i : Nat) v w, vs[i]? = some v → ws[i]? = some w → AlikeStart v w) : reprPacket r ⟨c, vs⟩ = reprPacket r ⟨c, ws⟩ := by
  have hval : ∀ k v w, AlikeStart v w → summarize r k v = summarize r k w := by
    rintro k v w (rfl | ⟨a, b, rfl, rfl, h1, h2, h3⟩)
    · rfl
    · have ht : a.take 32 = b.take 32 := by
        apply List.ext_getElem?
        intro i
        by_cases hi : i < 32
        · simpa [List.getElem?_take, hi] using h3 i hi
        · simp [List.getElem?_take, hi]
      simp only [summarize, h1, show b.length > 32 from h2 ▸ h1, ht, h2, if_true]
  simp only [reprPacket]
  apply reprData_eqShown
  generalize c.attrs.map (·.1) = names
  induction names generalizing vs ws with
  | nil => simp [EqShown]
  | cons n names ih =>
    cases vs with
    | nil => cases ws with
      | nil => simp [EqShown]
      | cons w ws => simp at hl
    | cons v vs => cases ws with
      | nil => simp at hl
      | cons w ws =>
        have h0 := hval n v w (h 0 v w rfl rfl)
        have h1 := ih vs ws (by simpa using hl) (fun i v w hv hw => h (i + 1) v w (by simpa using hv) (by simpa using hw))
        simp only [EqShown, List.zip_cons_cons, List.map_cons, h0] at h1 ⊢
        rw [h1]

/-- C143: and of a packet that cannot be made, the error message shows as little: it depends on no more of the positional arguments. -/
theorem c143_incomplete (r : PyVal → String) (c : PClass) (before : List (String × AType)) (vs ws : List PyVal) (hl : vs.length = ws.length)
    (h : ∀ (i : Nat) v w, vs[i]? = some v → ws[i]? = some w → AlikeStart v w) :
    reprData r c ((before.map (·.1)).zip vs) = reprData r c ((before.map (·.1)).zip ws) :=
  c143_first_bytes r { c with attrs := before } vs ws hl h

/-- A packet with 40 bytes of data, whose last 8 are not shown. -/
example : reprPacket (fun v => match v with | .bytes b => toString b.length | .int n => toString n | _ => "")
    ⟨⟨9, "RoutePacket", [("channel", .int), ("data", .bytes)]⟩, [.int 3, .bytes (List.replicate 32 7 ++ List.replicate 8 9)]⟩ =
    "RoutePacket(channel=3, data=32 + 8 bytes)" := by decide +kernel
example : AlikeStart (.bytes (List.replicate 32 7 ++ [9])) (.bytes (List.replicate 32 7 ++ [8])) :=
  .inr ⟨_, _, rfl, rfl, by decide, by decide, by decide⟩

end Verif.Props
