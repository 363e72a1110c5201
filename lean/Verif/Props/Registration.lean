import Verif.Spec.Registration
import Verif.Proofs.Packets
/-!
C148, C149: handlers of packets, and names of packets (`dataplicity/m2m/dispatcher.py`, `dataplicity/m2m/packets.py`).
-/
namespace Verif.Dispatcher
open Verif Packets

/-! ### C148 -/

theorem note_eq (d : Handlers) (a : Attr) (n : Nat) : (Exposes a n → note d a n = some a) ∧ (¬ Exposes a n → note d a n = d n) := by
  unfold note Exposes
  by_cases h : a.name.head? = some '_'
  · simp [h]
  · obtain ⟨name, e⟩ := a
    cases e with
    | none => simp_all
    | some e =>
      obtain ⟨k, params⟩ := e
      by_cases hk : n = k
      · subst hk; simp_all
      · have : ¬ k = n := fun e => hk e.symm
        simp_all

theorem register_fold (dir : List Attr) (d : Handlers) (n : Nat) :
    ((∀ a ∈ dir, ¬ Exposes a n) ∧ dir.foldl note d n = d n) ∨
    ∃ l a r, dir = l ++ a :: r ∧ Exposes a n ∧ (∀ b ∈ r, ¬ Exposes b n) ∧ dir.foldl note d n = some a := by
  induction dir generalizing d with
  | nil => exact .inl ⟨fun a h => (nomatch h), rfl⟩
  | cons a dir ih =>
    rw [List.foldl_cons]
    rcases ih (note d a) with ⟨h1, h2⟩ | ⟨l, b, r, h1, h2, h3, h4⟩
    · by_cases h : Exposes a n
      · exact .inr ⟨[], a, dir, rfl, h, h1, h2.trans ((note_eq d a n).1 h)⟩
      · exact .inl ⟨List.forall_mem_cons.2 ⟨h, h1⟩, h2.trans ((note_eq d a n).2 h)⟩
    · exact .inr ⟨a :: l, b, r, by rw [h1]; rfl, h2, h3, h4⟩

/-- C148: whatever attributes the object has, the handler of a packet is the last public method marked for it; a packet for which no public method is
marked has none. -/
theorem c148_registered (dir : List Attr) (n : Nat) :
    (∀ a, register dir n = some a ↔ ∃ l r, dir = l ++ a :: r ∧ Exposes a n ∧ ∀ b ∈ r, ¬ Exposes b n) ∧
    (register dir n = none ↔ ∀ a ∈ dir, ¬ Exposes a n) := by
  rcases register_fold dir (fun _ => none) n with ⟨h1, h2⟩ | ⟨l, a, r, h1, h2, h3, h4⟩
  · refine ⟨fun a => ⟨fun h => ?_, fun ⟨l, r, e, ha, _⟩ => ?_⟩, fun _ => h1, fun _ => h2⟩
    · rw [register, h2] at h; exact (nomatch h)
    · exact absurd ha (h1 a (by rw [e]; simp))
  · have hr : register dir n = some a := h4
    refine ⟨fun a' => ⟨fun h => ?_, fun ⟨l', r', e, ha, hb⟩ => ?_⟩, fun h => ?_, fun h => ?_⟩
    · rw [hr] at h; injection h with h; subst h; exact ⟨l, r, h1, h2, h3⟩
    · rw [hr]
      rw [h1] at e
      rcases List.append_eq_append_iff.1 e with ⟨t, e1, e2⟩ | ⟨t, e1, e2⟩
      · cases t with
        | nil => injection e2 with e2 _; rw [e2]
        | cons x t => injection e2 with _ e2; exact absurd ha (h3 a' (by rw [e2]; simp))
      · cases t with
        | nil => injection e2 with e2 _; rw [e2]
        | cons x t => injection e2 with _ e2; exact absurd h2 (hb a (by rw [e2]; simp))
    · rw [hr] at h; exact (nomatch h)
    · exact absurd h2 (h a (by rw [h1]; simp))

/-- C148: of two public methods that are marked for one packet the one wins whose name comes later in the order in which the names are looked at. -/
theorem c148_order (lt : Text → Text → Prop) (dir : List Attr) (hs : dir.Pairwise fun a b => lt a.name b.name) (n : Nat) (a b : Attr)
    (ha : register dir n = some a) (hb : b ∈ dir) (hbn : Exposes b n) : b = a ∨ lt b.name a.name := by
  obtain ⟨l, r, rfl, -, h⟩ := ((c148_registered dir n).1 a).1 ha
  rw [List.mem_append, List.mem_cons] at hb
  rcases hb with hb | hb | hb
  · exact .inr ((List.pairwise_append.1 hs).2.2 b hb a (.head _))
  · exact .inl hb
  · exact absurd hbn (h b hb)

/-- C148: after `disable` no packet reaches a method, and none raises. -/
theorem c148_disabled (t : Table) (p : Packet) (n : Int) (body : List PyVal) :
    t.disable.dispatchPacket p = .missing ∧ t.disable.dispatch n body = .nothing := ⟨rfl, rfl⟩

theorem client_nums : (clientAttrs.map fun a => (a.exposed.map (·.num))).Nodup := by decide +kernel
theorem client_public : ∀ a ∈ clientAttrs, a.name.head? ≠ some '_' ∧ a.exposed ≠ none := by decide +kernel
theorem client_handlers : handlers = clientAttrs.filterMap (·.exposed) := by decide +kernel

/-- C148: the client of the agent, whatever other attributes it has and in whatever order: each packet of `handlers`, the table with which the theorems
about the client are proved, goes to its method, and no other packet to any. -/
theorem c148_client (dir : List Attr) (h : ∀ a, (a ∈ dir ∧ Public a) ↔ a ∈ clientAttrs) (p : Packet) :
    ((Table.init dir).dispatchPacket p).forget = dispatchPacket p ∧
    (∀ m n args, (Table.init dir).dispatchPacket p = .call m n args → ∃ h, (⟨m, some h⟩ : Attr) ∈ clientAttrs ∧ h.num = n ∧ p.cls.num = n) := by
  have find : ∀ n, (register dir n).bind (·.exposed) = handlers.find? (fun h => h.num == n) := by
    intro n
    cases hr : register dir n with
    | none =>
      rw [Option.bind_none]
      have hn := ((c148_registered dir n).2).1 hr
      symm
      rw [List.find?_eq_none]
      intro x hx
      rw [client_handlers, List.mem_filterMap] at hx
      obtain ⟨a, ha, hax⟩ := hx
      intro e
      have e : x.num = n := by simpa using e
      refine hn a ((h a).2 ha).1 ⟨(client_public a ha).1, x.params, ?_⟩
      rw [hax, ← e]
    | some a =>
      obtain ⟨l, r, e, hex, -⟩ := ((c148_registered dir n).1 a).1 hr
      have ha : a ∈ clientAttrs := (h a).1 ⟨by rw [e]; simp, n, hex⟩
      obtain ⟨-, params, hx⟩ := hex
      rw [Option.bind_some, hx]
      symm
      have hm : (⟨n, params⟩ : Handler) ∈ handlers := by rw [client_handlers]; exact List.mem_filterMap.2 ⟨a, ha, hx⟩
      have hnd : (handlers.map (·.num)).Nodup := by decide +kernel
      generalize handlers = hs at *
      clear h hr e ha
      induction hs with
      | nil => exact (nomatch hm)
      | cons y ys ih =>
        rw [List.map_cons, List.nodup_cons] at hnd
        by_cases hy : y.num = n
        · rw [List.find?_cons_of_pos (by simpa using hy)]
          rcases List.mem_cons.1 hm with e | hm
          · rw [e]
          · exact absurd (List.mem_map.2 ⟨_, hm, hy.symm⟩) hnd.1
        · rw [List.find?_cons_of_neg (by simpa using hy)]
          rcases List.mem_cons.1 hm with e | hm
          · exact absurd (by rw [← e]) hy
          · exact ih hm hnd.2
  have hf := find p.cls.num
  unfold Table.dispatchPacket dispatchPacket
  simp only [Table.init]
  rw [← hf]
  cases hr : register dir p.cls.num with
  | none => exact ⟨rfl, fun m n args e => (nomatch e)⟩
  | some a =>
    obtain ⟨l, r, e, hex, -⟩ := ((c148_registered dir p.cls.num).1 a).1 hr
    have ha : a ∈ clientAttrs := (h a).1 ⟨by rw [e]; simp, _, hex⟩
    obtain ⟨-, params, hx⟩ := hex
    simp only [hx, Option.bind_some]
    split
    · rename_i hc
      refine ⟨?_, fun m n args e => ?_⟩
      · simp only [Outcome.forget]
      · injection e with e1 e2 _
        refine ⟨⟨p.cls.num, params⟩, ?_, e2, e2⟩
        rw [← e1, ← hx]
        exact ha
    · exact ⟨rfl, fun m n args e => (nomatch e)⟩

/-- Two methods for one packet, a private one and one that is not marked: the later public one is the handler. -/
example : let dir : List Attr := [⟨"_ping".toList, some ⟨7, ["data"]⟩⟩, ⟨"a_ping".toList, some ⟨7, ["data"]⟩⟩, ⟨"b_ping".toList, some ⟨7, []⟩⟩,
      ⟨"close".toList, none⟩]
    (register dir 7).map (·.name) = some "b_ping".toList ∧ register dir 8 = none ∧
    (Table.init dir).dispatch 7 [.bytes [1]] = .raised := by decide +kernel

/-- The client with other attributes. -/
example : (Table.init (⟨"close".toList, none⟩ :: clientAttrs.reverse)).dispatch 19 [.int 5] = .call "on_notify_close".toList 19 [.int 5] := by
  decide +kernel

end Verif.Dispatcher

namespace Verif.Packets
open Verif

/-! ### C149 -/

/-- C149: a packet type given by its name is the one given by its number. -/
theorem c149_name (name : String) (n : Nat) (h : (name, n) ∈ packetTypes) (r : PyVal → String) (args : List PyVal)
    (kwargs : List (String × PyVal)) :
    createBy r (.text name) args kwargs = createBy r (.num n) args kwargs ∧
    sendBy (.text name) args kwargs = sendBy (.num n) args kwargs := by
  have key : processType (.text name) = some (n : Int) := by
    have hnd : (packetTypes.map (·.1)).Nodup := by decide +kernel
    simp only [processType]
    generalize packetTypes = ts at *
    induction ts with
    | nil => exact (nomatch h)
    | cons t ts ih =>
      rw [List.map_cons, List.nodup_cons] at hnd
      by_cases ht : t.1 = name
      · rw [List.find?_cons_of_pos (by simpa using ht)]
        rcases List.mem_cons.1 h with e | h
        · rw [← e]; rfl
        · exact absurd (List.mem_map.2 ⟨_, h, ht.symm⟩) hnd.1
      · rw [List.find?_cons_of_neg (by simpa using ht)]
        rcases List.mem_cons.1 h with e | h
        · exact absurd (by rw [← e]) ht
        · exact ih h hnd.2
  have e : ∀ r, createBy r (.text name) args kwargs = createBy r (.num n) args kwargs := by
    intro r
    simp only [createBy, key]
    rfl
  refine ⟨e r, ?_⟩
  simp only [sendBy, e]

/-- C149: a `KeyError` is raised exactly for bytes, and for text that is no name of a packet type. -/
theorem c149_unknown (r : PyVal → String) (t : TypeArg) (args : List PyVal) (kwargs : List (String × PyVal)) :
    createBy r t args kwargs = none ↔ (∃ b, t = .bytes b) ∨ ∃ s, t = .text s ∧ ∀ n, (s, n) ∉ packetTypes := by
  simp only [createBy, Option.map_eq_none_iff]
  cases t with
  | num n => simp [processType]
  | bytes b => simp [processType]
  | text s =>
    simp only [processType, Option.map_eq_none_iff, List.find?_eq_none, beq_iff_eq]
    constructor
    · exact fun h => .inr ⟨s, rfl, fun n hn => h _ hn rfl⟩
    · rintro (⟨b, hb⟩ | ⟨s', hs, h⟩) e he hes
      · exact (nomatch hb)
      · injection hs with hs
        subst hs
        exact h e.2 (by rw [← hes]; exact he)

/-- C149: every name that the agent itself uses is that of a packet type with a class, and stands for the number with which the theorems about the
client are proved. -/
theorem c149_agent (name : String) (n : Nat) (h : (name, n) ∈ usedNames) (args : List PyVal) (kwargs : List (String × PyVal)) :
    sendBy (.text name) args kwargs = sendBy (.num n) args kwargs ∧
    sendBy (.text name) [] kwargs = WSClient.send n kwargs ∧ ∃ c ∈ classes, c.num = n := by
  have hall : ∀ x ∈ usedNames, x ∈ packetTypes ∧ ∃ c ∈ classes, c.num = x.2 := by decide +kernel
  obtain ⟨h1, h2⟩ := hall _ h
  refine ⟨(c149_name name n h1 (fun _ => "") args kwargs).2, ?_, h2⟩
  rw [(c149_name name n h1 (fun _ => "") [] kwargs).2]
  simp only [sendBy, createBy, processType, Option.map_some, WSClient.send]
  cases create (fun _ => "") n [] kwargs with
  | error e => rfl
  | ok p => rfl

/-- A name without a class, one that does not exist, and one of the agent's. -/
example : createBy (fun _ => "") (.text "request_open") [] [] = some (.error .valueError) ∧
    createBy (fun _ => "") (.text "pung") [] [] = none ∧
    sendBy (.text "pong") [] [("data", .bytes [1])] = some (asc "li8e1:" ++ [1] ++ asc "e") := by decide +kernel

end Verif.Packets
