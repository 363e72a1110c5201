import Verif.Spec.MetaSync
import Verif.Proofs.Server
import Verif.Proofs.Client
/-!
Lemmas for C189.
-/
namespace Verif.MetaSync
open Verif Server

/-- The cache is empty, or holds `m`. -/
def Holds (h : Device.Heap) (o : Option Client.Meta) : Prop := match h.cache, o with
  | none, none => True
  | some c, some m => items h c = some m ∧ c < h.nDicts
  | _, _ => False

/-- With an empty cache the device is asked. -/
theorem info_empty (h : Device.Heap) (hc : h.cache = none) (f : Device.Facts) :
    (∃ m h', Says f m ∧ info h f = (h', .ok m) ∧ Holds h' (some m)) ∨ ((∀ m, ¬ Says f m) ∧ info h f = (h, .error .other)) := by
  obtain ⟨a, r, n, o, u, i⟩ := f
  cases r with
  | error e =>
    refine .inr ⟨fun m hm => (nomatch hm.2.1), ?_⟩
    simp only [info, Device.getMeta, hc]
  | ok r =>
    cases n with
    | error e =>
      refine .inr ⟨fun m hm => (nomatch hm.2.2.1), ?_⟩
      simp only [info, Device.getMeta, hc]
    | ok n =>
      have key : items (Device.getMeta h ⟨a, .ok r, .ok n, o, u, i⟩).1 h.nDicts = some ⟨a, r, n, o, u, i.getD []⟩ := by
        simp only [Device.getMeta, hc, items, Device.setAt, if_true]
        have d1 : ¬ Device.kRevision = Device.kAgent := by decide +kernel
        have d2 : ¬ Device.kModel = Device.kAgent := by decide +kernel
        have d3 : ¬ Device.kModel = Device.kRevision := by decide +kernel
        have d4 : ¬ Device.kOs = Device.kAgent := by decide +kernel
        have d5 : ¬ Device.kOs = Device.kRevision := by decide +kernel
        have d6 : ¬ Device.kOs = Device.kModel := by decide +kernel
        have d7 : ¬ Device.kUname = Device.kAgent := by decide +kernel
        have d8 : ¬ Device.kUname = Device.kRevision := by decide +kernel
        have d9 : ¬ Device.kUname = Device.kModel := by decide +kernel
        have d10 : ¬ Device.kUname = Device.kOs := by decide +kernel
        have e1 : ¬ Device.kIps = Device.kAgent := by decide +kernel
        have e2 : ¬ Device.kIps = Device.kRevision := by decide +kernel
        have e3 : ¬ Device.kIps = Device.kModel := by decide +kernel
        have e4 : ¬ Device.kIps = Device.kOs := by decide +kernel
        have e5 : ¬ Device.kIps = Device.kUname := by decide +kernel
        simp only [d1, d2, d3, d4, d5, d6, d7, d8, d9, d10, e1, e2, e3, e4, e5, if_true, if_false]
        cases r <;> rfl
      refine .inl ⟨⟨a, r, n, o, u, i.getD []⟩, (Device.getMeta h ⟨a, .ok r, .ok n, o, u, i⟩).1, ⟨rfl, rfl, rfl, rfl, rfl, ?_⟩, ?_, ?_⟩
      · cases i with
        | none => exact .inr ⟨rfl, rfl⟩
        | some l => exact .inl rfl
      · have h2 : Device.getMeta h ⟨a, .ok r, .ok n, o, u, i⟩ = ((Device.getMeta h ⟨a, .ok r, .ok n, o, u, i⟩).1, .ok h.nDicts) := by
          simp only [Device.getMeta, hc]
        unfold info
        rw [h2]
        simp only [key]
      · have h2 : (Device.getMeta h ⟨a, .ok r, .ok n, o, u, i⟩).1.cache = some h.nDicts := by simp only [Device.getMeta, hc]
        have h3 : (Device.getMeta h ⟨a, .ok r, .ok n, o, u, i⟩).1.nDicts = h.nDicts + 1 := by simp only [Device.getMeta, hc]
        unfold Holds
        rw [h2]
        exact ⟨key, by omega⟩

/-- With a cache it is not. -/
theorem info_full (h : Device.Heap) (m : Client.Meta) (hh : Holds h (some m)) (f : Device.Facts) :
    ∃ h', info h f = (h', .ok m) ∧ Holds h' (some m) := by
  unfold Holds at hh
  cases hc : h.cache with
  | none => rw [hc] at hh; exact hh.elim
  | some c =>
    rw [hc] at hh
    obtain ⟨h1, h2⟩ := hh
    have hg : Device.getMeta h f = ({ h with dicts := Device.setAt h.dicts h.nDicts (h.dicts c), nDicts := h.nDicts + 1 }, .ok h.nDicts) := by
      simp only [Device.getMeta, hc]
    have i1 : items { h with dicts := Device.setAt h.dicts h.nDicts (h.dicts c), nDicts := h.nDicts + 1 } h.nDicts = some m := by
      rw [← h1]
      simp only [items, Device.setAt, if_true]
    have i2 : items { h with dicts := Device.setAt h.dicts h.nDicts (h.dicts c), nDicts := h.nDicts + 1 } c = some m := by
      have : c ≠ h.nDicts := by omega
      rw [← h1]
      simp only [items, Device.setAt, this, if_false]
    refine ⟨{ h with dicts := Device.setAt h.dicts h.nDicts (h.dicts c), nDicts := h.nDicts + 1 }, by unfold info; rw [hg]; simp only [i1], ?_⟩
    simp only [Holds, hc]
    exact ⟨i2, by omega⟩

theorem happen_sent (h : Device.Heap) (f : Device.Facts) (id : Text) (net : Client.Net) :
    happen h true (.sync f id net) = (h, .event (.sync ⟨.error .other, id, net⟩)) := rfl

theorem happen_asked (h : Device.Heap) (f : Device.Facts) (id : Text) (net : Client.Net) :
    happen h false (.sync f id net) = ((info h f).1, .event (.sync ⟨(info h f).2, id, net⟩)) := rfl

theorem sync_keeps (cfg : Client.Config) (s : Client.State) (m : Client.Manager) (e : Client.SyncEnv) (hs : s.sentMeta = true) :
    (Client.move cfg s m (.event (.sync e))).1.sentMeta = true := (Client.sync_step cfg s e).2.2.2.1.2 (.inl hs)

/-- Once the information was sent, it is not got again. -/
theorem sent_silent {cfg : Client.Config} (xs : List (Happening × Way)) {s s' : Client.State} {m m' : Client.Manager} {srv srv' : Srv}
    (h : Device.Heap) (hl : Loop cfg s m srv (moves cfg s m h xs) s' m' srv') (hs : s.sentMeta = true) (e : Client.SyncEnv) (i : Client.Meta)
    (a : Way) (he : (.event (.sync e), a) ∈ moves cfg s m h xs) : e.info ≠ .ok i := by
  induction xs generalizing s m h srv with
  | nil => simp [moves] at he
  | cons x xs ih =>
    obtain ⟨x, b⟩ := x
    simp only [moves] at hl he
    rcases List.mem_cons.1 he with he | he
    · cases x with
      | sync f id net =>
        rw [hs, happen_sent] at he
        injection he with he
        injection he with he
        injection he with he
        rw [he]
        exact fun h => (nomatch h)
      | disk d => injection he with he; injection he with he; exact (nomatch he)
      | tags d => injection he with he; injection he with he; exact (nomatch he)
      | identity j r => injection he with he; exact (nomatch he)
    · cases hl with
      | cons hd rest =>
        refine ih _ rest ?_ he
        cases x with
        | sync f id net => rw [hs, happen_sent]; exact sync_keeps _ _ _ _ hs
        | disk d => exact (disk_move hd).2.1.trans hs
        | tags d => exact (tags_move hd).1.trans hs
        | identity j r => exact (identity_move hd).2.1.trans hs

/-- With a cache, every sync that has information has that of the cache. -/
theorem cached_info (cfg : Client.Config) {α : Type} (xs : List (Happening × α)) (s : Client.State) (m : Client.Manager)
    (h : Device.Heap) (i : Client.Meta) (hh : Holds h (some i)) (e : Client.SyncEnv) (i' : Client.Meta) (a : α)
    (he : (.event (.sync e), a) ∈ moves cfg s m h xs) (hi : e.info = .ok i') : i' = i := by
  induction xs generalizing s m h with
  | nil => simp [moves] at he
  | cons x xs ih =>
    obtain ⟨x, b⟩ := x
    simp only [moves] at he
    rcases List.mem_cons.1 he with he | he
    · cases x with
      | sync f id net =>
        cases hs : s.sentMeta with
        | true =>
          rw [hs, happen_sent] at he
          injection he with he
          injection he with he
          injection he with he
          rw [he] at hi
          exact (nomatch hi)
        | false =>
          rw [hs, happen_asked] at he
          injection he with he
          injection he with he
          injection he with he
          obtain ⟨h', h1, -⟩ := info_full h i hh f
          rw [he, h1] at hi
          injection hi with hi
          exact hi.symm
      | disk d => injection he with he; injection he with he; exact (nomatch he)
      | tags d => injection he with he; injection he with he; exact (nomatch he)
      | identity j r => injection he with he; exact (nomatch he)
    · refine ih _ _ _ ?_ he
      cases x with
      | sync f id net =>
        cases hs : s.sentMeta with
        | true => exact hh
        | false =>
          rw [happen_asked]
          obtain ⟨h', h1, h2⟩ := info_full h i hh f
          rw [h1]
          exact h2
      | disk d => exact hh
      | tags d => exact hh
      | identity j r => exact hh

/-- Without a cache, it has that of the first sync that could get it. -/
theorem first_info {cfg : Client.Config} (xs : List (Happening × Way)) {s s' : Client.State} {m m' : Client.Manager} {srv srv' : Srv}
    (h : Device.Heap) (hc : h.cache = none) (hl : Loop cfg s m srv (moves cfg s m h xs) s' m' srv') (e : Client.SyncEnv) (i : Client.Meta)
    (a : Way) (he : (.event (.sync e), a) ∈ moves cfg s m h xs) (hi : e.info = .ok i) : First (xs.filterMap (·.1.facts)) i := by
  induction xs generalizing s m h srv with
  | nil => simp [moves] at he
  | cons x xs ih =>
    have hl0 := hl
    have he0 := he
    obtain ⟨x, b⟩ := x
    simp only [moves] at hl he
    have skip : x.facts = none → (happen h s.sentMeta x).1 = h → (∀ e, (happen h s.sentMeta x).2 ≠ .event (.sync e)) →
        First (((x, b) :: xs).filterMap (·.1.facts)) i := by
      intro h1 h2 h3
      rw [List.filterMap_cons, show ((x, b) : Happening × Way).1.facts = none from h1]
      rcases List.mem_cons.1 he with he | he
      · injection he with he
        exact absurd he.symm (h3 e)
      · cases hl with
        | cons hd rest =>
          rw [h2] at rest he
          exact ih h hc rest he
    cases x with
    | disk d => exact skip rfl rfl (fun e h => by injection h with h; exact (nomatch h))
    | tags d => exact skip rfl rfl (fun e h => by injection h with h; exact (nomatch h))
    | identity j r => exact skip rfl rfl (fun e h => (nomatch h))
    | sync f id net =>
      rw [List.filterMap_cons, show ((Happening.sync f id net, b) : Happening × Way).1.facts = some f from rfl]
      cases hs : s.sentMeta with
      | true => exact absurd hi (sent_silent _ h hl0 hs e i a he0)
      | false =>
        rw [hs, happen_asked] at hl he
        rcases info_empty h hc f with ⟨i', h', k1, k2, k3⟩ | ⟨k1, k2⟩
        · refine ⟨[], f, xs.filterMap (·.1.facts), rfl, ?_, by simp⟩
          rw [k2] at he
          rcases List.mem_cons.1 he with he | he
          · injection he with he
            injection he with he
            injection he with he
            rw [he] at hi
            injection hi with hi
            exact hi ▸ k1
          · rw [cached_info cfg xs _ _ h' i' k3 e i a he hi]
            exact k1
        · rw [k2] at hl he
          rcases List.mem_cons.1 he with he | he
          · injection he with he
            injection he with he
            injection he with he
            rw [he] at hi
            exact (nomatch hi)
          · cases hl with
            | cons hd rest =>
              obtain ⟨p, g, q, h1, h2, h3⟩ := ih h hc rest he
              refine ⟨f :: p, g, q, by simp only [h1, List.cons_append], h2, ?_⟩
              intro x hx
              rcases List.mem_cons.1 hx with hx | hx
              · rw [hx]; exact k1
              · exact h3 x hx

end Verif.MetaSync
