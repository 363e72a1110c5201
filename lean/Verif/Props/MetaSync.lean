import Verif.Proofs.MetaSync
import Verif.Props.Server
/-!
C189: the information about the device that the server has, and what the device says at the time.
-/
namespace Verif.MetaSync
open Verif Server

/-- C189, exactly: in every history from the start of the agent, whatever messages and replies are lost and however the device changes: once the client
takes the information for sent, the server has what the device said at the first sync at which it could be asked, whichever sync was accepted. -/
theorem c189_first {cfg : Client.Config} {s s' : Client.State} {m m' : Client.Manager} {srv srv' : Srv} (xs : List (Happening × Way))
    (h : Loop cfg s m srv (moves cfg s m .init xs) s' m' srv') (h0 : s.sentMeta = false) (h1 : s'.sentMeta = true) :
    ∃ i, First (xs.filterMap (·.1.facts)) i ∧ HasMeta srv' i := by
  obtain ⟨e, way, i, k1, k2, k3⟩ := c118_meta h h0 h1
  exact ⟨i, first_info xs .init rfl h e i way k1 k2, k3⟩

theorem says_unique {f : Device.Facts} {i i' : Client.Meta} (h : Says f i) (h' : Says f i') : i = i' := by
  obtain ⟨a1, a2, a3, a4, a5, a6⟩ := h
  obtain ⟨b1, b2, b3, b4, b5, b6⟩ := h'
  obtain ⟨x1, x2, x3, x4, x5, x6⟩ := i
  obtain ⟨y1, y2, y3, y4, y5, y6⟩ := i'
  simp only at a1 a2 a3 a4 a5 a6 b1 b2 b3 b4 b5 b6
  rw [b2] at a2
  rw [b3] at a3
  injection a2 with a2
  injection a3 with a3
  have : x6 = y6 := by
    rcases a6 with a6 | ⟨a6, a7⟩ <;> rcases b6 with b6 | ⟨b6, b7⟩
    · rw [b6] at a6; injection a6 with a6; exact a6.symm
    · rw [b6] at a6; exact (nomatch a6)
    · rw [b6] at a6; exact (nomatch a6)
    · rw [a7, b7]
  subst this
  rw [← a1, ← a4, ← a5, ← b1, ← b4, ← b5, a2, a3]

/-- C189, the part that holds: on a device that says the same at every sync, the server has that.  Missing: devices whose addresses change, see
`c189_counterexample`. -/
theorem c189_partial {cfg : Client.Config} {s s' : Client.State} {m m' : Client.Manager} {srv srv' : Srv} (xs : List (Happening × Way))
    (h : Loop cfg s m srv (moves cfg s m .init xs) s' m' srv') (h0 : s.sentMeta = false) (h1 : s'.sentMeta = true) (i : Client.Meta)
    (hs : ∀ f ∈ xs.filterMap (·.1.facts), Says f i) : HasMeta srv' i := by
  obtain ⟨i', ⟨a, f, b, e, k1, -⟩, k3⟩ := c189_first xs h h0 h1
  rw [says_unique (hs f (by rw [e]; simp)) k1]
  exact k3

/-- A device that has no network yet. -/
def early : Device.Facts := ⟨"1.0".toList, .ok none, .ok "pi".toList, "linux".toList, "uname".toList, some ["127.0.0.1".toList]⟩
/-- The device when it has. -/
def later : Device.Facts := { early with ipList := some ["127.0.0.1".toList, "10.0.0.1".toList] }
/-- What is sent. -/
def earlyMeta : Client.Meta := ⟨"1.0".toList, none, "pi".toList, "linux".toList, "uname".toList, ["127.0.0.1".toList]⟩
/-- The calls of a sync. -/
def earlyCalls : List JsonRpc.Call :=
  JsonRpc.expected 1 (Client.authCall exCfg [(Client.nm "sync_id", .str "x".toList)] :: Client.metaCalls (.ok earlyMeta))

/-- The agent starts before the device is on the network, and syncs again when it is. -/
def boot : List (Happening × Way) :=
  [(.sync early "x".toList (.reply .unreachable), .lostRequest),
   (.sync later "x".toList (.reply (goodReply okProcs earlyCalls)), .served)]

/-- C189 fails: when the agent starts before the device has its address, and the first sync fails for that reason, the server is never told the
address. -/
theorem c189_counterexample (srv : Srv) : ∃ s' m' srv', Loop exCfg (.init 0) ⟨none, none⟩ srv (moves exCfg (.init 0) ⟨none, none⟩ .init boot) s' m' srv' ∧
    s'.sentMeta = true ∧ srv' "device.set_ip_addresses".toList = some (.obj [("ip_list".toList, .arr [.str "127.0.0.1".toList])]) := by
  obtain ⟨g, i1, i2⟩ : ∃ g, info .init early = (g, .ok earlyMeta) ∧ Holds g (some earlyMeta) := by
    have hs : Says early earlyMeta := ⟨rfl, rfl, rfl, rfl, rfl, .inl rfl⟩
    rcases info_empty .init rfl early with ⟨m, g, k1, k2, k3⟩ | ⟨k1, -⟩
    · rw [says_unique hs k1]
      exact ⟨g, k2, k3⟩
    · exact absurd hs (k1 _)
  obtain ⟨g', i3, -⟩ := info_full g earlyMeta i2 later
  have h1 : (Client.move exCfg (.init 0) ⟨none, none⟩ (.event (.sync ⟨.ok earlyMeta, "x".toList, .reply .unreachable⟩))).1 = .init 0 ∧
      (Client.move exCfg (.init 0) ⟨none, none⟩ (.event (.sync ⟨.ok earlyMeta, "x".toList, .reply .unreachable⟩))).2 =
        (⟨none, none⟩, [earlyCalls]) := by decide +kernel
  have h2 : (Client.move exCfg (.init 0) ⟨none, none⟩
        (.event (.sync ⟨.ok earlyMeta, "x".toList, .reply (goodReply okProcs earlyCalls)⟩))).1 = ⟨.init, 0, none, true⟩ ∧
      (Client.move exCfg (.init 0) ⟨none, none⟩ (.event (.sync ⟨.ok earlyMeta, "x".toList, .reply (goodReply okProcs earlyCalls)⟩))).2 =
        (⟨none, none⟩, [earlyCalls]) := by decide +kernel
  have hm : moves exCfg (.init 0) ⟨none, none⟩ .init boot =
      [(.event (.sync ⟨.ok earlyMeta, "x".toList, .reply .unreachable⟩), .lostRequest),
       (.event (.sync ⟨.ok earlyMeta, "x".toList, .reply (goodReply okProcs earlyCalls)⟩), .served)] := by
    have e0 : (Client.State.init 0).sentMeta = false := rfl
    simp only [boot, moves, e0, happen_asked, i1, h1.1, h1.2, i3]
  have hl : Loop exCfg (.init 0) ⟨none, none⟩ srv (moves exCfg (.init 0) ⟨none, none⟩ .init boot) ⟨.init, 0, none, true⟩ ⟨none, none⟩
      (apply okProcs earlyCalls srv) := by
    rw [hm]
    refine .cons (srv1 := srv) ?_ (.cons (srv1 := apply okProcs earlyCalls srv) ?_ ?_)
    · rw [h1.2]; exact ⟨.inl rfl, rfl⟩
    · rw [h1.1, h1.2, h2.2]
      exact ⟨okProcs, _, rfl, goodReply_conforms okProcs earlyCalls rfl, rfl⟩
    · rw [h1.1, h1.2, h2.1, h2.2]
      exact .nil _ _ _
  obtain ⟨i, ⟨a, f, b, e, k1, k2⟩, k3⟩ := c189_first boot hl rfl rfl
  have hi : i = earlyMeta := by
    have he : a = [] ∧ f = early := by
      cases a with
      | nil =>
        injection e with e _
        exact ⟨rfl, e.symm⟩
      | cons x a =>
        injection e with e _
        exact absurd (⟨rfl, rfl, rfl, rfl, rfl, .inl rfl⟩ : Says early earlyMeta) (e ▸ k2 x (by simp) earlyMeta)
    rw [he.2] at k1
    exact says_unique k1 ⟨rfl, rfl, rfl, rfl, rfl, .inl rfl⟩
  rw [hi] at k3
  exact ⟨_, _, _, hl, rfl, k3.2.2.2.2.2⟩

end Verif.MetaSync
