import Verif.Spec.Client
import Verif.Proofs.JsonRpc
/-!
Lemmas for C75-C79 and C88.
-/
namespace Verif.Client
open Verif Verif.JsonRpc

/-! ### What comes of a batch -/

/-- A batch with distinct text ids, sent to the server. -/
theorem send_iff (b : Batch) (net : Reply) (id : String) :
    ((send b net).2 = none ∧ ∃ v, getResult (send b net).1 (.text id.toList) none = .ok v) ↔ Accepts (.reply net) id := by
  constructor
  · rintro ⟨h1, v, h2⟩
    cases net with
    | unreachable => exact nomatch h1
    | notJson => exact nomatch h1
    | json j =>
      cases j with
      | arr rs =>
        cases hd : dicts rs with
        | none => simp only [send, hd] at h1; exact nomatch h1
        | some ds =>
          have e := dicts_some hd
          cases he : errorsOf ds with
          | error x => simp only [send, hd, he] at h1; exact nomatch h1
          | ok es =>
            cases hr : resultsOf ds with
            | error x => simp only [send, hd, he, hr] at h1; exact nomatch h1
            | ok l =>
              have hu : Usable ds := by
                intro r hmem hor
                refine responseKey_scalar.1 ?_
                by_cases hl : lookup r sError = none
                · rcases hor with h | h
                  · exact absurd hl h
                  · exact resultsOf_some hr r hmem hl h
                · exact errorsOf_some he r hmem hl
              refine ⟨ds, by rw [e], hu, ?_⟩
              obtain ⟨l', hl', hs⟩ := resultsOf_spec hu
              rw [hr] at hl'
              injection hl' with hl'
              subst hl'
              suffices h : ∃ r ∈ ds, responseKey r = some (.str id.toList) ∧ lookup r sError = none by
                obtain ⟨r, h1, h2, h3⟩ := h
                exact ⟨r, h1, (hasId_iff (id := .text id.toList)).2 h2, h3⟩
              refine (hs _).1 ((lookup_isSome _ _).1 ?_)
              simp only [send, hd, he, hr, getResult] at h2
              cases hk : lookup l (CallId.text id.toList).key with
              | some r => exact ⟨r, hk⟩
              | none =>
                exfalso
                rw [hk] at h2
                simp only at h2
                split at h2
                · exact nomatch h2
                · split at h2 <;> exact nomatch h2
      | _ => exact nomatch h1
  · rintro ⟨rs, e, hu, r0, hr0, hr1, hr2⟩
    have hr : ∃ r ∈ rs, responseKey r = some (.str id.toList) ∧ lookup r sError = none :=
      ⟨r0, hr0, (hasId_iff (id := .text id.toList)).1 hr1, hr2⟩
    injection e with e
    subst e
    obtain ⟨es, he⟩ := errorsOf_ok hu
    obtain ⟨l, hl, hs⟩ := resultsOf_spec hu
    refine ⟨by simp only [send, dicts_map, he, hl], ?_⟩
    obtain ⟨r, hr⟩ := (lookup_isSome _ _).2 ((hs _).2 hr)
    have hr : lookup l (CallId.text id.toList).key = some r := hr
    exact ⟨_, by simp only [send, dicts_map, he, hl, getResult, hr]; rfl⟩

/-- A batch of calls with distinct ids. -/
theorem batch_spec (s : State) (ops : List BOp) (net : Net) (hd : (supplied ops).Nodup) (ha : .abandon ∉ ops) :
    (batch s ops net).2.2.1 = [expected s.rpc.callId ops] ∧
    (∃ c, (batch s ops net).1 = { s with rpc := c }) ∧
    (net ≠ .interrupt → (batch s ops net).2.2.2 ≠ some .interrupt) ∧
    ∀ id : String, ((batch s ops net).2.2.2 = none ∧ ∃ v, getResult (batch s ops net).2.1 (.text id.toList) none = .ok v) ↔ Accepts net id := by
  obtain ⟨h1, h2, h3, _⟩ := addAll_spec s.rpc .init ops ⟨by simp [Batch.init], hd⟩
  have h3 : (addAll s.rpc .init ops).2.1.abandoned = false := by
    rw [h3]
    simpa [Batch.init] using ha
  rcases hq : addAll s.rpc .init ops with ⟨c, b, x⟩
  rw [hq] at h1 h2 h3
  simp only at h1 h2 h3
  subst h1
  have hb : ∀ r, block s.rpc ops none r = (c, (send b r).1, [b.calls], (send b r).2) := by
    intro r
    simp only [block, hq, h3, Bool.false_eq_true, if_false]
  have hw : b.calls = expected s.rpc.callId ops := by rw [h2]; simp [Batch.init]
  cases net with
  | interrupt =>
    simp only [batch, hb]
    refine ⟨by rw [hw], ⟨_, rfl⟩, fun h => absurd rfl h, fun id => ⟨fun h => (nomatch h.1), ?_⟩⟩
    rintro ⟨rs, e, _⟩
    exact nomatch e
  | reply r =>
    simp only [batch, hb]
    refine ⟨by rw [hw], ⟨_, rfl⟩, fun _ h => ?_, fun id => ?_⟩
    · cases hs : (send b r).2 with
      | none => rw [hs] at h; exact nomatch h
      | some e => rw [hs] at h; exact nomatch h
    · rw [← send_iff b r id]
      simp

theorem caught_none {x : Option Raised} (h : x ≠ some .interrupt) : caught x = none := by
  cases x with
  | none => rfl
  | some x => cases x <;> first | rfl | exact absurd rfl h

/-! ### The parts of a poll -/

theorem diskCalls_ok (cfg : Config) (t u : Int) : (supplied (diskCalls cfg t u)).Nodup ∧ .abandon ∉ diskCalls cfg t u := by
  refine ⟨?_, by simp [diskCalls, authCall]⟩
  change ([CallId.text (nm "authenticate_result"), .text (nm "set_disk_space_result")] : List CallId).Nodup
  decide +kernel

theorem tagCalls_ok (cfg : Config) (l : List Text) : (supplied (tagCalls cfg l)).Nodup ∧ .abandon ∉ tagCalls cfg l := by
  refine ⟨?_, by simp [tagCalls, authCall]⟩
  change ([CallId.text (nm "authenticate_result"), tagId] : List CallId).Nodup
  decide +kernel

theorem metaCalls_ok (cfg : Config) (more : List (Text × Json)) (m : Except Raised Meta) :
    (supplied (authCall cfg more :: metaCalls m)).Nodup ∧ .abandon ∉ authCall cfg more :: metaCalls m := by
  cases m with
  | error x =>
    refine ⟨?_, by simp [metaCalls, authCall]⟩
    change ([CallId.text (nm "authenticate_result")] : List CallId).Nodup
    decide +kernel
  | ok m =>
    refine ⟨?_, by simp [metaCalls, authCall]⟩
    change (CallId.text (nm "authenticate_result") :: metaIds : List CallId).Nodup
    decide +kernel

/-- What a disk part does. -/
theorem disk_step (cfg : Config) (s : State) (e : DiskEnv) :
    (step cfg s (.disk e)).1.tagList = s.tagList ∧ (step cfg s (.disk e)).1.sentMeta = s.sentMeta ∧
    (step cfg s (.disk e)).1.nextDisk = (if s.nextDisk ≤ e.now then e.now + diskPeriod else s.nextDisk) ∧
    (step cfg s (.disk e)).2.1 = (if s.nextDisk ≤ e.now then (match e.usage with
      | .error _ => []
      | .ok (t, u) => [expected s.rpc.callId (diskCalls cfg t u)]) else []) ∧
    (Quiet (.disk e) → (step cfg s (.disk e)).2.2 = none) := by
  simp only [step, diskPoll]
  by_cases hn : s.nextDisk ≤ e.now
  · simp only [if_pos hn]
    cases hu : e.usage with
    | error x =>
      refine ⟨rfl, rfl, rfl, rfl, fun hq => caught_none ?_⟩
      intro h
      injection h with h
      exact hq.1 (h ▸ hu)
    | ok tu =>
      obtain ⟨t, u⟩ := tu
      simp only
      obtain ⟨h1, ⟨c, h2⟩, h3, _⟩ := batch_spec { s with nextDisk := e.now + diskPeriod } (diskCalls cfg t u) e.net (diskCalls_ok cfg t u).1
        (diskCalls_ok cfg t u).2
      rw [h1, h2]
      exact ⟨rfl, rfl, rfl, rfl, fun hq => caught_none (h3 hq.2)⟩
  · simp only [if_neg hn]
    exact ⟨trivial, trivial, trivial, trivial, fun _ => rfl⟩

open Classical in
/-- What a tags part does. -/
theorem tags_step (cfg : Config) (s : State) (e : TagEnv) :
    (step cfg s (.tags e)).1.nextDisk = s.nextDisk ∧ (step cfg s (.tags e)).1.sentMeta = s.sentMeta ∧
    (∀ l, e.tags = .ok l → s.tagList ≠ some l → (step cfg s (.tags e)).2.1 = [expected s.rpc.callId (tagCalls cfg l)] ∧
      (step cfg s (.tags e)).1.tagList = if Accepts e.net "set_machine_defined_tags_result" then some l else s.tagList) ∧
    ((∀ l, e.tags = .ok l → s.tagList = some l) → (step cfg s (.tags e)).2.1 = [] ∧ (step cfg s (.tags e)).1.tagList = s.tagList) ∧
    (Quiet (.tags e) → (step cfg s (.tags e)).2.2 = none) := by
  simp only [step, tagPoll]
  cases ht : e.tags with
  | error x =>
    have : ∀ y : Option Raised, (Quiet (.tags e) → caught y = none) →
        (s.nextDisk = s.nextDisk ∧ s.sentMeta = s.sentMeta ∧
        (∀ l, (.error x : Except Raised (List Text)) = .ok l → s.tagList ≠ some l → ([] : List (List Call)) = [expected s.rpc.callId (tagCalls cfg l)] ∧
          s.tagList = if Accepts e.net "set_machine_defined_tags_result" then some l else s.tagList) ∧
        ((∀ l, (.error x : Except Raised (List Text)) = .ok l → s.tagList = some l) → ([] : List (List Call)) = [] ∧ s.tagList = s.tagList) ∧
        (Quiet (.tags e) → caught y = none)) :=
      fun y hy => ⟨rfl, rfl, fun l hl => (nomatch hl), fun _ => ⟨rfl, rfl⟩, hy⟩
    cases x with
    | tagError => exact this none (fun _ => rfl)
    | rpc x => exact this (some (.rpc x)) (fun _ => rfl)
    | other => exact this (some .other) (fun _ => rfl)
    | interrupt => exact this (some .interrupt) (fun hq => absurd ht hq.1)
  | ok l =>
    simp only
    by_cases hl : some l ≠ s.tagList
    · rw [if_pos hl]
      obtain ⟨h1, ⟨c, h2⟩, h3, h4⟩ := batch_spec s (tagCalls cfg l) e.net (tagCalls_ok cfg l).1 (tagCalls_ok cfg l).2
      have h4 := h4 "set_machine_defined_tags_result"
      rcases hb : batch s (tagCalls cfg l) e.net with ⟨s', b, w, x⟩
      rw [hb] at h1 h2 h3 h4
      simp only at h1 h2 h3 h4
      subst h1; subst h2
      have h4 : (x = none ∧ ∃ v, getResult b tagId none = .ok v) ↔ Accepts e.net "set_machine_defined_tags_result" := h4
      cases x with
      | some x =>
        have hna : ¬ Accepts e.net "set_machine_defined_tags_result" := fun h => nomatch (h4.2 h).1
        refine ⟨rfl, rfl, fun l' hl' _ => ?_, fun h => absurd (h l rfl).symm hl, fun hq => ?_⟩
        · injection hl' with hl'
          subst hl'
          exact ⟨rfl, by rw [if_neg hna]⟩
        · have : caught (some x) = none := caught_none (h3 hq.2)
          simp only [this]
          rfl
      | none =>
        simp only
        cases hg : getResult b tagId none with
        | error er =>
          have hna : ¬ Accepts e.net "set_machine_defined_tags_result" := fun h => by
            obtain ⟨_, v, hv⟩ := h4.2 h
            rw [hg] at hv; exact nomatch hv
          refine ⟨rfl, rfl, fun l' hl' _ => ?_, fun h => absurd (h l rfl).symm hl, fun _ => rfl⟩
          injection hl' with hl'
          subst hl'
          exact ⟨rfl, by rw [if_neg hna]⟩
        | ok v =>
          have hna : Accepts e.net "set_machine_defined_tags_result" := h4.1 ⟨rfl, v, hg⟩
          refine ⟨rfl, rfl, fun l' hl' _ => ?_, fun h => absurd (h l rfl).symm hl, fun _ => rfl⟩
          injection hl' with hl'
          subst hl'
          exact ⟨rfl, by rw [if_pos hna]⟩
    · rw [if_neg hl]
      have hl : s.tagList = some l := Eq.symm (Classical.byContradiction hl)
      refine ⟨rfl, rfl, fun l' hl' hne => ?_, fun _ => ⟨rfl, hl.symm⟩, fun _ => rfl⟩
      injection hl' with hl'
      exact absurd (hl' ▸ hl) hne

theorem check_none (b : Batch) (ids : List CallId) : check b ids = none ↔ ∀ id ∈ ids, ∃ v, getResult b id none = .ok v := by
  induction ids with
  | nil => simp [check]
  | cons id ids ih =>
    simp only [check, List.forall_mem_cons]
    cases hg : getResult b id none with
    | error e => simp
    | ok v => simp [ih]

open Classical in
/-- What a sync does. -/
theorem sync_step (cfg : Config) (s : State) (e : SyncEnv) :
    (step cfg s (.sync e)).1.nextDisk = s.nextDisk ∧ (step cfg s (.sync e)).1.tagList = s.tagList ∧
    (step cfg s (.sync e)).2.1 = (if s.sentMeta then [] else
      [expected s.rpc.callId (authCall cfg [(nm "sync_id", .str e.syncId)] :: metaCalls e.info)]) ∧
    ((step cfg s (.sync e)).1.sentMeta = true ↔ s.sentMeta = true ∨ AcceptsMeta e.net) ∧
    (Quiet (.sync e) → (step cfg s (.sync e)).2.2 = none) := by
  simp only [step, sync, syncBody]
  cases hs : s.sentMeta with
  | true =>
    simp only [if_true]
    exact ⟨trivial, trivial, trivial, by simp [hs], fun _ => rfl⟩
  | false =>
    simp only [Bool.false_eq_true, if_false]
    obtain ⟨h1, ⟨c, h2⟩, h3, h4⟩ := batch_spec s _ e.net (metaCalls_ok cfg [(nm "sync_id", .str e.syncId)] e.info).1
      (metaCalls_ok cfg [(nm "sync_id", .str e.syncId)] e.info).2
    rcases hb : batch s (authCall cfg [(nm "sync_id", .str e.syncId)] :: metaCalls e.info) e.net with ⟨s', b, w, x⟩
    rw [hb] at h1 h2 h3 h4
    simp only at h1 h2 h3 h4
    subst h1; subst h2
    have hauth : (x = none ∧ ∃ v, getResult b authId none = .ok v) ↔ Accepts e.net "authenticate_result" := h4 _
    cases x with
    | some x =>
      refine ⟨rfl, rfl, rfl, ?_, fun hq => caught_none (h3 hq)⟩
      simp only [hs, Bool.false_eq_true, false_or, false_iff]
      intro h
      exact nomatch (hauth.2 h.1).1
    | none =>
      simp only
      cases hg : getResult b authId none with
      | error er =>
        refine ⟨rfl, rfl, rfl, ?_, fun _ => rfl⟩
        simp only [hs, Bool.false_eq_true, false_or, false_iff]
        intro h
        obtain ⟨_, v, hv⟩ := hauth.2 h.1
        rw [hg] at hv; exact nomatch hv
      | ok v =>
        have ha : Accepts e.net "authenticate_result" := hauth.1 ⟨rfl, v, hg⟩
        have hm : check b metaIds = none ↔ AcceptsMeta e.net := by
          rw [check_none]
          have g : ∀ id : String, (∃ v, getResult b (.text id.toList) none = .ok v) ↔ Accepts e.net id := by
            intro id
            rw [← h4 id]; simp
          simp only [metaIds, List.forall_mem_cons, AcceptsMeta, ha, true_and, nm, g]
          simp
        simp only [checkMeta, hs, Bool.false_eq_true, if_false, false_or]
        cases hc : check b metaIds with
        | none => exact ⟨by trivial, by trivial, by trivial, by simp [← hm, hc], fun _ => rfl⟩
        | some y => exact ⟨by trivial, by trivial, by trivial, by simp [← hm, hc, hs], fun _ => rfl⟩

end Verif.Client
