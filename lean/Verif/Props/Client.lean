import Verif.Proofs.Client
/-!
C75-C79, C88 and C94: polling, reports to the server and the identity.
-/
namespace Verif.Client
open Verif Verif.JsonRpc

/-! ### Inputs for the examples -/

def exConfig : Config := ⟨"abc".toList, some "secret".toList⟩

/-- A server that answers the given calls without error. -/
def okFor (ids : List String) : Net :=
  .reply (.json (.arr (ids.map (fun id => .obj [("id".toList, .str id.toList), ("result".toList, .null)]))))

/-- A server that answers the given calls with an error. -/
def errFor (ids : List String) : Net :=
  .reply (.json (.arr (ids.map (fun id => .obj [("id".toList, .str id.toList), ("error".toList, .obj [])]))))

def exMeta : Meta := ⟨"0.5".toList, none, "pi".toList, "os".toList, "linux".toList, ["127.0.0.1".toList]⟩

def exIds : List String := ["set_agent_version_result", "set_machine_revision_result", "set_model_name_result", "set_os_version_result",
  "set_uname_result", "set_ip_addresses_result"]

/-! ### C75 -/

/-- C75: no part of a poll raises, unless the process is being ended. -/
theorem c75_step (cfg : Config) (s : State) (ev : Event) (h : Quiet ev) : (step cfg s ev).2.2 = none := by
  cases ev with
  | disk e => exact (disk_step cfg s e).2.2.2.2 h
  | tags e => exact (tags_step cfg s e).2.2.2.2 h
  | sync e => exact (sync_step cfg s e).2.2.2.2 h

/-- C75: a poll returns normally, whatever disk, tag script, device, network and server do. -/
theorem c75_poll (cfg : Config) (s : State) (e : PollEnv) (h : QuietPoll e) : (poll cfg s e).2.2 = none := by
  have h1 := c75_step cfg s _ h.1
  simp only [poll]
  rcases hd : step cfg s (.disk e.disk) with ⟨s1, w1, x1⟩
  rw [hd] at h1
  simp only at h1
  subst h1
  simp only
  have h2 := c75_step cfg s1 _ h.2.1
  rcases ht : step cfg s1 (.tags e.tags) with ⟨s2, w2, x2⟩
  rw [ht] at h2
  simp only at h2
  subst h2
  exact c75_step cfg s2 _ h.2.2

/-- C75: the agent keeps polling until it is told to exit. -/
theorem c75_forever (cfg : Config) (s : State) (first : PollEnv) (waits : List (Option PollEnv)) (hf : QuietPoll first)
    (hw : ∀ e, some e ∈ waits → QuietPoll e) :
    runForever cfg s first waits = (1 + (waits.takeWhile (·.isSome)).length, if waits.any (·.isNone) then .exited else .running) := by
  have hloop : ∀ (s : State) (l : List (Option PollEnv)), (∀ e, some e ∈ l → QuietPoll e) →
      loop cfg s l = ((l.takeWhile (·.isSome)).length, if l.any (·.isNone) then .exited else .running) := by
    intro s l
    induction l generalizing s with
    | nil => intro _; simp [loop]
    | cons x l ih =>
      intro h
      cases x with
      | none => simp [loop]
      | some e =>
        have hp := c75_poll cfg s e (h e (by simp))
        simp only [loop]
        rcases hq : poll cfg s e with ⟨s', w, y⟩
        rw [hq] at hp
        simp only at hp
        subst hp
        simp only [ih s' (fun e he => h e (List.mem_cons_of_mem _ he))]
        rfl
  have h : loop cfg s (some first :: waits) = _ := hloop s (some first :: waits) (fun e he => by
    rcases List.mem_cons.1 he with e' | he
    · injection e' with e'; exact e' ▸ hf
    · exact hw e he)
  simp only [runForever, h]
  have e1 : (some first :: waits).takeWhile (fun x => x.isSome) = some first :: waits.takeWhile (fun x => x.isSome) := rfl
  have e2 : (some first :: waits).any (fun x => x.isNone) = waits.any (fun x => x.isNone) := by simp
  rw [e1, e2]
  simp only [List.length_cons, Nat.add_comm 1]
  cases waits.any (fun x => x.isNone) <;> rfl

theorem caught_only (y : Option Raised) (x : Raised) (h : caught y = some x) : x = .interrupt := by
  unfold caught at h
  split at h
  · exact (Option.some.inj h).symm
  · exact (nomatch h)

theorem step_only (cfg : Config) (s : State) (ev : Event) (x : Raised) (h : (step cfg s ev).2.2 = some x) : x = .interrupt := by
  cases ev with
  | disk e => exact caught_only _ x h
  | tags e => exact caught_only _ x h
  | sync e => exact caught_only _ x h

theorem poll_only (cfg : Config) (s : State) (e : PollEnv) (x : Raised) (h : (poll cfg s e).2.2 = some x) : x = .interrupt := by
  simp only [poll] at h
  rcases hd : step cfg s (.disk e.disk) with ⟨s1, w1, x1⟩
  rw [hd] at h
  cases x1 with
  | some y => exact step_only cfg s _ x (by rw [hd]; exact h)
  | none =>
    simp only at h
    rcases ht : step cfg s1 (.tags e.tags) with ⟨s2, w2, x2⟩
    rw [ht] at h
    cases x2 with
    | some y => exact step_only cfg s1 _ x (by rw [ht]; exact h)
    | none => exact step_only cfg s2 (.sync e.sync) x h

/-- C75: the agent never ends by an exception, whatever disk, tag script, device, network and server do and whenever the process is interrupted: it
polls until it is told to exit or is interrupted, and then returns. -/
theorem c75_returns (cfg : Config) (s : State) (first : PollEnv) (waits : List (Option PollEnv)) (x : Raised) :
    (runForever cfg s first waits).2 ≠ .raised x := by
  have hloop : ∀ (l : List (Option PollEnv)) (s : State) (y : Raised), (loop cfg s l).2 = .raised y → y = .interrupt := by
    intro l
    induction l with
    | nil => exact fun _ _ h => (nomatch h)
    | cons a l ih =>
      intro s y h
      cases a with
      | none => exact (nomatch h)
      | some e =>
        simp only [loop] at h
        rcases hp : poll cfg s e with ⟨s', w, z⟩
        rw [hp] at h
        cases z with
        | none => exact ih s' y h
        | some z =>
          cases h
          exact poll_only cfg s e y (by rw [hp])
  intro h
  simp only [runForever] at h
  rcases hl : loop cfg s (some first :: waits) with ⟨n, f⟩
  rw [hl] at h
  have hi := hloop (some first :: waits) s
  rw [hl] at hi
  cases f with
  | running => exact (nomatch h)
  | exited => exact (nomatch h)
  | raised y =>
    have hy := hi y rfl
    subst hy
    exact (nomatch h)

/-- Everything fails, in three polls. -/
example : runForever exConfig (.init 0) ⟨⟨5, .error .other, .interrupt⟩, ⟨.error .other, .reply .notJson⟩, ⟨.error .interrupt, [], .reply .unreachable⟩⟩
    [some ⟨⟨0, .ok (5, 5), .reply .notJson⟩, ⟨.ok [], .reply (.json .null)⟩, ⟨.ok exMeta, [], .reply (.json (.arr [.null]))⟩⟩,
     some ⟨⟨0, .ok (5, 5), .reply .notJson⟩, ⟨.error .tagError, .reply (.json .null)⟩, ⟨.ok exMeta, [], errFor exIds⟩⟩, none, none] =
    (3, .exited) := by decide +kernel
/-- An interrupt does end it. -/
example : runForever exConfig (.init 0) ⟨⟨5, .error .interrupt, .interrupt⟩, ⟨.error .other, .reply .notJson⟩, ⟨.error .other, [], .interrupt⟩⟩
    [] = (1, .exited) := by decide +kernel

/-! ### C76 -/

/-- C76: two disk reports are at least 3600 seconds apart, whatever the clock does. -/
theorem c76_apart (cfg : Config) (s : State) (evs : List Event) :
    (reports (record cfg s evs)).Pairwise (fun a b => a + 3600 * 1000000 ≤ b) := by
  have key : ∀ (evs : List Event) (s : State), (reports (record cfg s evs)).Pairwise (fun a b => a + 3600 * 1000000 ≤ b) ∧
      ∀ t ∈ reports (record cfg s evs), s.nextDisk ≤ t := by
    intro evs
    induction evs with
    | nil => exact fun s => ⟨List.Pairwise.nil, fun t ht => nomatch ht⟩
    | cons ev evs ih =>
      intro s
      obtain ⟨h1, h2⟩ := ih (step cfg s ev).1
      cases ev with
      | tags e => rw [(tags_step cfg s e).1] at h2; exact ⟨h1, h2⟩
      | sync e => rw [(sync_step cfg s e).1] at h2; exact ⟨h1, h2⟩
      | disk e =>
        obtain ⟨_, _, h3, h4, _⟩ := disk_step cfg s e
        rw [h3] at h2
        by_cases hn : s.nextDisk ≤ e.now
        · rw [if_pos hn] at h2
          have hp : diskPeriod = 3600 * 1000000 := rfl
          have h5 : ∀ t ∈ reports (record cfg (step cfg s (.disk e)).1 evs), s.nextDisk ≤ t := fun t ht => by have := h2 t ht; omega
          simp only [record, reports]
          split
          · exact ⟨h1, h5⟩
          · refine ⟨List.pairwise_cons.2 ⟨fun t ht => ?_, h1⟩, fun t ht => ?_⟩
            · have := h2 t ht; omega
            · rcases List.mem_cons.1 ht with rfl | ht
              · exact hn
              · exact h5 t ht
        · rw [if_neg hn] at h2 h4
          simp only [record, reports, h4, if_true]
          exact ⟨h1, h2⟩
  exact (key evs s).1

/-- C76: a report holds the figures, and is sent if the clock has reached the time due. -/
theorem c76_content (cfg : Config) (s : State) (e : DiskEnv) {total used : Int} (hu : e.usage = .ok (total, used)) :
    (step cfg s (.disk e)).2.1 = if s.nextDisk ≤ e.now then
      [[authRequest cfg [], request "set_disk_space_result" "device.set_disk_space" [("disk_capacity", .int total), ("disk_used", .int used)]]]
      else [] := by
  rw [(disk_step cfg s e).2.2.2.1, hu]
  cases cfg with
  | mk serial token => cases token <;> rfl

/-- C76, the part that holds: the first poll reports if the disk can be read and the clock did not go back since the start. -/
theorem c76_first_partial (cfg : Config) (start : Int) (pre : List Event) (hpre : ∀ e, .disk e ∉ pre) (e : DiskEnv) (hnow : start ≤ e.now)
    {total used : Int} (hu : e.usage = .ok (total, used)) : (step cfg (run cfg (.init start) pre) (.disk e)).2.1 ≠ [] := by
  have h : ∀ s : State, (run cfg s pre).nextDisk = s.nextDisk := by
    induction pre with
    | nil => exact fun s => rfl
    | cons ev pre ih =>
      intro s
      simp only [run]
      rw [ih (fun e he => hpre e (List.mem_cons_of_mem _ he))]
      cases ev with
      | disk e => exact absurd (by simp) (hpre e)
      | tags e => exact (tags_step cfg s e).1
      | sync e => exact (sync_step cfg s e).1
  rw [c76_content cfg _ e hu, h, if_pos (by exact hnow)]
  simp

/-- C76, exactly when the first poll reports: the disk can be read and the clock has reached the time of the start. -/
theorem c76_first_iff (cfg : Config) (start : Int) (pre : List Event) (hpre : ∀ e, .disk e ∉ pre) (e : DiskEnv) :
    (step cfg (run cfg (.init start) pre) (.disk e)).2.1 ≠ [] ↔ start ≤ e.now ∧ ∃ total used, e.usage = .ok (total, used) := by
  have h : ∀ s : State, (run cfg s pre).nextDisk = s.nextDisk := by
    induction pre with
    | nil => exact fun s => rfl
    | cons ev pre ih =>
      intro s
      simp only [run]
      rw [ih (fun e he => hpre e (List.mem_cons_of_mem _ he))]
      cases ev with
      | disk e => exact absurd (by simp) (hpre e)
      | tags e => exact (tags_step cfg s e).1
      | sync e => exact (sync_step cfg s e).1
  constructor
  · intro hne
    cases hu : e.usage with
    | error r =>
      exfalso
      apply hne
      simp only [step, diskPoll, hu]
      split <;> rfl
    | ok v =>
      obtain ⟨total, used⟩ := v
      refine ⟨?_, total, used, rfl⟩
      apply Classical.byContradiction
      intro hn
      rw [c76_content cfg _ e hu, h, if_neg (by exact hn)] at hne
      exact hne rfl
  · rintro ⟨h1, total, used, hu⟩
    exact c76_first_partial cfg start pre hpre e h1 hu

/-- C76 is false if the clock is set back between start and first poll: then nothing is reported before it has caught up. -/
theorem c76_first_false : ¬ ∀ (cfg : Config) (start : Int) (e : DiskEnv) (total used : Int), e.usage = .ok (total, used) →
    (step cfg (.init start) (.disk e)).2.1 ≠ [] := by
  intro h
  refine h exConfig 1 ⟨0, .ok (0, 0), .interrupt⟩ 0 0 rfl ?_
  rw [c76_content _ _ _ rfl]
  rfl

/-- Six polls: a report, one too early, one that fails, then one only after another hour, and a clock that was set back. -/
example : reports (record exConfig (.init 0) ((([(0, .ok (1, 1)), (60000000, .ok (1, 1)), (3600000000, .error .other), (7100000000, .ok (1, 1)),
    (7200000000, .ok (1, 1)), (5, .ok (1, 1))] : List (Int × Except Raised (Int × Int)))).map
    (fun x => .disk ⟨x.1, x.2, .reply .unreachable⟩))) = [0, 7200000000] := by decide +kernel

/-! ### C77 -/

/-- What the client remembers is what was accepted last. -/
theorem c77_remembered (cfg : Config) (s : State) (evs : List Event) :
    (run cfg s evs).tagList = (lastAccepted (record cfg s evs)).or s.tagList := by
  induction evs generalizing s with
  | nil => rfl
  | cons ev evs ih =>
    simp only [run, record, lastAccepted]
    rw [ih]
    cases lastAccepted (record cfg (step cfg s ev).1 evs) with
    | some l => rfl
    | none =>
      simp only [Option.none_or]
      cases ev with
      | disk e => exact (disk_step cfg s e).1
      | sync e => exact (sync_step cfg s e).2.1
      | tags e =>
        obtain ⟨_, _, h1, h2, _⟩ := tags_step cfg s e
        obtain ⟨tags, net⟩ := e
        cases tags with
        | error x => exact (h2 (fun l hl => nomatch hl)).2
        | ok l =>
          simp only
          by_cases hl : s.tagList = some l
          · obtain ⟨h3, h4⟩ := h2 (fun l' hl' => by injection hl' with hl'; rw [← hl', hl])
            rw [h3, h4]; simp
          · obtain ⟨h3, h4⟩ := h1 l rfl hl
            rw [h3, h4]
            by_cases ha : Accepts net "set_machine_defined_tags_result"
            · simp [ha]
            · simp [ha]

/-- C77: after any history the tags are sent exactly if they differ from those accepted last, and the message holds them. -/
theorem c77_sent (cfg : Config) (start : Int) (pre : List Event) (l : List Text) (net : Net) :
    (lastAccepted (record cfg (.init start) pre) ≠ some l →
      (step cfg (run cfg (.init start) pre) (.tags ⟨.ok l, net⟩)).2.1 = [[authRequest cfg [],
        request "set_machine_defined_tags_result" "device.set_machine_defined_tags" [("tag_list", .arr (l.map .str))]]]) ∧
    (lastAccepted (record cfg (.init start) pre) = some l → (step cfg (run cfg (.init start) pre) (.tags ⟨.ok l, net⟩)).2.1 = []) := by
  have hr := c77_remembered cfg (.init start) pre
  rw [show (State.init start).tagList = none from rfl, Option.or_none] at hr
  obtain ⟨_, _, h1, h2, _⟩ := tags_step cfg (run cfg (.init start) pre) ⟨.ok l, net⟩
  rw [← hr]
  refine ⟨fun h => ?_, fun h => (h2 (fun l' hl' => by injection hl' with hl'; rw [← hl', h])).1⟩
  rw [(h1 l rfl h).1]
  cases cfg with
  | mk serial token => cases token <;> rfl

/-- C77: without tags, as the script failed, nothing is sent. -/
theorem c77_no_tags (cfg : Config) (s : State) (x : Raised) (net : Net) : (step cfg s (.tags ⟨.error x, net⟩)).2.1 = [] :=
  ((tags_step cfg s ⟨.error x, net⟩).2.2.2.1 (fun _ h => nomatch h)).1

/-- Sent and refused, sent again and accepted, not sent again, changed, changed back. -/
example : (record exConfig (.init 0) ((([(["a".toList], errFor ["set_machine_defined_tags_result"]),
    (["a".toList], okFor ["set_machine_defined_tags_result"]), (["a".toList], .interrupt),
    (["b".toList], okFor ["set_machine_defined_tags_result"]), (["a".toList], .reply .unreachable), (["b".toList], .interrupt)] :
    List (List Text × Net))).map (fun x => .tags ⟨.ok x.1, x.2⟩))).map (fun x => x.2.length) = [1, 1, 0, 1, 1, 0] := by decide +kernel

/-! ### C78 -/

/-- The client takes the device information for sent exactly if a message with it was accepted. -/
theorem c78_remembered (cfg : Config) (s : State) (evs : List Event) :
    (run cfg s evs).sentMeta = true ↔
      s.sentMeta = true ∨ ∃ e w, (.sync e, w) ∈ record cfg s evs ∧ w ≠ [] ∧ AcceptsMeta e.net := by
  induction evs generalizing s with
  | nil => simp [run, record]
  | cons ev evs ih =>
    simp only [run, record]
    rw [ih]
    cases ev with
    | disk e =>
      rw [(disk_step cfg s e).2.1]
      simp
    | tags e =>
      rw [(tags_step cfg s e).2.1]
      simp
    | sync e =>
      obtain ⟨_, _, h3, h4, _⟩ := sync_step cfg s e
      rw [h4]
      constructor
      · rintro ((h | h) | ⟨e', w, h1, h2⟩)
        · exact .inl h
        · cases hs : s.sentMeta with
          | true => exact .inl rfl
          | false =>
            refine .inr ⟨e, _, List.mem_cons_self, ?_, h⟩
            rw [h3, hs]; simp
        · exact .inr ⟨e', w, List.mem_cons_of_mem _ h1, h2⟩
      · rintro (h | ⟨e', w, h1, h2, h5⟩)
        · exact .inl (.inl h)
        · rcases List.mem_cons.1 h1 with h6 | h6
          · injection h6 with h6 _
            injection h6 with h6
            subst h6
            exact .inl (.inr h5)
          · exact .inr ⟨e', w, h6, h2, h5⟩

/-- C78: after any history a sync sends nothing if authentication and all six items were accepted before, else authentication and items. -/
theorem c78_sent (cfg : Config) (start : Int) (pre : List Event) (m : Meta) (syncId : Text) (net : Net) :
    ((∃ e w, (.sync e, w) ∈ record cfg (.init start) pre ∧ w ≠ [] ∧ AcceptsMeta e.net) →
      (step cfg (run cfg (.init start) pre) (.sync ⟨.ok m, syncId, net⟩)).2.1 = []) ∧
    ((¬ ∃ e w, (.sync e, w) ∈ record cfg (.init start) pre ∧ w ≠ [] ∧ AcceptsMeta e.net) →
      (step cfg (run cfg (.init start) pre) (.sync ⟨.ok m, syncId, net⟩)).2.1 =
        [authRequest cfg [("sync_id", .str syncId)] :: metaRequests m]) := by
  have hr := c78_remembered cfg (.init start) pre
  rw [show (State.init start).sentMeta = false from rfl] at hr
  simp only [Bool.false_eq_true, false_or] at hr
  rw [(sync_step cfg _ _).2.2.1]
  refine ⟨fun h => by rw [hr.2 h]; rfl, fun h => ?_⟩
  have : (run cfg (.init start) pre).sentMeta = false := by
    cases hs : (run cfg (.init start) pre).sentMeta with
    | false => rfl
    | true => exact absurd (hr.1 hs) h
  rw [this]
  cases cfg with
  | mk serial token =>
    cases m with
    | mk a b c d e f => cases token <;> cases b <;> rfl

/-- C78: where the device information can not be got, at most the authentication is sent. -/
theorem c78_no_meta (cfg : Config) (s : State) (x : Raised) (syncId : Text) (net : Net) :
    (step cfg s (.sync ⟨.error x, syncId, net⟩)).2.1 = if s.sentMeta then [] else [[authRequest cfg [("sync_id", .str syncId)]]] := by
  rw [(sync_step cfg _ _).2.2.1]
  cases cfg with
  | mk serial token => cases token <;> rfl

/-- One item refused, one missing, all accepted but not the authentication, all accepted, and after that. -/
example : (record exConfig (.init 0) (([errFor exIds, okFor ("authenticate_result" :: exIds.tail), okFor exIds,
    okFor ("authenticate_result" :: exIds), errFor exIds, .reply .unreachable] : List Net).map
    (fun x => .sync ⟨.ok exMeta, [], x⟩))).map (fun x => (x.2.map List.length)) = [[7], [7], [7], [7], [], []] := by decide +kernel

/-! ### C79 -/

/-- C79: the identity is returned exactly if it could be sent and the server accepted authentication and association. -/
theorem c79_returned (cfg : Config) (s : State) (identity i : Bytes) (net : Net) :
    (setIdentity cfg s identity net).2.2 = .ok (some i) ↔ i = identity ∧ (setIdentity cfg s identity net).2.1 ≠ [] ∧
      Accepts net "authenticate_result" ∧ Accepts net "associate_result" := by
  simp only [setIdentity]
  split
  · simp
  · cases ht : utf8Decode identity with
    | none => simp
    | some text =>
      simp only
      obtain ⟨h1, _, _, h4⟩ := batch_spec s [authCall cfg [], .callWithId associateId (nm "m2m.associate") (.obj [(nm "identity", .str text)])]
        net (by change ([authId, associateId] : List CallId).Nodup; decide +kernel) (by simp [authCall])
      rcases hb : batch s [authCall cfg [], .callWithId associateId (nm "m2m.associate") (.obj [(nm "identity", .str text)])] net
        with ⟨s', b, w, x⟩
      rw [hb] at h1 h4
      simp only at h1 h4
      have ha : (x = none ∧ ∃ v, getResult b authId none = .ok v) ↔ Accepts net "authenticate_result" := h4 _
      have hc : (x = none ∧ ∃ v, getResult b associateId none = .ok v) ↔ Accepts net "associate_result" := h4 _
      rw [← ha, ← hc]
      cases x with
      | some x =>
        simp only
        cases hk : caught (some x) with
        | some y => simp
        | none => simp
      | none =>
        simp only
        cases hg : getResult b authId none with
        | error e => simp
        | ok v =>
          simp only
          cases hg2 : getResult b associateId none with
          | error e => simp
          | ok v =>
            subst h1
            simp [eq_comm]

/-- C79: otherwise `None` is returned; it never raises. -/
theorem c79_total (cfg : Config) (s : State) (identity : Bytes) (net : Net) (hn : net ≠ .interrupt) :
    (setIdentity cfg s identity net).2.2 = .ok (some identity) ∨ (setIdentity cfg s identity net).2.2 = .ok none := by
  simp only [setIdentity]
  split
  · exact .inr rfl
  · cases ht : utf8Decode identity with
    | none => exact .inr rfl
    | some text =>
      simp only
      obtain ⟨_, _, h3, _⟩ := batch_spec s [authCall cfg [], .callWithId associateId (nm "m2m.associate") (.obj [(nm "identity", .str text)])]
        net (by change ([authId, associateId] : List CallId).Nodup; decide +kernel) (by simp [authCall])
      rcases hb : batch s [authCall cfg [], .callWithId associateId (nm "m2m.associate") (.obj [(nm "identity", .str text)])] net
        with ⟨s', b, w, x⟩
      rw [hb] at h3
      simp only at h3
      cases x with
      | some x =>
        simp only [caught_none (h3 hn)]
        exact .inr trivial
      | none =>
        simp only
        cases getResult b authId none with
        | error e => exact .inr rfl
        | ok v =>
          simp only
          cases getResult b associateId none with
          | error e => exact .inr rfl
          | ok v => exact .inl rfl

/-- C79: the message names the identity; it is sent if there is a token and the identity is text. -/
theorem c79_sent (cfg : Config) (s : State) (identity : Bytes) (net : Net) (text : Text) (hc : cfg.authToken ≠ none)
    (ht : utf8Decode identity = some text) : (setIdentity cfg s identity net).2.1 =
      [[authRequest cfg [], request "associate_result" "m2m.associate" [("identity", .str text)]]] := by
  simp only [setIdentity, if_neg hc, ht]
  obtain ⟨h1, _⟩ := batch_spec s [authCall cfg [], .callWithId associateId (nm "m2m.associate") (.obj [(nm "identity", .str text)])]
    net (by change ([authId, associateId] : List CallId).Nodup; decide +kernel) (by simp [authCall])
  have hx : [expected s.rpc.callId [authCall cfg [], .callWithId associateId (nm "m2m.associate") (.obj [(nm "identity", .str text)])]] =
      [[authRequest cfg [], request "associate_result" "m2m.associate" [("identity", .str text)]]] := by
    cases cfg with
    | mk serial token => cases token <;> rfl
  rw [hx] at h1
  rcases hb : batch s [authCall cfg [], .callWithId associateId (nm "m2m.associate") (.obj [(nm "identity", .str text)])] net
    with ⟨s', b, w, x⟩
  rw [hb] at h1
  simp only at h1
  rw [← h1]
  cases x with
  | some x =>
    simp only
    cases caught (some x) <;> rfl
  | none =>
    simp only
    cases getResult b authId none with
    | error e => rfl
    | ok v =>
      simp only
      cases getResult b associateId none <;> rfl

example : (setIdentity exConfig (.init 0) (asc "xyz") (okFor ["authenticate_result", "associate_result"])).2.2 = .ok (some (asc "xyz")) := by
  decide +kernel
example : (setIdentity exConfig (.init 0) (asc "xyz") (okFor ["authenticate_result"])).2.2 = .ok none := by decide +kernel
example : (setIdentity exConfig (.init 0) [255] (okFor ["authenticate_result", "associate_result"])).2 = ([], .ok none) := by decide +kernel

/-! ### C94 -/

/-- A history of identities set, with the answer to each announcement; the announcements made are listed with their answer. -/
def announcements (m : Manager) : List (Bytes × Option Bytes) → Manager × List (Bytes × Option Bytes)
  | [] => (m, [])
  | (i, a) :: l => match m.setIdentity i (fun _ => a) with
    | (m, true) => match announcements m l with
      | (m, r) => (m, (i, a) :: r)
    | (m, false) => announcements m l

theorem announcements_notified (m : Manager) (l : List (Bytes × Option Bytes)) :
    (announcements m l).1.notified = match (announcements m l).2.getLast? with
      | some x => x.2
      | none => m.notified := by
  induction l generalizing m with
  | nil => rfl
  | cons x l ih =>
    obtain ⟨i, a⟩ := x
    simp only [announcements, Manager.setIdentity]
    split
    · rename_i m' h
      split at h
      · injection h with h _
        subst h
        simp only
        rw [ih]
        cases hr : (announcements _ l).2 with
        | nil => rfl
        | cons y r =>
          simp only [List.getLast?_cons_cons]
          cases hg : (y :: r).getLast? with
          | none => simp at hg
          | some z => rfl
      · injection h with _ h
        exact nomatch h
    · rename_i m' h
      split at h
      · injection h with _ h
        exact nomatch h
      · injection h with h _
        subst h
        rw [ih]

/-- C94: an identity is announced exactly if it is not empty and the last announcement was not one of the same identity that was accepted. -/
theorem c94_announced (m : Manager) (hm : m.notified = none) (pre : List (Bytes × Option Bytes)) (identity : Bytes)
    (announce : Bytes → Option Bytes) :
    ((announcements m pre).1.setIdentity identity announce).2 = true ↔
      identity ≠ [] ∧ ∀ x, (announcements m pre).2.getLast? = some x → x.2 ≠ some identity := by
  have h := announcements_notified m pre
  simp only [Manager.setIdentity]
  cases hl : (announcements m pre).2.getLast? with
  | none =>
    rw [hl, hm] at h
    simp only at h
    simp only [h]
    by_cases hi : identity = [] <;> simp [hi]
  | some x =>
    rw [hl] at h
    simp only at h
    simp only [h, Option.some.injEq, forall_eq']
    by_cases hi : identity ≠ [] ∧ some identity ≠ x.2
    · simp [hi, hi.2.symm]
    · simp only [if_neg hi, Bool.false_eq_true, false_iff]
      exact fun h => hi ⟨h.1, h.2.symm⟩

/-- C94: the identity of the manager is always the one set last. -/
theorem c94_identity (m : Manager) (identity : Bytes) (announce : Bytes → Option Bytes) :
    (m.setIdentity identity announce).1.identity = some identity := by
  simp only [Manager.setIdentity]
  split <;> rfl

example : (announcements ⟨none, none⟩ [(asc "a", none), (asc "a", some (asc "a")), (asc "a", none), (asc "b", none), (asc "a", some (asc "a"))]).2.map
    (·.1) = [asc "a", asc "a", asc "b", asc "a"] := by decide +kernel

/-! ### C88 -/

/-- C88: an address with a query is used as it is. -/
theorem c88_query (url default : Text) (features : List Text) (hu : url ≠ []) (hq : '?' ∈ url) :
    m2mUrl (some url) default features = url := by
  simp [m2mUrl, hu, hq]

/-- C88 fails: an address that has a query is used even if it does not contain the feature names. -/
theorem c88_names_false : ∃ url, '?' ∈ url ∧ m2mUrl (some url) [] ["scan".toList, "downloads".toList] = url ∧
    ¬ ("scan".toList <:+: url) ∧ ¬ ("downloads".toList <:+: url) :=
  ⟨"ws://x?a=b".toList, by decide +kernel, by decide +kernel, by decide +kernel, by decide +kernel⟩

/-- C88 for addresses without query: they get the features appended, in one of the two orders of the set. -/
theorem c88_no_query_partial (url default : Text) (features : List Text) (hu : url ≠ []) (hq : '?' ∉ url)
    (hf : features.Perm ["scan".toList, "downloads".toList]) :
    m2mUrl (some url) default features = url ++ "?features=scan,downloads".toList ∨
    m2mUrl (some url) default features = url ++ "?features=downloads,scan".toList := by
  have hcase : features = ["scan".toList, "downloads".toList] ∨ features = ["downloads".toList, "scan".toList] := by
    match features, hf.length_eq with
    | [a, b], _ =>
      have ha : a ∈ ["scan".toList, "downloads".toList] := hf.subset (by simp)
      have hsw : [a, b].Perm ["scan".toList, "downloads".toList] := hf
      simp only [List.mem_cons, List.not_mem_nil, or_false] at ha
      rcases ha with rfl | rfl
      · left
        have := (List.perm_cons _).1 hsw
        rw [List.perm_singleton] at this
        rw [this]
      · right
        have := (List.perm_cons _).1 (hsw.trans (List.Perm.swap _ _ _))
        rw [List.perm_singleton] at this
        rw [this]
  have hm : m2mUrl (some url) default features = url ++ nm "?features=" ++ (features.intersperse [',']).flatten := by
    simp [m2mUrl, hu, hq]
  rw [hm]
  rcases hcase with h | h
  · left
    rw [h, List.append_assoc]
    rfl
  · right
    rw [h, List.append_assoc]
    rfl

/-- C88, exactly when both feature names are in the address used: there was no query, or the address given has them. -/
theorem c88_names_iff (url default : Text) (features : List Text) (hu : url ≠ []) (hf : features.Perm ["scan".toList, "downloads".toList]) :
    ("scan".toList <:+: m2mUrl (some url) default features ∧ "downloads".toList <:+: m2mUrl (some url) default features) ↔
      '?' ∉ url ∨ "scan".toList <:+: url ∧ "downloads".toList <:+: url := by
  have hin : ∀ {w q : Text}, w <:+: q → w <:+: url ++ q := fun {w q} ⟨s, t, h⟩ => ⟨url ++ s, t, by rw [← h]; simp only [List.append_assoc]⟩
  by_cases hq : '?' ∈ url
  · rw [c88_query url default features hu hq]
    exact ⟨.inr, fun h => h.resolve_left (fun hn => hn hq)⟩
  · refine ⟨fun _ => .inl hq, fun _ => ?_⟩
    rcases c88_no_query_partial url default features hu hq hf with h | h <;> rw [h]
    · exact ⟨hin (by decide +kernel), hin (by decide +kernel)⟩
    · exact ⟨hin (by decide +kernel), hin (by decide +kernel)⟩

/-- C88: where no address is given, the same holds for the default. -/
theorem c88_default (default : Text) (features : List Text) :
    m2mUrl none default features = m2mUrl (some default) default features ∧ m2mUrl (some []) default features = m2mUrl none default features := by
  simp [m2mUrl]

/-- C88: applying the rule again changes nothing. -/
theorem c88_again (given : Option Text) (default default' : Text) (features features' : List Text) (hd : default ≠ []) :
    m2mUrl (some (m2mUrl given default features)) default' features' = m2mUrl given default features := by
  have h : ∀ u : Text, u ≠ [] → m2mUrl (some (m2mUrl (some u) default features)) default' features' = m2mUrl (some u) default features := by
    intro u hu
    by_cases hq : '?' ∈ u
    · rw [c88_query u default features hu hq, c88_query u default' features' hu hq]
    · have hm : m2mUrl (some u) default features = u ++ nm "?features=" ++ (features.intersperse [',']).flatten := by
        simp [m2mUrl, hu, hq]
      refine c88_query _ _ _ (by rw [hm]; simp [hu]) ?_
      rw [hm]
      exact List.mem_append_left _ (List.mem_append_right _ (by decide +kernel))
  cases given with
  | none => rw [(c88_default default features).1]; exact h default hd
  | some u =>
    by_cases hu : u = []
    · subst hu
      rw [(c88_default default features).2, (c88_default default features).1]
      exact h default hd
    · exact h u hu

example : m2mUrl none "wss://m2m.dataplicity.com/m2m/".toList ["scan".toList, "downloads".toList] =
    "wss://m2m.dataplicity.com/m2m/?features=scan,downloads".toList := by decide +kernel
example : m2mUrl (some "ws://x?a=b".toList) [] ["scan".toList, "downloads".toList] = "ws://x?a=b".toList := by decide +kernel

end Verif.Client
