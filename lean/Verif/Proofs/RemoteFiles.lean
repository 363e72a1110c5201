import Verif.Spec.RemoteFiles
import Verif.Proofs.Instructions
import Verif.Proofs.Wire
import Verif.Props.RemoteDirectory
/-! Lemmas about the client together with the remote directory. -/
namespace Verif.RemoteFiles
open Verif WSClient RemoteDirectory Instructions Path

/-! ### Messages -/

/-- Not concerned with the client's own messages. -/
def Deaf {α : Type} (f : Bytes → Option α) : Prop := ∀ m, IsOut m → m.length ≤ maxSize → f m = none

theorem open_deaf (id : Bytes) : Deaf (openAnswer id) := by
  intro m h hl
  obtain ⟨n, vals, ho, he⟩ := h
  have hd := (flat_decoded (outgoing_flat ho) he hl).1
  unfold openAnswer
  rw [hd]
  cases ho <;> rfl

theorem read_deaf (id : Bytes) : Deaf (readAnswer id) := by
  intro m h hl
  obtain ⟨n, vals, ho, he⟩ := h
  have hd := (flat_decoded (outgoing_flat ho) he hl).1
  unfold readAnswer
  rw [hd]
  cases ho <;> rfl

theorem write_deaf (id : Bytes) : Deaf (writeAnswer id) := by
  intro m h hl
  obtain ⟨n, vals, ho, he⟩ := h
  have hd := (flat_decoded (outgoing_flat ho) he hl).1
  unfold writeAnswer
  rw [hd]
  cases ho <;> rfl

theorem message_decoded {cls : Packets.PClass} {vals : List PyVal} {m : Bytes} (h : message (.ok ⟨cls, vals⟩) = some m) (hf : Flat vals)
    (hl : m.length ≤ maxSize) : decoded m = .int cls.num :: vals.map flatView := by
  simp only [message, Packets.encodeBinary, Packets.encodeList] at h
  split at h
  · rename_i m' hm
    injection h with h
    subst h
    have hf' : Flat (.int (cls.num : Int) :: vals) := by
      intro v hv
      rcases List.mem_cons.1 hv with rfl | hv
      · exact .inl ⟨_, rfl⟩
      · exact hf v hv
    exact (flat_decoded hf' hm hl).1
  · exact (nomatch h)

theorem message_some {cls : Packets.PClass} {vals : List PyVal} (hc : cls ∈ Packets.classes) (ht : Packets.Typed cls.attrs vals)
    (hf : ∀ v ∈ vals, (∃ i, v = .int i) ∨ ∃ b, v = .bytes b) (hw : WFList vals) : ∃ m, message (.ok ⟨cls, vals⟩) = some m := by
  obtain ⟨m, hm, -⟩ := Props.c08_flat_round_trip (fun _ => "") cls hc vals ht hf hw
  exact ⟨m, by simp [message, hm]⟩

/-! ### One event -/

/-- What the remote directory does for a request. -/
def reply (c : Cfg) (env : Env) (fs : FS) : Option Request → FS × List Sent
  | some (.openFile id path) => onOpen (fun _ => "") c env.opn fs id path
  | some (.closeFile id) => (onClose c env.cls fs id, [])
  | some (.readFile id offset size) => onRead (fun _ => "") c env.rd fs id offset size
  | some (.writeFile id path device offset data final) =>
    let r := onWrite (fun _ => "") c env.wr fs id path device offset data final
    (r.1, r.2.getD [])
  | _ => (fs, [])

theorem sentOf_cons (o : Out) (os : List Out) : sentOf (o :: os) = (sentOf [o]) ++ sentOf os := sentOf_append [o] os

theorem sentOf_sent (ms : List Bytes) : sentOf (ms.map .sent) = ms := by
  induction ms with
  | nil => rfl
  | cons m ms ih => rw [List.map_cons, sentOf_cons, ih]; rfl

theorem pass_filter {α : Type} (f : Bytes → Option α) (hf : Deaf f) (c : Cfg) (env : Env) (outs : List Out) (fs : FS)
    (ho : ∀ m ∈ sentOf outs, IsOut m) (hs : Sized (pass c env fs outs).2) :
    (pass c env fs outs).1 = (pass c env fs (outs.filter isRequest)).1 ∧
    (sentOf (pass c env fs outs).2).filterMap f = (sentOf (pass c env fs (outs.filter isRequest)).2).filterMap f ∧
    Sized (pass c env fs (outs.filter isRequest)).2 := by
  induction outs generalizing fs with
  | nil => exact ⟨rfl, rfl, hs⟩
  | cons o os ih =>
    rw [sentOf_cons] at ho
    have ho' : ∀ m ∈ sentOf os, IsOut m := fun m hm => ho m (by simp [hm])
    cases o with
    | remote num args =>
      simp only [pass] at hs
      rw [show ∀ (x : Out) (l : List Out), x :: l = [x] ++ l from fun _ _ => rfl, sized_append, sized_append] at hs
      obtain ⟨h1, h2, h3⟩ := ih _ ho' hs.2.2
      simp only [isRequest, List.filter_cons, if_true, pass]
      refine ⟨h1, ?_, ?_⟩
      · rw [sentOf_cons, sentOf_append, sentOf_cons _ (_ ++ _), sentOf_append]
        simp only [List.filterMap_append, h2]
      · rw [show ∀ (x : Out) (l : List Out), x :: l = [x] ++ l from fun _ _ => rfl, sized_append, sized_append]
        exact ⟨hs.1, hs.2.1, h3⟩
    | instruction sender data =>
      simp only [pass] at hs
      rw [show ∀ (x : Out) (l : List Out), x :: l = [x] ++ l from fun _ _ => rfl, sized_append] at hs
      obtain ⟨h1, h2, h3⟩ := ih _ ho' hs.2
      simp only [isRequest, List.filter_cons, if_true, pass]
      refine ⟨h1, ?_, ?_⟩
      · rw [sentOf_cons, sentOf_cons _ (pass _ _ _ (List.filter _ _)).2]
        simp only [List.filterMap_append, h2]
      · rw [show ∀ (x : Out) (l : List Out), x :: l = [x] ++ l from fun _ _ => rfl, sized_append]
        exact ⟨hs.1, h3⟩
    | sent m =>
      simp only [pass] at hs
      rw [show ∀ (x : Out) (l : List Out), x :: l = [x] ++ l from fun _ _ => rfl, sized_append] at hs
      obtain ⟨h1, h2, h3⟩ := ih _ ho' hs.2
      simp only [isRequest, List.filter_cons, Bool.false_eq_true, if_false, pass]
      refine ⟨h1, ?_, h3⟩
      have : f m = none := hf m (ho m (by simp [sentOf])) (hs.1 m (by simp [sentOf]))
      rw [sentOf_cons, List.filterMap_append, h2]
      simp [sentOf, this]
    | chan n o =>
      simp only [pass] at hs
      rw [show ∀ (x : Out) (l : List Out), x :: l = [x] ++ l from fun _ _ => rfl, sized_append] at hs
      obtain ⟨h1, h2, h3⟩ := ih _ ho' hs.2
      simp only [isRequest, List.filter_cons, Bool.false_eq_true, if_false, pass]
      exact ⟨h1, by rw [sentOf_cons, List.filterMap_append, h2]; simp [sentOf], h3⟩
    | cmdCall cb r =>
      simp only [pass] at hs
      rw [show ∀ (x : Out) (l : List Out), x :: l = [x] ++ l from fun _ _ => rfl, sized_append] at hs
      obtain ⟨h1, h2, h3⟩ := ih _ ho' hs.2
      simp only [isRequest, List.filter_cons, Bool.false_eq_true, if_false, pass]
      exact ⟨h1, by rw [sentOf_cons, List.filterMap_append, h2]; simp [sentOf], h3⟩
    | announce i ok =>
      simp only [pass] at hs
      rw [show ∀ (x : Out) (l : List Out), x :: l = [x] ++ l from fun _ _ => rfl, sized_append] at hs
      obtain ⟨h1, h2, h3⟩ := ih _ ho' hs.2
      simp only [isRequest, List.filter_cons, Bool.false_eq_true, if_false, pass]
      exact ⟨h1, by rw [sentOf_cons, List.filterMap_append, h2]; simp [sentOf], h3⟩
    | logged =>
      simp only [pass] at hs
      rw [show ∀ (x : Out) (l : List Out), x :: l = [x] ++ l from fun _ _ => rfl, sized_append] at hs
      obtain ⟨h1, h2, h3⟩ := ih _ ho' hs.2
      simp only [isRequest, List.filter_cons, Bool.false_eq_true, if_false, pass]
      exact ⟨h1, by rw [sentOf_cons, List.filterMap_append, h2]; simp [sentOf], h3⟩

theorem serve_reply (c : Cfg) (env : Env) (fs : FS) (o : Out) (r : Request) (h : passedOn o = some r) :
    (pass c env fs [o]).1 = (reply c env fs (some r)).1 ∧ sentOf (pass c env fs [o]).2 = (reply c env fs (some r)).2.filterMap message := by
  unfold passedOn at h
  split at h <;> first | (injection h with h; subst h) | exact (nomatch h)
  all_goals simp only [pass, serve, reply, List.append_nil]
  all_goals refine ⟨(by trivial), ?_⟩
  all_goals first
    | rfl
    | (rw [sentOf_cons, sentOf_sent]; rfl)

/-- What an event does to the files, and what the server gets to see of it. -/
theorem event_spec {α : Type} (f : Bytes → Option α) (hf : Deaf f) (c : Cfg) (s : Sys) (hs : s.client.hung = false) (env : Env) (e : Ev)
    (hfair : ∀ data, e = .binary data → ¬ Hangs data ∧ data.length ≤ maxSize) (hz : Sized (step c s (.event env e)).2) :
    (step c s (.event env e)).1.client.hung = false ∧ (step c s (.event env e)).1.fs = (reply c env s.fs (requestIn e)).1 ∧
    (sentOf (step c s (.event env e)).2).filterMap f = ((reply c env s.fs (requestIn e)).2.filterMap message).filterMap f ∧
    ∀ m ∈ (reply c env s.fs (requestIn e)).2.filterMap message, m.length ≤ maxSize := by
  have h1 := step_requests env.client s.client hs e hfair
  have h2 := pass_filter f hf c env (WSClient.step env.client s.client e).2 s.fs (step_out env.client s.client e) hz
  refine ⟨by simp only [step]; rw [step_hung _ _ _ (fun data hd => (hfair data hd).1), hs], ?_⟩
  simp only [step]
  rw [h2.1, h2.2.1]
  cases hr : requestIn e with
  | none =>
    rw [hr] at h1
    have : (WSClient.step env.client s.client e).2.filter isRequest = [] := by simpa using h1
    rw [this]
    exact ⟨rfl, rfl, by simp [reply]⟩
  | some r =>
    rw [hr] at h1
    simp only [Option.toList_some, List.map_cons, List.map_nil] at h1
    obtain ⟨o, ho, ho'⟩ : ∃ o, (WSClient.step env.client s.client e).2.filter isRequest = [o] ∧ passedOn o = some r := by
      cases hx : (WSClient.step env.client s.client e).2.filter isRequest with
      | nil => rw [hx] at h1; simp at h1
      | cons a l =>
        rw [hx] at h1
        cases l with
        | nil => exact ⟨a, rfl, by simpa using h1⟩
        | cons b l => simp at h1
    obtain ⟨g1, g2⟩ := serve_reply c env s.fs o r ho'
    rw [ho, g1, g2]
    refine ⟨rfl, rfl, ?_⟩
    have h3 := h2.2.2
    rw [ho, Sized, g2] at h3
    exact h3

/-! ### What leaves a file alone -/

/-- The folders around `K`, and the file there, stay. -/
def Keep (K : List Text) (fs fs' : FS) : Prop :=
  (∀ k, k <+: K → fs k = some .dir → fs' k = some .dir) ∧ ∀ d, fs K = some (.file d) → fs' K = some (.file d)

theorem Keep.refl (K : List Text) (fs : FS) : Keep K fs fs := ⟨fun _ _ h => h, fun _ h => h⟩

theorem Keep.trans {K : List Text} {a b d : FS} (h1 : Keep K a b) (h2 : Keep K b d) : Keep K a d :=
  ⟨fun k hk h => h2.1 k hk (h1.1 k hk h), fun x h => h2.2 x (h1.2 x h)⟩

theorem Keep.of_change {K K' : List Text} {fs fs' : FS} (h : Change K' fs fs') (hne : K' ≠ K) : Keep K fs fs' :=
  ⟨fun k _ hk => h.dirs k hk, fun d hd => by rw [h.keeps (fun e => hne e.symm) (by rw [hd]; simp), hd]⟩

theorem keep_set {K k : List Text} (n : Option Node) (fs : FS) (h : ¬ k <+: K) : Keep K fs (fs.set k n) := by
  have hne : ∀ k', k' <+: K → k' ≠ k := by intro k' hk' e; subst e; exact h hk'
  exact ⟨fun k' hk' hd => by rw [FS.set_other _ _ (hne k' hk')]; exact hd,
    fun d hd => by rw [FS.set_other _ _ (hne K (List.prefix_refl _))]; exact hd⟩

theorem walk_keep {fs fs' : FS} {K : List Text} (h : Keep K fs fs') (cs : List Text) (k0 k : List Text) (hu : ['.', '.'] ∉ cs)
    (hw : fs.walk k0 cs = some k) (hk : k <+: K) : fs'.walk k0 cs = some k := by
  induction cs generalizing k0 with
  | nil => simpa [FS.walk] using hw
  | cons c cs ih =>
    simp only [FS.walk] at hw ⊢
    split at hw
    · rename_i hd
      have hu' : ['.', '.'] ∉ cs := fun hm => hu (by simp [hm])
      have hp : k0 <+: k := by
        have : fs.walk k0 (c :: cs) = some k := by simp only [FS.walk, hd, if_true]; exact hw
        rw [FS.walk_lex _ _ _ _ this, foldl_lexStep _ _ hu]
        simp
      rw [if_pos (h.1 k0 (hp.trans hk) hd)]
      exact ih _ hu' hw
    · simp at hw

theorem place_keep {fs fs' : FS} {K : List Text} (h : Keep K fs fs') {cwd p : Text} (hu : ¬ GoesUp (join cwd p)) {k : List Text}
    (hp : fs.place cwd p = some k) (hk : k <+: K) : fs'.place cwd p = some k := by
  simp only [FS.place] at hp ⊢
  split at hp
  · simp at hp
  · rename_i hn
    simp only [hn]
    exact walk_keep h _ _ _ hu hp hk

theorem content_keep {fs fs' : FS} {cwd p : Text} (h : Keep (lexKey (join cwd p)) fs fs') (hu : ¬ GoesUp (join cwd p)) {d : Bytes}
    (hc : fs.content cwd p = some d) : fs'.content cwd p = some d := by
  obtain ⟨h1, h2⟩ := FS.content_some hc
  exact FS.content_of (place_keep h hu h1 (List.prefix_refl _)) (h.2 d h2)

theorem stored_keep {c : Cfg} {id : Text} {d : Bytes} {fs fs' : FS} (hu : ¬ GoesUp (join c.cwd (join (snapDir c) id)))
    (hd : ¬ GoesUp (join c.cwd (snapDir c)) ∧ lexKey (join c.cwd (snapDir c)) <+: snapKey c id) (h : Stored c id d fs)
    (hk : Keep (snapKey c id) fs fs') : Stored c id d fs' := by
  obtain ⟨h1, h2, h3⟩ := h
  obtain ⟨h4, h5⟩ := (isDir_iff _ _ _).1 h3
  exact ⟨place_keep hk hu h1 (List.prefix_refl _), hk.2 d h2, (isDir_iff _ _ _).2 ⟨place_keep hk hd.1 h4 hd.2, hk.1 _ hd.2 h5⟩⟩

theorem addDownload_Change (c : Cfg) (b1 b2 : Bool) (fs : FS) (id : Text) : Change (downloadKey c id) fs (addDownload c b1 b2 fs id).1 := by
  have key : ∀ fs1 : FS, (if fs.isDir c.cwd (downloadDir c) then some fs else if b1 = true then none else fs.mkdir c.cwd (downloadDir c)) =
      some fs1 → Change (downloadKey c id) fs fs1 := by
    intro fs1 h1
    split at h1
    · simp at h1; subst h1; exact Change.refl _ _
    · split at h1
      · simp at h1
      · exact change_mkdir h1
  simp only [addDownload]
  split
  · exact Change.refl _ _
  · rename_i fs1 h1
    split
    · exact key fs1 h1
    · split
      · rename_i k' hw
        obtain ⟨-, w2, w3⟩ := FS.writable_some hw
        subst w2
        exact (key fs1 h1).trans (change_set _ w3)
      · exact key fs1 h1

/-- What else `add_download` does is to make the folder. -/
theorem addDownload_other (c : Cfg) (b1 b2 : Bool) (fs : FS) (id : Text) (k : List Text) (h1 : k ≠ downloadKey c id)
    (h2 : k ≠ lexKey (join c.cwd (downloadDir c))) : (addDownload c b1 b2 fs id).1 k = fs k := by
  have key : ∀ fs1 : FS, (if fs.isDir c.cwd (downloadDir c) then some fs else if b1 = true then none else fs.mkdir c.cwd (downloadDir c)) =
      some fs1 → fs1 k = fs k := by
    intro fs1 h
    split at h
    · injection h with h; rw [h]
    · split at h
      · exact (nomatch h)
      · rw [(FS.mkdir_some h).2, FS.set_other _ _ h2]
  simp only [addDownload]
  split
  · rfl
  · rename_i fs1 he
    split
    · exact key fs1 he
    · split
      · rename_i k' hw
        obtain ⟨-, w2, -⟩ := FS.writable_some hw
        subst w2
        exact (FS.set_other fs1 (some (.file [])) h1).trans (key fs1 he)
      · exact key fs1 he

theorem writeChunk_Change (cwd : Text) (io : Io) (fs : FS) (path : Text) (offset : Int) (data : Bytes) :
    Change (lexKey (join cwd path)) fs (writeChunk cwd io fs path offset data).1 := by
  simp only [writeChunk]
  split
  · rename_i k' old hp hc
    have e := FS.place_lex hp
    subst e
    have hnd : fs (lexKey (join cwd path)) ≠ some .dir := by rw [(FS.content_some hc).2]; simp
    split
    · exact Change.refl _ _
    · split
      · exact change_set _ hnd
      · exact Change.refl _ _
      · exact Change.refl _ _
      · exact change_set _ hnd
  · exact Change.refl _ _

theorem copyDownload_keep (c : Cfg) (env : WriteEnv) (fs : FS) (dev : Text) (path : Bytes) (hsrc : fs.isDir c.cwd dev = false) (K : List Text)
    (hne : lexKey (join c.cwd dev) ≠ K) : Keep K fs (copyDownload c env fs dev path).1 := by
  have hno := c59_no_overwrite c env fs dev path hsrc
  constructor
  · intro k _ hk
    apply Classical.byContradiction
    intro hcon
    rcases hno k (by rw [hk]; exact hcon) with h | ⟨dest, -, -, h⟩
    · -- the source is not a folder
      subst h
      apply hcon
      have hp : fs.place c.cwd dev = none := by
        cases hpl : fs.place c.cwd dev with
        | none => rfl
        | some k' =>
          have := FS.place_lex hpl
          subst this
          have : fs.isDir c.cwd dev = true := (isDir_iff _ _ _).2 ⟨hpl, hk⟩
          rw [this] at hsrc; exact (nomatch hsrc)
      have : (copyDownload c env fs dev path).1 = fs := by
        simp only [copyDownload]
        split
        · rfl
        · simp [moveFile, hp]
      rw [this, hk]
    · rw [h] at hk; exact (nomatch hk)
  · intro d hd
    apply Classical.byContradiction
    intro hcon
    rcases hno K (by rw [hd]; exact hcon) with h | ⟨dest, -, -, h⟩
    · exact hne h.symm
    · rw [h] at hd; exact (nomatch hd)

theorem onWrite_keep (r : PyVal → String) (c : Cfg) (env : WriteEnv) (fs : FS) (id path device : Bytes) (offset : Int) (data : Bytes) (final : Int)
    (K : List Text) (h : Leaves c K fs (.writeFile id path device offset data final)) :
    Keep K fs (onWrite r c env fs id path device offset data final).1 := by
  simp only [onWrite]
  split
  · exact Keep.refl _ _
  · rename_i given hg
    have hl := h given hg
    -- the device path used
    have hadd : ∀ x : FS × Option Text, (if given = [] then
        match utf8Decode id with
        | none => (fs, none)
        | some id => addDownload c env.mkdirFails env.createFails fs id
      else (fs, some given)) = x → Keep K fs x.1 ∧ ∀ dev, x.2 = some dev → lexKey (join c.cwd dev) ≠ K ∧ x.1.isDir c.cwd dev = false := by
      intro x hx
      subst hx
      split
      · rename_i he
        rw [if_pos he] at hl
        split
        · exact ⟨Keep.refl _ _, by simp⟩
        · rename_i t ht
          refine ⟨Keep.of_change (addDownload_Change _ _ _ _ _) (hl t ht), ?_⟩
          intro dev hdev
          obtain ⟨a1, a2⟩ := addDownload_some (fs' := (addDownload c env.mkdirFails env.createFails fs t).1) (p := dev) (by rw [← hdev])
          exact ⟨by rw [a1]; exact hl t ht, isDir_of_content a2⟩
      · rename_i he
        rw [if_neg he] at hl
        exact ⟨Keep.refl _ _, by intro dev hdev; simp at hdev; subst hdev; exact hl⟩
    split
    · rename_i fs1 hq
      exact (hadd _ hq).1
    · rename_i fs1 dev hq
      obtain ⟨k1, k2⟩ := hadd _ hq
      obtain ⟨k3, k4⟩ := k2 dev rfl
      replace k1 : Keep K fs fs1 := k1
      replace k4 : fs1.isDir c.cwd dev = false := k4
      have hwr : ∀ x : FS × Bool, (if data.isEmpty then (fs1, true) else writeChunk c.cwd env.write fs1 dev offset data) = x →
          Keep K fs1 x.1 ∧ x.1.isDir c.cwd dev = false := by
        intro x hx
        subst hx
        split
        · exact ⟨Keep.refl _ _, k4⟩
        · exact ⟨Keep.of_change (writeChunk_Change _ _ _ _ _ _) k3, writeChunk_notdir _ _ _ _ _ _ k4⟩
      split
      · rename_i fs2 hq2
        exact k1.trans ((hwr _ hq2).1.trans (Keep.of_change (remove_change _ _ _ _) k3))
      · rename_i fs2 hq2
        obtain ⟨j1, j2⟩ := hwr _ hq2
        have hcp : ∀ x : FS × Bool, (if final ≠ 0 then copyDownload c env fs2 dev path else (fs2, true)) = x → Keep K fs2 x.1 := by
          intro x hx
          subst hx
          split
          · exact copyDownload_keep _ _ _ _ _ j2 _ k3
          · exact Keep.refl _ _
        split
        · rename_i fs3 hq3
          exact k1.trans (j1.trans (hcp _ hq3))
        · rename_i fs3 hq3
          exact k1.trans (j1.trans (hcp _ hq3))

theorem reply_keep (c : Cfg) (env : Env) (fs : FS) (K : List Text) (req : Option Request) (h : ∀ r, req = some r → Leaves c K fs r) :
    Keep K fs (reply c env fs req).1 := by
  cases req with
  | none => exact Keep.refl _ _
  | some r =>
    have hl := h r rfl
    cases r with
    | instruction => exact Keep.refl _ _
    | scan => exact Keep.refl _ _
    | openFile id path =>
      simp only [reply, onOpen]
      split
      · rename_i p t hp ht
        have := Keep.of_change (addUpload_change c env.opn fs p t) (hl t ht)
        split
        · rename_i fs1 e hq; rw [hq] at this; exact this
        · rename_i fs1 e hq; rw [hq] at this; exact this
      · exact Keep.refl _ _
    | closeFile id =>
      simp only [reply, onClose]
      split
      · rename_i t ht; exact Keep.of_change (closeUpload_change c env.cls fs t) (hl t ht)
      · exact Keep.refl _ _
    | readFile id o n =>
      simp only [reply, onRead]
      split
      · rename_i t ht
        obtain ⟨K', hne⟩ : ∃ K' : List Text, K' ≠ K := by
          by_cases hz : ([] : List Text) = K
          · exact ⟨[[]], by rw [← hz]; simp⟩
          · exact ⟨[], hz⟩
        have := Keep.of_change (readUpload_change c env.rd fs t o n K') hne
        split
        · rename_i fs1 e hq; rw [hq] at this; exact this
        · rename_i fs1 e hq; rw [hq] at this; exact this
      · exact Keep.refl _ _
    | writeFile id path device offset data final => exact onWrite_keep _ _ _ _ _ _ _ _ _ _ _ hl

/-! ### Uploads -/

theorem reads_none (c : Cfg) (env : Env) (fs : FS) (id : Bytes) (req : Option Request)
    (hl : ∀ m ∈ (reply c env fs req).2.filterMap message, m.length ≤ maxSize) (h : ∀ o n, req ≠ some (.readFile id o n)) :
    ((reply c env fs req).2.filterMap message).filterMap (readAnswer id) = [] := by
  have key : ∀ cls vals, (reply c env fs req).2 = [.ok ⟨cls, vals⟩] → Flat vals →
      (∀ m, decoded m = .int cls.num :: vals.map flatView → readAnswer id m = none) →
      ((reply c env fs req).2.filterMap message).filterMap (readAnswer id) = [] := by
    intro cls vals he hf hr
    rw [he] at hl ⊢
    simp only [List.filterMap_cons, List.filterMap_nil] at hl ⊢
    cases hm : message (.ok ⟨cls, vals⟩) with
    | none => rfl
    | some m =>
      rw [hm] at hl
      have := hr m (message_decoded hm hf (hl m (by simp)))
      simp [this]
  cases req with
  | none => rfl
  | some r =>
    cases r with
    | instruction => rfl
    | scan => rfl
    | closeFile id => rfl
    | openFile i path =>
      rcases c57_open (fun _ => "") c env.opn fs i path with ⟨n, h'⟩ | ⟨reason, h'⟩
      · exact key _ _ h' (by simp [Flat]) (by intro m hm; unfold readAnswer; rw [hm]; rfl)
      · exact key _ _ h' (by simp [Flat]) (by intro m hm; unfold readAnswer; rw [hm]; rfl)
    | readFile i o n =>
      have hne : i ≠ id := by rintro rfl; exact h o n rfl
      rcases c57_read (fun _ => "") c env.rd fs i o n with ⟨d, h'⟩ | ⟨reason, h'⟩
      · exact key _ _ h' (by simp [Flat]) (by intro m hm; unfold readAnswer; rw [hm]; simp [flatView, readResult, hne])
      · exact key _ _ h' (by simp [Flat]) (by intro m hm; unfold readAnswer; rw [hm]; simp [flatView, readResult, hne])
    | writeFile i path device offset data final =>
      cases hd : utf8Decode device with
      | none => simp [reply, onWrite, hd]
      | some dv =>
        obtain ⟨position, dev, code, reason, h', -⟩ := c57_write_partial (fun _ => "") c env.wr fs i path device offset data final (by simp [hd])
        exact key _ _ (by simp only [reply, h', Option.getD_some]; rfl) (by simp [Flat]) (by intro m hm; unfold readAnswer; rw [hm]; rfl)

theorem slice_seekRead (d : Bytes) (o n : Int) (h : 0 ≤ o ∧ o ≤ maxSize ∧ -1 ≤ n ∧ n ≤ maxSize) : seekRead d o n = some (slice d o n) := by
  have : ¬ (o < 0 ∨ o > maxSize ∨ n < -1 ∨ n > maxSize) := by omega
  simp only [seekRead, this, if_false, slice]
  split <;> rfl

theorem slice_length (d : Bytes) (o n : Int) : (slice d o n).length ≤ d.length := by
  simp only [slice]
  split <;> simp <;> omega

theorem read_reply (c : Cfg) (env : Env) (fs : FS) (id : Text) (d : Bytes) (h : Stored c id d fs) (o n : Int) (hr : env.rd.readFails = false)
    (hb : 0 ≤ o ∧ o ≤ maxSize ∧ -1 ≤ n ∧ n ≤ maxSize) (hd : d.length ≤ maxSize) (hid : (utf8Encode id).length ≤ maxSize)
    (hl : ∀ m ∈ (reply c env fs (some (.readFile (utf8Encode id) o n))).2.filterMap message, m.length ≤ maxSize) :
    ((reply c env fs (some (.readFile (utf8Encode id) o n))).2.filterMap message).filterMap (readAnswer (utf8Encode id)) =
      [⟨o, n, slice d o n, 0⟩] := by
  have h1 : (readUpload c env.rd fs id o n).2 = .ok (slice d o n) := by
    rw [stored_read h env.rd o n hr, slice_seekRead d o n hb]
  have h2 := c57_read_data (fun _ => "") c env.rd fs id o n _ h1
  simp only [reply] at hl ⊢
  rw [h2] at hl ⊢
  have hsl := slice_length d o n
  have hc : readResult ∈ Packets.classes := ((Packets.lookupClass_iff 28 _).1 lookup28).1
  obtain ⟨m, hm⟩ := message_some (cls := readResult)
    (vals := [.bytes (utf8Encode id), .int o, .int n, .bytes (slice d o n), .int 0, .bytes []]) hc
    (by simp [Packets.Typed, readResult, Packets.AType.has]) (by simp)
    (.cons (.bytes hid) (.cons (.int _) (.cons (.int _) (.cons (.bytes (by omega)) (.cons (.int _) (.cons (.bytes (by simp)) .nil))))))
  simp only [List.filterMap_cons, List.filterMap_nil, hm] at hl ⊢
  have hdec := message_decoded hm (by simp [Flat]) (hl m (by simp))
  have : readAnswer (utf8Encode id) m = some ⟨o, n, slice d o n, 0⟩ := by
    unfold readAnswer
    rw [hdec]
    simp [flatView, readResult]
  simp [this]

theorem reads_run (c : Cfg) (id : Text) (d : Bytes) (hu : ¬ GoesUp (join c.cwd (join (snapDir c) id)))
    (hd : ¬ GoesUp (join c.cwd (snapDir c)) ∧ lexKey (join c.cwd (snapDir c)) <+: snapKey c id) (hlen : d.length ≤ maxSize)
    (hid : (utf8Encode id).length ≤ maxSize) (ms : List Move) (s : Sys) (hs : s.client.hung = false) (hst : Stored c id d s.fs)
    (hun : Undisturbed c (snapKey c id) (fun _ => false) s ms) (hfair : ∀ m ∈ ms, m.fair) (hok : ∀ m ∈ ms, m.readsOk (utf8Encode id))
    (hz : Sized (run c s ms).2) :
    readAnswers (utf8Encode id) (run c s ms).2 = (readRequests (utf8Encode id) ms).map (fun r => ⟨r.1, r.2, slice d r.1 r.2, 0⟩) ∧
    Stored c id d (run c s ms).1.fs := by
  induction ms generalizing s with
  | nil => exact ⟨rfl, hst⟩
  | cons m ms ih =>
    obtain ⟨hun1, hun2⟩ := hun
    replace hun1 := hun1 rfl
    simp only [run] at hz ⊢
    rw [sized_append] at hz
    cases m with
    | change k n =>
      have hk : Keep (snapKey c id) s.fs (s.fs.set k n) := keep_set n s.fs hun1
      have := ih (step c s (.change k n)).1 hs (stored_keep hu hd hst hk) hun2 (fun x hx => hfair x (by simp [hx]))
        (fun x hx => hok x (by simp [hx])) hz.2
      refine ⟨?_, this.2⟩
      simp only [step, List.nil_append] at this ⊢
      simpa [readRequests, Move.request] using this.1
    | event env e =>
      obtain ⟨g1, g2, g3, g4⟩ := event_spec (readAnswer (utf8Encode id)) (read_deaf _) c s hs env e (hfair (.event env e) (by simp)) hz.1
      have hk : Keep (snapKey c id) s.fs (step c s (.event env e)).1.fs := by rw [g2]; exact reply_keep _ _ _ _ _ hun1
      have hi := ih (step c s (.event env e)).1 g1 (stored_keep hu hd hst hk) hun2 (fun x hx => hfair x (by simp [hx]))
        (fun x hx => hok x (by simp [hx])) hz.2
      refine ⟨?_, hi.2⟩
      rw [readAnswers, sentOf_append, List.filterMap_append, g3]
      have hi1 := hi.1
      rw [readAnswers] at hi1
      rw [hi1]
      by_cases hreq : ∃ o n, requestIn e = some (.readFile (utf8Encode id) o n)
      · obtain ⟨o, n, hreq⟩ := hreq
        have hb := hok _ (List.mem_cons_self ..) o n hreq
        rw [hreq] at g4 ⊢
        rw [read_reply c env s.fs id d hst o n hb.1 hb.2 hlen hid g4]
        simp [readRequests, Move.request, hreq]
      · rw [reads_none c env s.fs _ _ g4 (fun o n h => hreq ⟨o, n, h⟩)]
        have : readRequests (utf8Encode id) (.event env e :: ms) = readRequests (utf8Encode id) ms := by
          simp only [readRequests, Move.request, List.filterMap_cons]
          split
          · rfl
          · rename_i b hb
            split at hb
            · rename_i i o n hr
              split at hb
              · rename_i hi'
                subst hi'
                exact absurd ⟨o, n, hr⟩ hreq
              · exact (nomatch hb)
            · exact (nomatch hb)
        rw [this, List.nil_append]

/-! ### Downloads -/

/-- Answers to anything but a write request for the id. -/
theorem writes_none (c : Cfg) (env : Env) (fs : FS) (id : Bytes) (req : Option Request)
    (hl : ∀ m ∈ (reply c env fs req).2.filterMap message, m.length ≤ maxSize) (h : ∀ p dv o d f, req ≠ some (.writeFile id p dv o d f)) :
    ((reply c env fs req).2.filterMap message).filterMap (writeAnswer id) = [] := by
  have key : ∀ cls vals, (reply c env fs req).2 = [.ok ⟨cls, vals⟩] → Flat vals →
      (∀ m, decoded m = .int cls.num :: vals.map flatView → writeAnswer id m = none) →
      ((reply c env fs req).2.filterMap message).filterMap (writeAnswer id) = [] := by
    intro cls vals he hf hr
    rw [he] at hl ⊢
    simp only [List.filterMap_cons, List.filterMap_nil] at hl ⊢
    cases hm : message (.ok ⟨cls, vals⟩) with
    | none => rfl
    | some m =>
      rw [hm] at hl
      have := hr m (message_decoded hm hf (hl m (by simp)))
      simp [this]
  cases req with
  | none => rfl
  | some r =>
    cases r with
    | instruction => rfl
    | scan => rfl
    | closeFile id => rfl
    | openFile i path =>
      rcases c57_open (fun _ => "") c env.opn fs i path with ⟨n, h'⟩ | ⟨reason, h'⟩
      · exact key _ _ h' (by simp [Flat]) (by intro m hm; unfold writeAnswer; rw [hm]; rfl)
      · exact key _ _ h' (by simp [Flat]) (by intro m hm; unfold writeAnswer; rw [hm]; rfl)
    | readFile i o n =>
      rcases c57_read (fun _ => "") c env.rd fs i o n with ⟨d, h'⟩ | ⟨reason, h'⟩
      · exact key _ _ h' (by simp [Flat]) (by intro m hm; unfold writeAnswer; rw [hm]; rfl)
      · exact key _ _ h' (by simp [Flat]) (by intro m hm; unfold writeAnswer; rw [hm]; rfl)
    | writeFile i path device offset data final =>
      have hne : i ≠ id := by rintro rfl; exact h _ _ _ _ _ rfl
      cases hd : utf8Decode device with
      | none => simp [reply, onWrite, hd]
      | some dv =>
        obtain ⟨position, dev, code, reason, h', -⟩ := c57_write_partial (fun _ => "") c env.wr fs i path device offset data final (by simp [hd])
        exact key _ _ (by simp only [reply, h', Option.getD_some]; rfl) (by simp [Flat])
          (by intro m hm; unfold writeAnswer; rw [hm]; simp [flatView, writeResult, hne])

theorem write_answer_of {cls : Packets.PClass} {id : Bytes} {a : WriteAnswer} {reason m : Bytes} (hc : cls = writeResult)
    (h : message (.ok ⟨cls, [.bytes id, .int a.position, .int a.size, .bytes a.device, .int a.fail, .bytes reason]⟩) = some m)
    (hl : m.length ≤ maxSize) : writeAnswer id m = some a := by
  subst hc
  have := message_decoded h (by simp [Flat]) hl
  unfold writeAnswer
  rw [this]
  simp [flatView, writeResult]

/-- Every write request gets at most one answer; and what it means that the code is 0. -/
theorem write_reply (c : Cfg) (env : Env) (fs : FS) (id path device : Bytes) (offset : Int) (data : Bytes) (final : Int)
    (hl : ∀ m ∈ (reply c env fs (some (.writeFile id path device offset data final))).2.filterMap message, m.length ≤ maxSize) :
    let r := reply c env fs (some (.writeFile id path device offset data final))
    (r.2.filterMap message).filterMap (writeAnswer id) = [] ∨
    ∃ a, (r.2.filterMap message).filterMap (writeAnswer id) = [a] ∧ (a.fail = 0 →
      ∃ given fs1 dev fs2, utf8Decode device = some given ∧
        (if given = [] then ∃ t, utf8Decode id = some t ∧ addDownload c env.wr.mkdirFails env.wr.createFails fs t = (fs1, some dev)
         else fs1 = fs ∧ dev = given) ∧
        (if data = [] then fs2 = fs1 else writeChunk c.cwd env.wr.write fs1 dev offset data = (fs2, true)) ∧
        (if final = 0 then r.1 = fs2 else copyDownload c env.wr fs2 dev path = (r.1, true)) ∧
        a = ⟨offset + data.length, data.length, utf8Encode dev, 0⟩) := by
  intro r
  have key : ∀ (a : WriteAnswer) reason, r.2 = [.ok ⟨writeResult, [.bytes id, .int a.position, .int a.size, .bytes a.device, .int a.fail,
      .bytes reason]⟩] → ∀ P : Prop, (a.fail = 0 → P) → (r.2.filterMap message).filterMap (writeAnswer id) = [] ∨
      ((r.2.filterMap message).filterMap (writeAnswer id) = [a] ∧ (a.fail = 0 → P)) := by
    intro a reason he P hP
    rw [show reply c env fs (some (.writeFile id path device offset data final)) = r from rfl, he] at hl
    rw [he]
    simp only [List.filterMap_cons, List.filterMap_nil] at hl ⊢
    cases hm : message (.ok ⟨writeResult, [.bytes id, .int a.position, .int a.size, .bytes a.device, .int a.fail, .bytes reason]⟩) with
    | none => exact .inl rfl
    | some m =>
      rw [hm] at hl
      refine .inr ⟨?_, hP⟩
      simp only [List.filterMap_cons, List.filterMap_nil, write_answer_of rfl hm (hl m (by simp))]
  have hr : r = ((onWrite (fun _ => "") c env.wr fs id path device offset data final).1,
      (onWrite (fun _ => "") c env.wr fs id path device offset data final).2.getD []) := rfl
  clear_value r
  simp only [onWrite, create32] at hr
  cases hd : utf8Decode device with
  | none => rw [hd] at hr; subst hr; exact .inl rfl
  | some given =>
    rw [hd] at hr
    simp only at hr
    split at hr
    · rcases key ⟨offset, data.length, device, 1⟩ _ (by rw [hr]; rfl) False (by simp) with h | h
      · exact .inl h
      · exact .inr ⟨_, h.1, fun h' => (h.2 h').elim⟩
    · rename_i fs1 dev hq
      split at hr
      · rcases key ⟨offset, data.length, utf8Encode dev, 2⟩ _ (by rw [hr]; rfl) False (by simp) with h | h
        · exact .inl h
        · exact .inr ⟨_, h.1, fun h' => (h.2 h').elim⟩
      · rename_i fs2 hq2
        split at hr
        · rcases key ⟨offset, data.length, utf8Encode dev, 3⟩ _ (by rw [hr]; rfl) False (by simp) with h | h
          · exact .inl h
          · exact .inr ⟨_, h.1, fun h' => (h.2 h').elim⟩
        · rename_i fs3 hq3
          rcases key ⟨offset + data.length, data.length, utf8Encode dev, 0⟩ _ (by rw [hr]; rfl) True (by simp) with h | h
          · exact .inl h
          · refine .inr ⟨_, h.1, fun _ => ⟨given, fs1, dev, fs2, rfl, ?_, ?_, ?_, rfl⟩⟩
            · split at hq
              · rename_i he
                rw [if_pos he]
                split at hq
                · exact (nomatch hq)
                · rename_i t ht; exact ⟨t, ht, hq⟩
              · rename_i he
                rw [if_neg he]
                simp only [Prod.mk.injEq, Option.some.injEq] at hq
                exact ⟨hq.1.symm, hq.2.symm⟩
            · split at hq2
              · rename_i he
                have : data = [] := by simpa using he
                simp only [Prod.mk.injEq, and_true] at hq2
                rw [if_pos this, hq2]
              · rename_i he
                have : ¬ data = [] := by simpa using he
                rw [if_neg this]; exact hq2
            · split at hq3
              · rename_i he
                rw [if_neg he, hr]; exact hq3
              · rename_i he
                have : final = 0 := by simpa using he
                simp only [Prod.mk.injEq, and_true] at hq3
                rw [if_pos this, hr, hq3]

theorem writeChunk_true {cwd : Text} {io : Io} {fs fs' : FS} {path : Text} {offset : Nat} {data : Bytes}
    (h : writeChunk cwd io fs path offset data = (fs', true)) :
    ∃ old, fs.content cwd path = some old ∧ fs' = fs.set (lexKey (join cwd path)) (some (.file (writeAt old offset data))) := by
  simp only [writeChunk] at h
  split at h
  · rename_i k old hp hc
    have := FS.place_lex hp
    subst this
    split at h
    · simp at h
    · split at h
      · simp only [Prod.mk.injEq, and_true] at h
        exact ⟨old, hc, by rw [← h]; rfl⟩
      · simp at h
      · simp at h
      · simp at h
  · simp at h

/-- A chunk that is accepted is in the temporary file. -/
theorem chunk_written {cwd : Text} {io : Io} {fs fs' : FS} {dev : Text} {cur content : Bytes} {done : List Chunk} {ch : Chunk}
    (hc : fs.content cwd dev = some cur) (hp : Partial content done cur) (hch : ch.of content)
    (h : if ch.data = [] then fs' = fs else writeChunk cwd io fs dev ch.offset ch.data = (fs', true)) :
    (∃ cur', fs'.content cwd dev = some cur' ∧ Partial content (ch :: done) cur') ∧ ∀ k, k ≠ lexKey (join cwd dev) → fs' k = fs k := by
  split at h
  · rename_i he
    subst h
    exact ⟨⟨cur, hc, partial_skip hp ch he⟩, fun _ _ => rfl⟩
  · obtain ⟨old, h1, h2⟩ := writeChunk_true h
    rw [hc] at h1
    injection h1 with h1
    subst h1 h2
    exact ⟨⟨_, content_set hc _, partial_write hp ch hch⟩, fun k hk => FS.set_other _ _ hk⟩

/-- The answers of one move. -/
theorem answers_le (c : Cfg) (s : Sys) (hs : s.client.hung = false) (id : Bytes) (m : Move) (hf : m.fair) (hz : Sized (step c s m).2) :
    (writeAnswers id (step c s m).2).length ≤ (m.write id).toList.length ∧ (step c s m).1.client.hung = false := by
  cases m with
  | change k n => exact ⟨by simp [step, writeAnswers, sentOf], hs⟩
  | event env e =>
    obtain ⟨g1, g2, g3, g4⟩ := event_spec (writeAnswer id) (write_deaf id) c s hs env e hf hz
    refine ⟨?_, g1⟩
    rw [writeAnswers, g3]
    cases hw : Move.write id (.event env e) with
    | none =>
      rw [writes_none c env s.fs id _ g4]
      · simp
      · intro p dv o d f hreq
        simp [Move.write, Move.request, hreq] at hw
    | some r =>
      simp only [Move.write, Move.request] at hw
      split at hw
      · rename_i i path device offset data final hreq
        split at hw
        · rename_i hi
          subst hi
          rw [hreq] at g4 ⊢
          rcases write_reply c env s.fs i path device offset data final g4 with h | ⟨a, h, -⟩
          · rw [h]; simp
          · rw [h]; simp
        · exact (nomatch hw)
      · exact (nomatch hw)

theorem answers_run (c : Cfg) (id : Bytes) (ms : List Move) (s : Sys) (hs : s.client.hung = false) (hf : ∀ m ∈ ms, m.fair)
    (hz : Sized (run c s ms).2) : (writeAnswers id (run c s ms).2).length ≤ (writeRequests id ms).length ∧ (run c s ms).1.client.hung = false := by
  induction ms generalizing s with
  | nil => exact ⟨by simp [run, writeAnswers, sentOf], hs⟩
  | cons m ms ih =>
    simp only [run] at hz ⊢
    rw [sized_append] at hz
    obtain ⟨h1, h2⟩ := answers_le c s hs id m (hf m (by simp)) hz.1
    obtain ⟨h3, h4⟩ := ih (step c s m).1 h2 (fun x hx => hf x (by simp [hx])) hz.2
    refine ⟨?_, h4⟩
    rw [writeAnswers, sentOf_append, List.filterMap_append, List.length_append]
    simp only [writeAnswers] at h1 h3
    have : (writeRequests id (m :: ms)).length = (m.write id).toList.length + (writeRequests id ms).length := by
      simp only [writeRequests, List.filterMap_cons]
      cases m.write id <;> simp; omega
    omega

theorem run_append (c : Cfg) (s : Sys) (a b : List Move) :
    run c s (a ++ b) = ((run c (run c s a).1 b).1, (run c s a).2 ++ (run c (run c s a).1 b).2) := by
  induction a generalizing s with
  | nil => simp [run]
  | cons m a ih => simp [run, ih]

theorem undisturbed_append {c : Cfg} {K : List Text} {own : Move → Bool} {s : Sys} {a b : List Move} :
    Undisturbed c K own s (a ++ b) ↔ Undisturbed c K own s a ∧ Undisturbed c K own (run c s a).1 b := by
  induction a generalizing s with
  | nil => simp [Undisturbed, run]
  | cons m a ih => simp [Undisturbed, run, ih, and_assoc]

/-- A move that is not a write request for the id. -/
theorem foreign_move (c : Cfg) (s : Sys) (hs : s.client.hung = false) (id : Bytes) (dev : Text) (hu : ¬ GoesUp (join c.cwd dev)) (m : Move)
    (hf : m.fair) (hz : Sized (step c s m).2) (hw : m.write id = none) (hl : m.leaves c (lexKey (join c.cwd dev)) s.fs) :
    writeAnswers id (step c s m).2 = [] ∧ (∀ cur, s.fs.content c.cwd dev = some cur → (step c s m).1.fs.content c.cwd dev = some cur) ∧
    Keep (lexKey (join c.cwd dev)) s.fs (step c s m).1.fs := by
  cases m with
  | change k n =>
    have hk := keep_set n s.fs hl
    exact ⟨rfl, fun cur hc => content_keep hk hu hc, hk⟩
  | event env e =>
    obtain ⟨g1, g2, g3, g4⟩ := event_spec (writeAnswer id) (write_deaf id) c s hs env e hf hz
    have hk : Keep (lexKey (join c.cwd dev)) s.fs (step c s (.event env e)).1.fs := by rw [g2]; exact reply_keep _ _ _ _ _ hl
    refine ⟨?_, fun cur hc => content_keep hk hu hc, hk⟩
    rw [writeAnswers, g3, writes_none c env s.fs id _ g4]
    intro p dv o d f hreq
    simp [Move.write, Move.request, hreq] at hw

/-- A write request for the id that is answered with code 0. -/
theorem own_move (c : Cfg) (s : Sys) (hs : s.client.hung = false) (id : Bytes) (m : Move) (hf : m.fair) (hz : Sized (step c s m).2)
    {path device data : Bytes} {offset final : Int} (hw : m.write id = some (path, device, offset, data, final)) (a : WriteAnswer)
    (ha : a ∈ writeAnswers id (step c s m).2) (h0 : a.fail = 0) :
    writeAnswers id (step c s m).2 = [a] ∧ ∃ env e, m = .event env e ∧
      ∃ given fs1 dev fs2, utf8Decode device = some given ∧
        (if given = [] then ∃ t, utf8Decode id = some t ∧ addDownload c env.wr.mkdirFails env.wr.createFails s.fs t = (fs1, some dev)
         else fs1 = s.fs ∧ dev = given) ∧
        (if data = [] then fs2 = fs1 else writeChunk c.cwd env.wr.write fs1 dev offset data = (fs2, true)) ∧
        (if final = 0 then (step c s m).1.fs = fs2 else copyDownload c env.wr fs2 dev path = ((step c s m).1.fs, true)) ∧
        a = ⟨offset + data.length, data.length, utf8Encode dev, 0⟩ := by
  cases m with
  | change k n => simp [Move.write, Move.request] at hw
  | event env e =>
    obtain ⟨g1, g2, g3, g4⟩ := event_spec (writeAnswer id) (write_deaf id) c s hs env e hf hz
    simp only [Move.write, Move.request] at hw
    split at hw
    · rename_i i path' device' offset' data' final' hreq
      split at hw
      · rename_i hi
        subst hi
        injection hw with hw
        simp only [Prod.mk.injEq] at hw
        obtain ⟨rfl, rfl, rfl, rfl, rfl⟩ := hw
        rw [hreq] at g2 g3 g4
        simp only [writeAnswers] at ha ⊢
        rw [g3] at ha ⊢
        rcases write_reply c env s.fs i path' device' offset' data' final' g4 with h | ⟨a', h, h'⟩
        · rw [h] at ha; simp at ha
        · rw [h] at ha ⊢
          simp only [List.mem_singleton] at ha
          subst ha
          refine ⟨rfl, env, e, rfl, ?_⟩
          rw [g2]
          exact h' h0
      · exact (nomatch hw)
    · exact (nomatch hw)

/-- The chunks after the first, but for the last. -/
theorem chunks_run (c : Cfg) (id path : Bytes) (dev : Text) (hdev : dev ≠ []) (hu : ¬ GoesUp (join c.cwd dev)) (content : Bytes) (ms : List Move)
    (s : Sys) (hs : s.client.hung = false) (chunks done : List Chunk) (cur : Bytes) (hch : ∀ ch ∈ chunks, ch.of content)
    (hc : s.fs.content c.cwd dev = some cur) (hp : Partial content done cur)
    (hreq : writeRequests id ms = chunks.map (fun ch => (path, utf8Encode dev, (ch.offset : Int), ch.data, (0 : Int))))
    (hun : Undisturbed c (lexKey (join c.cwd dev)) (Move.writes id) s ms) (hf : ∀ m ∈ ms, m.fair) (hz : Sized (run c s ms).2)
    (hlen : (writeAnswers id (run c s ms).2).length = chunks.length) (h0 : ∀ a ∈ writeAnswers id (run c s ms).2, a.fail = 0) :
    writeAnswers id (run c s ms).2 = chunks.map (accepted (utf8Encode dev)) ∧
    ∃ cur', (run c s ms).1.fs.content c.cwd dev = some cur' ∧ Partial content (chunks.reverse ++ done) cur' := by
  induction ms generalizing s chunks done cur with
  | nil =>
    have : chunks = [] := by
      cases chunks with
      | nil => rfl
      | cons a b => simp [writeRequests] at hreq
    subst this
    exact ⟨rfl, cur, hc, hp⟩
  | cons m ms ih =>
    obtain ⟨hun1, hun2⟩ := hun
    simp only [run] at hz hlen h0 ⊢
    rw [sized_append] at hz
    have hz1 := hz.1
    have hz2 := hz.2
    have hsplit : ∀ a b, writeAnswers id (a ++ b) = writeAnswers id a ++ writeAnswers id b := by
      intro a b; simp [writeAnswers, sentOf_append]
    rw [hsplit] at hlen h0 ⊢
    obtain ⟨hle1, hhung⟩ := answers_le c s hs id m (hf m (by simp)) hz1
    cases hw : m.write id with
    | none =>
      have hl := hun1 (by simp [Move.writes, hw])
      obtain ⟨f1, f2, -⟩ := foreign_move c s hs id dev hu m (hf m (by simp)) hz1 hw hl
      have hreq' : writeRequests id ms = chunks.map (fun ch => (path, utf8Encode dev, (ch.offset : Int), ch.data, (0 : Int))) := by
        rw [← hreq]; simp [writeRequests, hw]
      rw [f1, List.nil_append] at hlen h0 ⊢
      exact ih (step c s m).1 hhung chunks done cur hch (f2 cur hc) hp hreq' hun2 (fun x hx => hf x (by simp [hx])) hz2 hlen h0
    | some r =>
      cases chunks with
      | nil => simp [writeRequests, hw] at hreq
      | cons ch chunks =>
        simp only [writeRequests, List.filterMap_cons, hw, List.map_cons, List.cons.injEq] at hreq
        obtain ⟨hr1, hr2⟩ := hreq
        subst hr1
        have hrest := (answers_run c id ms (step c s m).1 hhung (fun x hx => hf x (by simp [hx])) hz2).1
        have hrl : (writeRequests id ms).length = chunks.length := by rw [writeRequests, hr2]; simp
        rw [hw] at hle1
        simp only [Option.toList_some, List.length_cons, List.length_nil] at hle1
        simp only [List.length_append, List.length_cons] at hlen
        have hlen1 : (writeAnswers id (step c s m).2).length = 1 := by omega
        have hlen2 : (writeAnswers id (run c (step c s m).1 ms).2).length = chunks.length := by omega
        obtain ⟨a, ha⟩ := List.length_eq_one_iff.1 hlen1
        have hmem : a ∈ writeAnswers id (step c s m).2 := by rw [ha]; simp
        obtain ⟨-, env, e, -, given, fs1, dv, fs2, q1, q2, q3, q4, q5⟩ :=
          own_move c s hs id m (hf m (by simp)) hz1 hw a hmem (h0 a (by simp [hmem]))
        rw [utf8Decode_encode] at q1
        injection q1 with q1
        subst q1
        rw [if_neg hdev] at q2
        obtain ⟨rfl, rfl⟩ := q2
        rw [if_pos rfl] at q4
        obtain ⟨⟨cur', w1, w2⟩, -⟩ := chunk_written hc hp (hch ch (by simp)) q3
        rw [← q4] at w1
        obtain ⟨j1, cur'', j2, j3⟩ := ih (step c s m).1 hhung chunks (ch :: done) cur' (fun x hx => hch x (by simp [hx])) w1 w2 hr2 hun2
          (fun x hx => hf x (by simp [hx])) hz2 hlen2 (fun x hx => h0 x (by simp [hx]))
        refine ⟨?_, cur'', j2, by simpa using j3⟩
        rw [ha, j1, q5]
        rfl

/-- A chunk that is accepted, first or not. -/
theorem own_chunk (c : Cfg) (s : Sys) (hs : s.client.hung = false) (id : Text) (dev : Text) (hdev : dev = downloadPath c id) (hne : dev ≠ [])
    (m : Move) (hf : m.fair) (hz : Sized (step c s m).2) {path device content : Bytes} {ch : Chunk} {final : Int} {done : List Chunk}
    (hch : ch.of content) (hw : m.write (utf8Encode id) = some (path, device, (ch.offset : Int), ch.data, final))
    (hd : (device = [] ∧ done = []) ∨ (device = utf8Encode dev ∧ ∃ cur, s.fs.content c.cwd dev = some cur ∧ Partial content done cur))
    (hlen : (writeAnswers (utf8Encode id) (step c s m).2).length = 1) (h0 : ∀ a ∈ writeAnswers (utf8Encode id) (step c s m).2, a.fail = 0) :
    writeAnswers (utf8Encode id) (step c s m).2 = [accepted (utf8Encode dev) ch] ∧
    ∃ env fs2 cur, (∀ k, k ≠ lexKey (join c.cwd dev) → (s.fs k ≠ none ∨ k ≠ lexKey (join c.cwd (downloadDir c))) → fs2 k = s.fs k) ∧ fs2.content c.cwd dev = some cur ∧
      Partial content (ch :: done) cur ∧
      (if final = 0 then (step c s m).1.fs = fs2 else copyDownload c env fs2 dev path = ((step c s m).1.fs, true)) := by
  obtain ⟨a, ha⟩ := List.length_eq_one_iff.1 hlen
  have hmem : a ∈ writeAnswers (utf8Encode id) (step c s m).2 := by rw [ha]; simp
  obtain ⟨h1, env, e, -, given, fs1, dv, fs2, q1, q2, q3, q4, q5⟩ := own_move c s hs _ m hf hz hw a hmem (h0 a hmem)
  have key : dv = dev ∧ (∀ k, k ≠ lexKey (join c.cwd dev) → (s.fs k ≠ none ∨ k ≠ lexKey (join c.cwd (downloadDir c))) → fs1 k = s.fs k) ∧
      ∃ cur, fs1.content c.cwd dev = some cur ∧ Partial content done cur := by
    rcases hd with ⟨rfl, rfl⟩ | ⟨rfl, cur, hc, hp⟩
    · have : given = [] := by
        have : utf8Decode [] = some [] := rfl
        rw [this] at q1; injection q1 with q1; exact q1.symm
      subst this
      rw [if_pos rfl] at q2
      obtain ⟨t, ht, q2⟩ := q2
      rw [utf8Decode_encode] at ht
      injection ht with ht
      subst ht
      obtain ⟨d1, d2⟩ := addDownload_some q2
      have hdv : dv = dev := by rw [d1, hdev]; rfl
      subst hdv
      refine ⟨rfl, ?_, [], d2, by simp, ?_⟩
      · intro k hk hn
        have h1 := addDownload_Change c env.wr.mkdirFails env.wr.createFails s.fs id
        have h2 := addDownload_other c env.wr.mkdirFails env.wr.createFails s.fs id k
        rw [q2] at h1 h2
        rw [hdev] at hk
        rcases hn with hn | hn
        · exact h1.keeps hk hn
        · exact h2 hk hn
      · rintro i ⟨_, h, _⟩; simp at h
    · rw [utf8Decode_encode] at q1
      injection q1 with q1
      subst q1
      rw [if_neg hne] at q2
      obtain ⟨rfl, rfl⟩ := q2
      exact ⟨rfl, fun _ _ _ => rfl, cur, hc, hp⟩
  obtain ⟨rfl, k1, cur, k2, k3⟩ := key
  obtain ⟨⟨cur', w1, w2⟩, w3⟩ := chunk_written k2 k3 hch q3
  refine ⟨by rw [h1, q5]; rfl, env.wr, fs2, cur', fun k hk hn => by rw [w3 k hk, k1 k hk hn], w1, w2, q4⟩

theorem foreign_run (c : Cfg) (id : Bytes) (dev : Text) (hu : ¬ GoesUp (join c.cwd dev)) (ms : List Move) (s : Sys) (hs : s.client.hung = false)
    (hreq : writeRequests id ms = []) (hun : Undisturbed c (lexKey (join c.cwd dev)) (Move.writes id) s ms) (hf : ∀ m ∈ ms, m.fair)
    (hz : Sized (run c s ms).2) : writeAnswers id (run c s ms).2 = [] := by
  have := (answers_run c id ms s hs hf hz).1
  rw [hreq] at this
  exact List.eq_nil_of_length_eq_zero (by simpa using this)

theorem writeAnswers_append (id : Bytes) (a b : List Out) : writeAnswers id (a ++ b) = writeAnswers id a ++ writeAnswers id b := by
  simp [writeAnswers, sentOf_append]

theorem writeRequests_append (id : Bytes) (a b : List Move) : writeRequests id (a ++ b) = writeRequests id a ++ writeRequests id b := by
  simp [writeRequests]

theorem chunkRequests_rest (path device : Bytes) (init : List Chunk) (l : Chunk) :
    chunkRequests path device device (init ++ [l]) =
      init.map (fun ch => (path, device, (ch.offset : Int), ch.data, (0 : Int))) ++ [(path, device, (l.offset : Int), l.data, 1)] := by
  induction init with
  | nil => rfl
  | cons a init ih => simp [chunkRequests, ih]

/-- All the chunks but the last. -/
theorem init_run (c : Cfg) (id : Text) (path : Bytes) (dev : Text) (hdev : dev = downloadPath c id) (hne : dev ≠ [])
    (hu : ¬ GoesUp (join c.cwd dev)) (content : Bytes) (ch : Chunk) (init : List Chunk) (hch : ∀ x ∈ ch :: init, x.of content)
    (ms : List Move) (s : Sys) (hs : s.client.hung = false)
    (hreq : writeRequests (utf8Encode id) ms = (path, [], (ch.offset : Int), ch.data, (0 : Int)) ::
      init.map (fun ch => (path, utf8Encode dev, (ch.offset : Int), ch.data, (0 : Int))))
    (hun : Undisturbed c (lexKey (join c.cwd dev)) (Move.writes (utf8Encode id)) s ms) (hf : ∀ m ∈ ms, m.fair) (hz : Sized (run c s ms).2)
    (hlen : (writeAnswers (utf8Encode id) (run c s ms).2).length = init.length + 1)
    (h0 : ∀ a ∈ writeAnswers (utf8Encode id) (run c s ms).2, a.fail = 0) :
    writeAnswers (utf8Encode id) (run c s ms).2 = (ch :: init).map (accepted (utf8Encode dev)) ∧
    ∃ cur', (run c s ms).1.fs.content c.cwd dev = some cur' ∧ Partial content (init.reverse ++ [ch]) cur' := by
  obtain ⟨l1, m, l2, rfl, e1, e2, e3⟩ := List.filterMap_eq_cons_iff.1 hreq
  replace e1 : writeRequests (utf8Encode id) l1 = [] := List.filterMap_eq_nil_iff.2 e1
  have hcons : l1 ++ m :: l2 = l1 ++ ([m] ++ l2) := rfl
  rw [hcons, run_append, run_append] at hz hlen h0 ⊢
  rw [hcons, undisturbed_append, undisturbed_append] at hun
  simp only [writeAnswers_append] at hlen h0 ⊢
  rw [sized_append, sized_append] at hz
  obtain ⟨hz1, hz2, hz3⟩ := hz
  obtain ⟨u1, u2, u3⟩ := hun
  have hf1 : ∀ x ∈ l1, x.fair := fun x hx => hf x (by simp [hx])
  have hf2 : m.fair := hf m (by simp)
  have hf3 : ∀ x ∈ l2, x.fair := fun x hx => hf x (by simp [hx])
  have a1 := foreign_run c (utf8Encode id) dev hu l1 s hs e1 u1 hf1 hz1
  have hs1 := (answers_run c (utf8Encode id) l1 s hs hf1 hz1).2
  generalize (run c s l1).1 = s1 at *
  have r1 : run c s1 [m] = ((step c s1 m).1, (step c s1 m).2) := by simp [run]
  rw [r1] at hz2 hz3 hlen h0 u3 ⊢
  simp only [a1, List.nil_append] at hlen h0 ⊢ hz2 hz3 u3
  obtain ⟨b1, hs2⟩ := answers_le c s1 hs1 (utf8Encode id) m hf2 hz2
  have b3 := (answers_run c (utf8Encode id) l2 _ hs2 hf3 hz3).1
  have hl2 : (writeRequests (utf8Encode id) l2).length = init.length := by rw [writeRequests, e3]; simp
  rw [e2] at b1
  simp only [Option.toList_some, List.length_cons, List.length_nil] at b1
  rw [List.length_append] at hlen
  obtain ⟨c1, env, fs2, cur, c2, c3, c4, c5⟩ := own_chunk c s1 hs1 id dev hdev hne m hf2 hz2 (hch ch (by simp)) e2 (.inl ⟨rfl, rfl⟩)
    (by omega) (fun a ha => h0 a (by simp [ha]))
  rw [if_pos rfl] at c5
  rw [← c5] at c3
  obtain ⟨d1, cur', d2, d3⟩ := chunks_run c (utf8Encode id) path dev hne hu content l2 _ hs2 init [ch] cur (fun x hx => hch x (by simp [hx]))
    c3 c4 e3 u3 hf3 hz3 (by omega) (fun a ha => h0 a (by simp [ha]))
  refine ⟨by rw [c1, d1]; rfl, cur', d2, d3⟩

/-- The whole download. -/
theorem download_run (c : Cfg) (id : Text) (path : Bytes) (dev : Text) (hdev : dev = downloadPath c id) (hne : dev ≠ [])
    (hu : ¬ GoesUp (join c.cwd dev)) (content : Bytes) (chunks : List Chunk) (hcn : chunks ≠ []) (hch : ∀ x ∈ chunks, x.of content)
    (hcov : Covers content chunks) (ms : List Move) (last : Move) (s : Sys) (hs : s.client.hung = false)
    (hreq : writeRequests (utf8Encode id) (ms ++ [last]) = chunkRequests path (utf8Encode dev) [] chunks)
    (hlast : last.writes (utf8Encode id) = true)
    (hun : Undisturbed c (lexKey (join c.cwd dev)) (Move.writes (utf8Encode id)) s (ms ++ [last])) (hf : ∀ m ∈ ms ++ [last], m.fair)
    (hz : Sized (run c s (ms ++ [last])).2)
    (hlen : (writeAnswers (utf8Encode id) (run c s (ms ++ [last])).2).length = chunks.length)
    (h0 : ∀ a ∈ writeAnswers (utf8Encode id) (run c s (ms ++ [last])).2, a.fail = 0) :
    writeAnswers (utf8Encode id) (run c s (ms ++ [last])).2 = chunks.map (accepted (utf8Encode dev)) ∧
    ∃ fs' env, (∀ k, k ≠ lexKey (join c.cwd dev) → ((run c s ms).1.fs k ≠ none ∨ k ≠ lexKey (join c.cwd (downloadDir c))) →
        fs' k = (run c s ms).1.fs k) ∧
      fs'.content c.cwd dev = some content ∧ copyDownload c env fs' dev path = ((run c s (ms ++ [last])).1.fs, true) := by
  rw [run_append] at hz hlen h0 ⊢
  rw [undisturbed_append] at hun
  simp only [writeAnswers_append] at hlen h0 ⊢
  rw [sized_append] at hz
  obtain ⟨hz1, hz2⟩ := hz
  obtain ⟨u1, -⟩ := hun
  have hf1 : ∀ x ∈ ms, x.fair := fun x hx => hf x (by simp [hx])
  have hf2 : last.fair := hf last (by simp)
  obtain ⟨hle, hs1⟩ := answers_run c (utf8Encode id) ms s hs hf1 hz1
  have r1 : ∀ s1, run c s1 [last] = ((step c s1 last).1, (step c s1 last).2) := by intro s1; simp [run]
  rw [r1] at hz2 hlen h0 ⊢
  dsimp only at hz2 hlen h0 ⊢
  obtain ⟨r, hr⟩ := Option.isSome_iff_exists.1 hlast
  have hb := (answers_le c _ hs1 (utf8Encode id) last hf2 hz2).1
  rw [hr] at hb
  simp only [Option.toList_some, List.length_cons, List.length_nil] at hb
  rw [List.length_append] at hlen
  rw [writeRequests_append] at hreq
  have hrl : writeRequests (utf8Encode id) [last] = [r] := by simp [writeRequests, hr]
  rw [hrl] at hreq
  have hn : (chunkRequests path (utf8Encode dev) [] chunks).length = chunks.length := by
    have : ∀ dv, (chunkRequests path (utf8Encode dev) dv chunks).length = chunks.length := by
      clear hreq hlen hcov hch hcn
      induction chunks with
      | nil => intro; rfl
      | cons a l ih => intro dv; simp [chunkRequests, ih]
    exact this _
  have hlen' : (writeRequests (utf8Encode id) ms).length + 1 = chunks.length := by rw [← hn, ← hreq]; simp
  have hl1 : (writeAnswers (utf8Encode id) (step c (run c s ms).1 last).2).length = 1 := by omega
  have hl2 : (writeAnswers (utf8Encode id) (run c s ms).2).length = (writeRequests (utf8Encode id) ms).length := by omega
  cases chunks with
  | nil => exact absurd rfl hcn
  | cons ch rest =>
    rcases List.eq_nil_or_concat rest with rfl | ⟨init, l, hrest⟩
    · have hms : writeRequests (utf8Encode id) ms = [] := by
        simp only [List.length_cons, List.length_nil] at hlen'
        exact List.eq_nil_of_length_eq_zero (by omega)
      rw [hms] at hreq
      simp only [chunkRequests, List.nil_append, if_true, List.cons.injEq, and_true] at hreq
      subst hreq
      obtain ⟨c1, env, fs2, cur, c2, c3, c4, c5⟩ := own_chunk c _ hs1 id dev hdev hne last hf2 hz2 (hch ch (by simp)) hr (.inl ⟨rfl, rfl⟩)
        hl1 (fun a ha => h0 a (by simp [ha]))
      rw [if_neg (by decide)] at c5
      have := partial_full c4 hcov
      subst this
      have h1 := foreign_run c (utf8Encode id) dev hu ms s hs hms u1 hf1 hz1
      exact ⟨by rw [h1, c1]; rfl, fs2, env, c2, c3, c5⟩
    · rw [List.concat_eq_append] at hrest
      subst hrest
      have : chunkRequests path (utf8Encode dev) [] (ch :: (init ++ [l])) =
          ((path, [], (ch.offset : Int), ch.data, (0 : Int)) :: init.map (fun ch => (path, utf8Encode dev, (ch.offset : Int), ch.data, (0 : Int)))) ++
          [(path, utf8Encode dev, (l.offset : Int), l.data, 1)] := by
        simp only [chunkRequests, chunkRequests_rest]
        simp
      rw [this] at hreq
      obtain ⟨hq1, hq2⟩ := List.append_inj' hreq rfl
      simp only [List.cons.injEq, and_true] at hq2
      subst hq2
      obtain ⟨i1, cur, i2, i3⟩ := init_run c id path dev hdev hne hu content ch init (fun x hx => hch x (by
        rcases List.mem_cons.1 hx with h | h <;> simp [h])) ms s hs hq1 u1 hf1 hz1 (by rw [hl2, hq1]; simp)
        (fun a ha => h0 a (by simp [ha]))
      obtain ⟨c1, env, fs2, cur', c2, c3, c4, c5⟩ := own_chunk c _ hs1 id dev hdev hne last hf2 hz2 (hch l (by simp)) hr
        (.inr ⟨rfl, cur, i2, i3⟩) hl1 (fun a ha => h0 a (by simp [ha]))
      rw [if_neg (by decide)] at c5
      have := partial_full c4 (by
        intro i hi
        obtain ⟨x, hx, hxi⟩ := hcov i hi
        refine ⟨x, ?_, hxi⟩
        simp only [List.mem_cons, List.mem_append, List.not_mem_nil, or_false] at hx
        simp only [List.mem_cons, List.mem_append, List.mem_reverse, List.not_mem_nil, or_false]
        rcases hx with h | h | h
        · exact .inr (.inr h)
        · exact .inr (.inl h)
        · exact .inl h)
      subst this
      refine ⟨?_, fs2, env, c2, c3, c5⟩
      rw [i1, c1]
      simp

end Verif.RemoteFiles
