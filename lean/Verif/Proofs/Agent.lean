import Verif.Spec.Agent
import Verif.Proofs.System
import Verif.Proofs.Instructions
import Verif.Props.Instructions
/-! Lemmas about the agent with its services. -/
namespace Verif.Agent
open Verif WSClient System
open _root_.Verif.Instructions (react instruct requestIn isRequest passedOn step_requests perform Asks Done)

/-! ### A service alone -/

/-- A move seen from one service. -/
inductive OwnMove where
  | client (env : Env) (e : Ev)
  | thread (fail : Option Services.Fail)

def OwnMove.Fine (n : Int) : OwnMove → Prop
  | .client _ e => Foreign n e
  | .thread _ => True

def OwnMove.Keeps (n : Int) : OwnMove → Prop
  | .client _ e => ¬ Ends n e
  | .thread _ => True

def OwnMove.ok : OwnMove → Bool
  | .client _ _ => true
  | .thread fail => fail.isNone

def OwnMove.isThread : OwnMove → Bool
  | .client _ _ => false
  | .thread _ => true

def ownMove (w : World) (n : Int) (o : Own) : OwnMove → Own × List Out
  | .client env e => (⟨(o.sys.event n env e).1, o.prog⟩, (o.sys.event n env e).2)
  | .thread fail => Own.thread w n o fail

def ownSched (w : World) (n : Int) (o : Own) : List OwnMove → Own × List Out
  | [] => (o, [])
  | m :: ms => ((ownSched w n (ownMove w n o m).1 ms).1, (ownMove w n o m).2 ++ (ownSched w n (ownMove w n o m).1 ms).2)

theorem ownSched_append (w : World) (n : Int) (o : Own) (a b : List OwnMove) : ownSched w n o (a ++ b) =
    ((ownSched w n (ownSched w n o a).1 b).1, (ownSched w n o a).2 ++ (ownSched w n (ownSched w n o a).1 b).2) := by
  induction a generalizing o with
  | nil => rfl
  | cons m a ih => simp only [List.cons_append, ownSched, ih, List.append_assoc]

/-- A file service alone is the one of `Model/System`. -/
theorem own_file (w : World) (n : Int) (path : Text) (ms : List OwnMove) (s : FileSys) :
    ∃ fs : List FileMove, ownSched w n ⟨s.sys, .file path s.pc⟩ ms =
        (⟨(fileSched n (w.content path) w.report s fs).1.sys, .file path (fileSched n (w.content path) w.report s fs).1.pc⟩,
          (fileSched n (w.content path) w.report s fs).2) ∧
      ((∀ m ∈ ms, m.Fine n) → ∀ m ∈ fs, m.Fine n) ∧ ((∀ m ∈ ms, m.Keeps n) → ∀ m ∈ fs, m.Keeps n) ∧
      ((∀ m ∈ ms, m.ok = true) → (∃ content, w.fs (Services.absPath path) = .file content) → ∀ m ∈ fs, m.ok = true) ∧
      fs.countP FileMove.isThread = ms.countP OwnMove.isThread := by
  induction ms generalizing s with
  | nil => exact ⟨[], rfl, fun _ _ h => (nomatch h), fun _ _ h => (nomatch h), fun _ _ _ h => (nomatch h), rfl⟩
  | cons m ms ih =>
    have key : ∃ fm : FileMove, ownMove w n ⟨s.sys, .file path s.pc⟩ m =
        (⟨(fileMove n (w.content path) w.report s fm).1.sys, .file path (fileMove n (w.content path) w.report s fm).1.pc⟩,
          (fileMove n (w.content path) w.report s fm).2) ∧ (m.Fine n → fm.Fine n) ∧ (m.Keeps n → fm.Keeps n) ∧
        (m.ok = true → (∃ content, w.fs (Services.absPath path) = .file content) → fm.ok = true) ∧ fm.isThread = m.isThread := by
      cases m with
      | client env e => exact ⟨.client env e, rfl, id, id, fun _ _ => rfl, rfl⟩
      | thread fail =>
        refine ⟨.thread (w.failing path s.pc fail), rfl, id, id, fun h hc => ?_, rfl⟩
        obtain ⟨content, hc⟩ := hc
        simp only [FileMove.ok, World.failing, hc]
        cases s.pc <;> exact h
    obtain ⟨fm, k1, k2, k3, k4, k5⟩ := key
    obtain ⟨fs, g1, g2, g3, g4, g5⟩ := ih (fileMove n (w.content path) w.report s fm).1
    refine ⟨fm :: fs, ?_, ?_, ?_, ?_, ?_⟩
    · simp only [ownSched, k1, g1, fileSched]
    · intro h m' hm'
      rcases List.mem_cons.1 hm' with rfl | hm'
      · exact k2 (h m (by simp))
      · exact g2 (fun x hx => h x (by simp [hx])) _ hm'
    · intro h m' hm'
      rcases List.mem_cons.1 hm' with rfl | hm'
      · exact k3 (h m (by simp))
      · exact g3 (fun x hx => h x (by simp [hx])) _ hm'
    · intro h hc m' hm'
      rcases List.mem_cons.1 hm' with rfl | hm'
      · exact k4 (h m (by simp)) hc
      · exact g4 (fun x hx => h x (by simp [hx])) hc _ hm'
    · simp only [List.countP_cons, g5, k5]

/-- Any other service alone is the one of `Model/System`. -/
theorem own_calls (w : World) (n : Int) (ms : List OwnMove) (s : CallSys) :
    ∃ cs : List CallMove, ownSched w n ⟨s.sys, .calls s.script s.inside⟩ ms =
        (⟨(callSched n s cs).1.sys, .calls (callSched n s cs).1.script (callSched n s cs).1.inside⟩, (callSched n s cs).2) ∧
      ((∀ m ∈ ms, m.Fine n) → ∀ m ∈ cs, m.Fine n) ∧ ((∀ m ∈ ms, m.Keeps n) → ∀ m ∈ cs, m.Keeps n) ∧
      cs.countP CallMove.isThread = ms.countP OwnMove.isThread := by
  induction ms generalizing s with
  | nil => exact ⟨[], rfl, fun _ _ h => (nomatch h), fun _ _ h => (nomatch h), rfl⟩
  | cons m ms ih =>
    have key : ∃ fm : CallMove, ownMove w n ⟨s.sys, .calls s.script s.inside⟩ m =
        (⟨(callMove n s fm).1.sys, .calls (callMove n s fm).1.script (callMove n s fm).1.inside⟩,
          (callMove n s fm).2) ∧ (m.Fine n → fm.Fine n) ∧ (m.Keeps n → fm.Keeps n) ∧ fm.isThread = m.isThread := by
      cases m with
      | client env e => exact ⟨.client env e, rfl, id, id, rfl⟩
      | thread fail => exact ⟨.thread, rfl, id, id, rfl⟩
    obtain ⟨fm, k1, k2, k3, k5⟩ := key
    obtain ⟨fs, g1, g2, g3, g5⟩ := ih (callMove n s fm).1
    refine ⟨fm :: fs, ?_, ?_, ?_, ?_⟩
    · simp only [ownSched, k1, g1, callSched]
    · intro h m' hm'
      rcases List.mem_cons.1 hm' with rfl | hm'
      · exact k2 (h m (by simp))
      · exact g2 (fun x hx => h x (by simp [hx])) _ hm'
    · intro h m' hm'
      rcases List.mem_cons.1 hm' with rfl | hm'
      · exact k3 (h m (by simp))
      · exact g3 (fun x hx => h x (by simp [hx])) _ hm'
    · simp only [List.countP_cons, g5, k5]

/-- A finished service does nothing. -/
theorem own_finished (w : World) (n : Int) (o : Own) (fail) (h : o.prog.finished = true) : Own.thread w n o fail = (o, []) := by
  obtain ⟨sys, prog⟩ := o
  cases prog with
  | file path pc =>
    simp only [Prog.finished, decide_eq_true_eq] at h
    subst h
    simp [Own.thread, fileThread]
  | calls script inside =>
    simp only [Prog.finished, List.isEmpty_iff] at h
    subst h
    simp [Own.thread, callThread]

/-- A statement of a thread is at most one use of the channel. -/
theorem own_use (w : World) (n : Int) (o : Own) (fail) :
    ((Own.thread w n o fail).1.sys = o.sys ∧ (Own.thread w n o fail).2 = []) ∨
    ∃ op, serviceOp op = true ∧ (Own.thread w n o fail).1.sys = (o.sys.use n op).1 ∧ (Own.thread w n o fail).2 = (o.sys.use n op).2 := by
  obtain ⟨sys, prog⟩ := o
  cases prog with
  | file path pc =>
    simp only [Own.thread]
    generalize w.failing path pc fail = fail
    cases pc with
    | opening => cases fail <;> exact .inl ⟨rfl, rfl⟩
    | reading rest =>
      cases fail with
      | some f => exact .inl ⟨rfl, rfl⟩
      | none => simp only [fileThread]; split <;> exact .inl ⟨rfl, rfl⟩
    | looking chunk rest => simp only [fileThread]; split <;> exact .inl ⟨rfl, rfl⟩
    | writing chunk rest =>
      cases fail with
      | some f => exact .inl ⟨rfl, rfl⟩
      | none =>
        simp only [fileThread]
        split
        · exact .inl ⟨rfl, rfl⟩
        · exact .inr ⟨.beginWrite chunk, rfl, rfl, rfl⟩
    | sending rest => exact .inr ⟨.finishWrite 0, rfl, rfl, rfl⟩
    | failed f =>
      cases f with
      | webSocket => exact .inl ⟨rfl, rfl⟩
      | _ =>
        simp only [fileThread]
        split
        · exact .inl ⟨rfl, rfl⟩
        · exact .inr ⟨.beginControl _, rfl, rfl, rfl⟩
    | reporting => exact .inr ⟨.finishControl 0, rfl, rfl, rfl⟩
    | closing =>
      simp only [fileThread]
      split
      · exact .inl ⟨rfl, rfl⟩
      · exact .inr ⟨.beginClose, rfl, rfl, rfl⟩
    | requesting => exact .inr ⟨.finishClose, rfl, rfl, rfl⟩
    | ended => exact .inl ⟨rfl, rfl⟩
  | calls script inside =>
    simp only [Own.thread, callThread]
    cases script with
    | nil => exact .inl ⟨rfl, rfl⟩
    | cons k rest =>
      cases inside with
      | true => exact .inr ⟨k.finish, by cases k <;> rfl, rfl, rfl⟩
      | false =>
        simp only [Bool.false_eq_true, if_false]
        split
        · exact .inl ⟨rfl, rfl⟩
        · exact .inr ⟨k.begin, by cases k <;> rfl, rfl, rfl⟩

/-! ### Instructions -/

theorem noRequest_mem {outs : List Out} (h : outs.filter isRequest = []) {o} (ho : o ∈ outs) : isRequest o = false := by
  rw [List.filter_eq_nil_iff] at h
  simpa using h o ho

theorem react_mem {w : Instructions.World} {o : Out} {x : Done} (h : x ∈ react w o) :
    ∃ sender d op, o = .instruction sender (.dict d) ∧ Asks d op ∧ perform w op = .ok [x] := by
  unfold react at h
  split at h
  · rename_i sender d
    split at h
    · rename_i done hd
      obtain ⟨op, y, h1, h2, h3⟩ := Instructions.c87_nothing_else d w hd (by rintro rfl; exact nomatch h)
      subst h2
      rw [List.mem_singleton] at h
      subst h
      exact ⟨sender, d, op, rfl, h1, h3⟩
    · exact nomatch h
  · exact nomatch h

/-- What is done in an event is asked for in it. -/
theorem step_asked {env : Env} {s : WSClient.St} {e : Ev} (hl : ∀ data, e = .binary data → data.length ≤ maxSize) {w : Instructions.World} {x : Done}
    (h : x ∈ (step env s e).2.flatMap (react w)) :
    ∃ sender d op, requestIn e = some (.instruction sender d) ∧ Asks d op ∧ perform w op = .ok [x] := by
  obtain ⟨o, ho, hx⟩ := List.mem_flatMap.1 h
  obtain ⟨sender, d, op, rfl, h1, h2⟩ := react_mem hx
  refine ⟨sender, d, op, ?_, h1, h2⟩
  have fin : s.hung = false → (∀ data, e = .binary data → ¬ Hangs data) → requestIn e = some (.instruction sender d) := by
    intro hh hg
    have := step_requests env s hh e (fun data hd => ⟨hg data hd, hl data hd⟩)
    have hm : some (Instructions.Request.instruction sender d) ∈ ((step env s e).2.filter isRequest).map passedOn :=
      List.mem_map.2 ⟨_, List.mem_filter.2 ⟨ho, rfl⟩, rfl⟩
    rw [this] at hm
    cases hr : requestIn e with
    | none => rw [hr] at hm; exact nomatch hm
    | some r =>
      rw [hr] at hm
      have hm : some (Instructions.Request.instruction sender d) = some r := by simpa using hm
      exact hm.symm
  cases e with
  | chanOp m op' =>
    exfalso
    simp only [step, Ev.isSocket, Bool.false_eq_true, if_false] at ho
    split at ho
    · split at ho
      · exact nomatch ho
      · exact nomatch (noRequest_mem (Instructions.chanOuts_noRequest _ _) ho : isRequest (.instruction sender (.dict d)) = false)
    · exact nomatch ho
  | close => exact nomatch ho
  | addCallback => exact nomatch ho
  | getChannel => exact nomatch ho
  | binary data =>
    cases hh : s.hung with
    | true => rw [hung_step env s _ hh rfl] at ho; exact nomatch ho
    | false =>
      refine fin hh ?_
      rintro data' hd' hg
      injection hd' with hd'
      subst hd'
      have := (Dispatcher.onBinary_hang_iff data).2 hg
      simp only [step, Ev.isSocket, if_true, hh, Bool.false_eq_true, if_false, onEvent, this] at ho
      exact nomatch ho
  | _ =>
    cases hh : s.hung with
    | true => rw [hung_step env s _ hh rfl] at ho; exact nomatch ho
    | false => exact fin hh (fun data hd => nomatch hd)

/-- The channel of a service that is started. -/
def portOf : Done → Option Int
  | .fileSent (.int n) _ => some n
  | .commandRun (.int n) _ => some n
  | _ => none

theorem portOf_asked {w : Instructions.World} {op : Instructions.Op} {x : Done} {n : Int} (h : perform w op = .ok [x]) (hp : portOf x = some n) :
    ∃ v, op = .readFile (.int n) v ∨ op = .runCommand (.int n) v := by
  cases op with
  | readFile port path =>
    simp only [perform, Instructions.channelFor] at h
    split at h
    · cases h
      cases port <;> simp [portOf] at hp
      subst hp
      exact ⟨path, .inl rfl⟩
    · cases h
  | runCommand port path =>
    simp only [perform, Instructions.channelFor] at h
    split at h
    · cases h
      cases port <;> simp [portOf] at hp
      subst hp
      exact ⟨path, .inr rfl⟩
    · cases h
  | openTerminal name port size =>
    simp only [perform, Instructions.channelFor] at h
    repeat' split at h
    all_goals cases h
    all_goals cases hp
  | openEcho port =>
    simp only [perform, Instructions.channelFor] at h
    repeat' split at h
    all_goals cases h
    all_goals cases hp
  | openPortforward a b =>
    simp only [perform] at h
    repeat' split at h
    all_goals cases h
    all_goals cases hp
  | openPortredirect a b =>
    simp only [perform] at h
    repeat' split at h
    all_goals cases h
    all_goals cases hp
  | _ => cases h; cases hp

theorem step_ports {env : Env} {s : WSClient.St} {e : Ev} {n : Int} (hl : ∀ data, e = .binary data → data.length ≤ maxSize)
    (ha : ¬ Asked n e) {w : Instructions.World} : ∀ x ∈ (step env s e).2.flatMap (react w), portOf x ≠ some n := by
  intro x hx hp
  obtain ⟨sender, d, op, h1, h2, h3⟩ := step_asked hl hx
  obtain ⟨v, rfl | rfl⟩ := portOf_asked h3 hp
  · exact ha ⟨sender, d, v, h1, .inl h2⟩
  · exact ha ⟨sender, d, v, h1, .inr h2⟩

/-! ### One service among others -/

/-- Service `i` of the agent, and the service alone. -/
structure Sim (n : Int) (i : Nat) (s : St) (o : Own) : Prop where
  svc : ∃ v, s.svcs[i]? = some v ∧ v.port = n ∧ v.prog = o.prog ∧ o.sys = ⟨s.client, v.dropped⟩
  alone : ∀ j v, j ≠ i → s.svcs[j]? = some v → v.port = n → v.prog.finished = true

/-- The moves of a service alone that make up those of the agent. -/
structure Steps (w : World) (n : Int) (i : Nat) (keeps ok : Prop) (threads : Nat) (outs : List Out) (s' : St) (o : Own) (ms : List OwnMove) : Prop where
  sim : Sim n i s' (ownSched w n o ms).1
  wires : wire n outs = wire n (ownSched w n o ms).2
  sized : Sized (ownSched w n o ms).2
  fine : ∀ m ∈ ms, m.Fine n
  keep : keeps → ∀ m ∈ ms, m.Keeps n
  good : ok → ∀ m ∈ ms, m.ok = true
  count : ms.countP OwnMove.isThread = threads

theorem sized_nil : Sized [] := fun _ h => nomatch h

theorem Steps.stay {w n i s' o keeps ok} (h : Sim n i s' o) : Steps w n i keeps ok 0 [] s' o [] :=
  ⟨h, rfl, sized_nil, fun _ h => (nomatch h), fun _ _ h => (nomatch h), fun _ _ h => (nomatch h), rfl⟩

theorem begin_sim {n i s o} (w : World) (h : Sim n i s o) {k : Int} (hk : k ≠ n) (ok prog refusal) :
    Sim n i (begin s k ok prog refusal) (ownMove w n o (.client {} (.getChannel k))).1 ∧ (ownMove w n o (.client {} (.getChannel k))).2 = [] := by
  obtain ⟨⟨v, h1, h2, h3, h4⟩, ha⟩ := h
  refine ⟨⟨⟨v, ?_, h2, h3, ?_⟩, ?_⟩, rfl⟩
  · simp only [begin]
    rw [List.getElem?_append_left (by have := List.getElem?_eq_some_iff.1 h1; exact this.1)]
    exact h1
  · simp only [ownMove, h4, Sys.event, begin]
    cases v.dropped with
    | some c => rfl
    | none =>
      have : lookup n (step {} s.client (.getChannel k)).1.channels = lookup n s.client.channels := by
        simp only [step, Ev.isSocket, Bool.false_eq_true, if_false]
        exact lookup_getChannel_ne _ _ _ hk
      simp only [this]
      cases lookup n s.client.channels <;> rfl
  · intro j u hj hu hp
    simp only [begin] at hu
    rcases Nat.lt_or_ge j s.svcs.length with hlt | hge
    · rw [List.getElem?_append_left hlt] at hu; exact ha j u hj hu hp
    · rw [List.getElem?_append_right hge] at hu
      exfalso
      have hm := List.mem_of_getElem? hu
      rw [List.mem_singleton] at hm
      apply hk
      rw [← hp, hm]
      split <;> rfl

theorem mute_sim {n i s o} (h : Sim n i s o) (ok) : Sim n i (beginMute s ok) o := by
  obtain ⟨⟨v, h1, h2, h3, h4⟩, ha⟩ := h
  refine ⟨⟨v, ?_, h2, h3, h4⟩, ?_⟩
  · simp only [beginMute]
    rw [List.getElem?_append_left (by have := List.getElem?_eq_some_iff.1 h1; exact this.1)]
    exact h1
  · intro j u hj hu hp
    simp only [beginMute] at hu
    rcases Nat.lt_or_ge j s.svcs.length with hlt | hge
    · rw [List.getElem?_append_left hlt] at hu; exact ha j u hj hu hp
    · rw [List.getElem?_append_right hge] at hu
      have hm := List.mem_of_getElem? hu
      split at hm
      · rw [List.mem_singleton] at hm; rw [hm]; rfl
      · exact nomatch hm

/-- The services that are started. -/
theorem begun_sim {n i} (w : World) (l : Launch) (xs : List Done) (hx : ∀ x ∈ xs, portOf x ≠ some n) {s o} (h : Sim n i s o) :
    ∃ ms, Steps w n i True True 0 [] (xs.foldl (begun w l) s) o ms ∧ (ownSched w n o ms).2 = [] := by
  induction xs generalizing s o with
  | nil => exact ⟨[], .stay h, rfl⟩
  | cons x xs ih =>
    have hx' : ∀ y ∈ xs, portOf y ≠ some n := fun y hy => hx y (by simp [hy])
    have key : Sim n i (begun w l s x) o ∨ ∃ k, k ≠ n ∧ Sim n i (begun w l s x) (ownMove w n o (.client {} (.getChannel k))).1 := by
      have h0 := hx x (by simp)
      unfold begun
      split
      · rename_i k path
        have hk : k ≠ n := fun e => h0 (by simp [portOf, e])
        exact .inr ⟨k, hk, (begin_sim w h hk _ _ _).1⟩
      · exact .inl (mute_sim h _)
      · rename_i k path
        have hk : k ≠ n := fun e => h0 (by simp [portOf, e])
        exact .inr ⟨k, hk, (begin_sim w h hk _ _ _).1⟩
      · exact .inl (mute_sim h _)
      · exact .inl h
    rcases key with key | ⟨k, hk, key⟩
    · obtain ⟨ms, h1, h2⟩ := ih hx' key
      exact ⟨ms, h1, h2⟩
    · obtain ⟨ms, ⟨g1, g2, g3, g4, g5, g6, g7⟩, h2⟩ := ih hx' key
      have h2' : (ownSched w n o (.client {} (.getChannel k) :: ms)).2 = [] := by
        simp only [ownSched, h2]; rfl
      refine ⟨.client {} (.getChannel k) :: ms, ⟨g1, by rw [h2'], by rw [h2']; exact sized_nil, ?_, ?_, ?_, ?_⟩, h2'⟩
      · intro m hm
        rcases List.mem_cons.1 hm with rfl | hm
        · exact ⟨fun op h => (nomatch h), fun data h => (nomatch h)⟩
        · exact g4 m hm
      · intro _ m hm
        rcases List.mem_cons.1 hm with rfl | hm
        · rintro (h | ⟨data, h, _⟩) <;> exact nomatch h
        · exact g5 trivial m hm
      · intro _ m hm
        rcases List.mem_cons.1 hm with rfl | hm
        · rfl
        · exact g6 trivial m hm
      · simp only [List.countP_cons, OwnMove.isThread, g7]; rfl

theorem forget_sim {n i s o} (w : World) (env : Env) (e : Ev) (h : Sim n i s o) :
    Sim n i { s with client := (step env s.client e).1, svcs := s.svcs.map (forget s.client.channels (step env s.client e).1.channels) }
      (ownMove w n o (.client env e)).1 ∧ (ownMove w n o (.client env e)).2 = (step env s.client e).2 := by
  obtain ⟨⟨v, h1, h2, h3, h4⟩, ha⟩ := h
  refine ⟨⟨⟨forget s.client.channels (step env s.client e).1.channels v, ?_, h2, h3, ?_⟩, ?_⟩, ?_⟩
  · simp only [List.getElem?_map, h1, Option.map_some]
  · simp only [ownMove, h4, Sys.event, forget, h2]
    cases v.dropped with
    | some c => rfl
    | none => rfl
  · intro j u hj hu hp
    simp only [List.getElem?_map, Option.map_eq_some_iff] at hu
    obtain ⟨u', hu', rfl⟩ := hu
    exact ha j u' hj hu' hp
  · simp only [ownMove, h4, Sys.event]

/-- Another service on another channel. -/
theorem other_sim {n i s o} (w : World) (h : Sim n i s o) (j : Nat) (hj : j ≠ i) (fail : Option Services.Fail) (hz : Sized (thread w s j fail).2) :
    ∃ ms, Steps w n i True True 0 (thread w s j fail).2 (thread w s j fail).1 o ms := by
  obtain ⟨⟨v, h1, h2, h3, h4⟩, ha⟩ := h
  have setj : ∀ (u : Svc) (l : List Svc), l = s.svcs.set j u → l[i]? = some v := by
    rintro u l rfl
    rw [List.getElem?_set_ne hj]
    exact h1
  simp only [thread] at hz ⊢
  cases hu : s.svcs[j]? with
  | none => simp only; exact ⟨[], .stay ⟨⟨v, h1, h2, h3, h4⟩, ha⟩⟩
  | some u =>
    rw [hu] at hz
    simp only at hz ⊢
    have alone' : ∀ u' : Svc, u'.port = u.port → (u.prog.finished = true → u'.prog.finished = true) → (u.port = n → u.prog.finished = true) →
        ∀ j' v', j' ≠ i → (s.svcs.set j u')[j']? = some v' → v'.port = n → v'.prog.finished = true := by
      intro u' e1 e2 e3 j' v' hj' hv' hp
      by_cases hjj : j' = j
      · subst hjj
        have hlt : j' < s.svcs.length := (List.getElem?_eq_some_iff.1 hu).1
        rw [List.getElem?_set_self hlt, Option.some.injEq] at hv'
        subst hv'
        exact e2 (e3 (e1 ▸ hp))
      · rw [List.getElem?_set_ne (Ne.symm hjj)] at hv'
        exact ha j' v' hj' hv' hp
    have e3 : u.port = n → u.prog.finished = true := ha j u hj hu
    by_cases hf : u.prog.finished = true
    · rw [if_pos hf] at hz ⊢
      refine ⟨[], .stay ?_⟩
      split
      · simp only [release]
        split
        · exact ⟨⟨v, setj _ _ rfl, h2, h3, h4⟩, alone' _ rfl id e3⟩
        · exact ⟨⟨v, setj _ _ rfl, h2, h3, h4⟩, alone' _ rfl id e3⟩
      · exact ⟨⟨v, h1, h2, h3, h4⟩, ha⟩
    · rw [if_neg hf] at hz ⊢
      have hpn : u.port ≠ n := fun e => hf (e3 e)
      have halone := alone'
        { u with prog := (Own.thread w u.port ⟨⟨s.client, u.dropped⟩, u.prog⟩ fail).1.prog,
                 dropped := (Own.thread w u.port ⟨⟨s.client, u.dropped⟩, u.prog⟩ fail).1.sys.dropped } rfl (fun h => absurd h hf) e3
      rcases own_use w u.port ⟨⟨s.client, u.dropped⟩, u.prog⟩ fail with ⟨g1, g2⟩ | ⟨op, hop, g1, g2⟩
      · refine ⟨[], ⟨⟨⟨v, setj _ _ rfl, h2, h3, ?_⟩, halone⟩, ?_, sized_nil, fun _ h => (nomatch h), fun _ _ h => (nomatch h), fun _ _ h => (nomatch h), rfl⟩⟩
        · simp only [g1, ownSched, h4]
        · simp only [g2, ownSched]
      · simp only [g2] at hz
        cases hd : u.dropped with
        | some c =>
          simp only [hd, Sys.use] at g1 g2 hz
          rw [hd] at halone
          refine ⟨[], ⟨⟨⟨v, setj _ _ rfl, h2, h3, ?_⟩, halone⟩, ?_, sized_nil, fun _ h => (nomatch h), fun _ _ h => (nomatch h), fun _ _ h => (nomatch h), rfl⟩⟩
          · simp only [g1, ownSched, h4]
          · simp only [g2, ownSched]
            rw [chanOuts_other n u.port hpn _ hz]
            rfl
        | none =>
          simp only [hd, Sys.use] at g1 g2 hz
          rw [hd] at halone
          refine ⟨[.client {} (.chanOp u.port op)], ⟨⟨⟨v, setj _ _ rfl, h2, h3, ?_⟩, halone⟩, ?_, ?_, ?_, ?_, ?_, rfl⟩⟩
          · simp only [g1, ownSched, ownMove, h4, Sys.event]
            cases v.dropped with
            | some c => rfl
            | none =>
              have : lookup n (step {} s.client (.chanOp u.port op)).1.channels = lookup n s.client.channels := by
                simp only [step, Ev.isSocket, Bool.false_eq_true, if_false, hop, if_true]
                split
                · rfl
                · simp only [lookup_update, if_neg hpn]
              simp only [this]
              cases lookup n s.client.channels <;> rfl
          · simp only [g2, ownSched, ownMove, h4, Sys.event, List.append_nil]
          · simp only [ownSched, ownMove, h4, Sys.event, List.append_nil]; exact hz
          · intro m hm
            rw [List.mem_singleton] at hm
            subst hm
            exact ⟨fun op' h => hpn (by injection h), fun data h => (nomatch h)⟩
          · intro _ m hm
            rw [List.mem_singleton] at hm
            subst hm
            rintro (h | ⟨data, h, _⟩) <;> exact nomatch h
          · intro _ m hm
            rw [List.mem_singleton] at hm
            subst hm
            rfl

/-- The service itself. -/
theorem own_sim {n i s o} (w : World) (h : Sim n i s o) (fail : Option Services.Fail) :
    Sim n i (thread w s i fail).1 (Own.thread w n o fail).1 ∧ (thread w s i fail).2 = (Own.thread w n o fail).2 := by
  obtain ⟨⟨v, h1, h2, h3, h4⟩, ha⟩ := h
  have hlt : i < s.svcs.length := (List.getElem?_eq_some_iff.1 h1).1
  have alone' : ∀ u, ∀ j v', j ≠ i → (s.svcs.set i u)[j]? = some v' → v'.port = n → v'.prog.finished = true := by
    intro u j v' hj hv' hp
    rw [List.getElem?_set_ne (Ne.symm hj)] at hv'
    exact ha j v' hj hv' hp
  obtain ⟨sys, prog⟩ := o
  simp only at h3 h4
  subst h3 h4 h2
  simp only [thread, h1]
  by_cases hf : v.prog.finished = true
  · rw [if_pos hf, own_finished w v.port ⟨⟨s.client, v.dropped⟩, v.prog⟩ fail hf]
    refine ⟨?_, rfl⟩
    split
    · simp only [release]
      split
      · exact ⟨⟨_, List.getElem?_set_self hlt, rfl, rfl, rfl⟩, alone' _⟩
      · exact ⟨⟨_, List.getElem?_set_self hlt, rfl, rfl, rfl⟩, alone' _⟩
    · exact ⟨⟨v, h1, rfl, rfl, rfl⟩, ha⟩
  · rw [if_neg hf]
    exact ⟨⟨⟨_, List.getElem?_set_self hlt, rfl, rfl, rfl⟩, alone' _⟩, rfl⟩

theorem move_sim {n i s o} (w : World) (m : Move) (h : Sim n i s o) (hm : m.Fine n) (hz : Sized (move w s m).2) :
    ∃ ms, Steps w n i (m.Keeps n) (m.ok i = true) (if m.isThread i then 1 else 0) (move w s m).2 (move w s m).1 o ms := by
  cases m with
  | event env e l =>
    obtain ⟨hf, hna⟩ := hm
    have h1 := forget_sim w env e h
    obtain ⟨ms, ⟨g1, g2, g3, g4, g5, g6, g7⟩, g8⟩ := begun_sim w l _ (step_ports (env := env) (s := s.client) (w := w.known) hf.2 hna) h1.1
    refine ⟨.client env e :: ms, ⟨g1, ?_, ?_, ?_, ?_, ?_, ?_⟩⟩
    · simp only [ownSched, g8, h1.2, List.append_nil, move]
    · simp only [ownSched, g8, h1.2, List.append_nil]; exact hz
    · intro m hm
      rcases List.mem_cons.1 hm with rfl | hm
      · exact hf
      · exact g4 m hm
    · intro hk m hm
      rcases List.mem_cons.1 hm with rfl | hm
      · exact hk
      · exact g5 trivial m hm
    · intro _ m hm
      rcases List.mem_cons.1 hm with rfl | hm
      · rfl
      · exact g6 trivial m hm
    · simp only [List.countP_cons, OwnMove.isThread, g7, Move.isThread]
      rfl
  | thread j fail =>
    by_cases hj : j = i
    · subst hj
      obtain ⟨h1, h2⟩ := own_sim w h fail
      refine ⟨[.thread fail], ⟨h1, ?_, ?_, fun m hm => ?_, fun _ m hm => ?_, fun hk m hm => ?_, ?_⟩⟩
      · simp only [move, ownSched, ownMove, List.append_nil, h2]
      · simp only [ownSched, ownMove, List.append_nil, ← h2]; exact hz
      · rw [List.mem_singleton] at hm; subst hm; trivial
      · rw [List.mem_singleton] at hm; subst hm; trivial
      · rw [List.mem_singleton] at hm; subst hm
        simpa [Move.ok, OwnMove.ok] using hk
      · simp [Move.isThread, OwnMove.isThread]
    · obtain ⟨ms, ⟨g1, g2, g3, g4, g5, g6, g7⟩⟩ := other_sim w h j hj fail hz
      refine ⟨ms, ⟨g1, g2, g3, g4, fun _ => g5 trivial, fun _ => g6 trivial, ?_⟩⟩
      simp [Move.isThread, hj, g7]
  | take =>
    refine ⟨[], ?_⟩
    have e : (move w s .take).2 = [] := by simp only [move]; split <;> rfl
    rw [e]
    refine .stay ?_
    simp only [move]
    split
    · exact ⟨h.1, h.2⟩
    · exact h
  | give =>
    refine ⟨[], ?_⟩
    have e : (move w s .give).2 = [] := by simp only [move]; repeat' split
                                           all_goals rfl
    rw [e]
    refine .stay ?_
    simp only [move]
    split
    · exact h
    · split
      · exact ⟨h.1, h.2⟩
      · exact h

/-- A whole schedule. -/
theorem run_sim {n i s o} (w : World) (ms : List Move) (h : Sim n i s o) (hm : ∀ m ∈ ms, m.Fine n) (hz : Sized (run w s ms).2) :
    ∃ os, Steps w n i (∀ m ∈ ms, m.Keeps n) (∀ m ∈ ms, m.ok i = true) (ms.countP (Move.isThread i)) (run w s ms).2 (run w s ms).1 o os := by
  induction ms generalizing s o with
  | nil => exact ⟨[], .stay h⟩
  | cons m ms ih =>
    simp only [run, sized_append] at hz
    obtain ⟨os, g1, g2, g3, g4, g5, g6, g7⟩ := move_sim w m h (hm m (by simp)) hz.1
    obtain ⟨os', k1, k2, k3, k4, k5, k6, k7⟩ := ih g1 (fun m' h => hm m' (by simp [h])) hz.2
    refine ⟨os ++ os', ⟨?_, ?_, ?_, ?_, ?_, ?_, ?_⟩⟩
    · simp only [ownSched_append, run]; exact k1
    · simp only [ownSched_append, run, wire_append, g2, k2]
    · simp only [ownSched_append, sized_append]; exact ⟨g3, k3⟩
    · intro m' hm'
      rcases List.mem_append.1 hm' with hm' | hm'
      · exact g4 m' hm'
      · exact k4 m' hm'
    · intro hk m' hm'
      rcases List.mem_append.1 hm' with hm' | hm'
      · exact g5 (hk m (by simp)) m' hm'
      · exact k5 (fun x hx => hk x (by simp [hx])) m' hm'
    · intro hk m' hm'
      rcases List.mem_append.1 hm' with hm' | hm'
      · exact g6 (hk m (by simp)) m' hm'
      · exact k6 (fun x hx => hk x (by simp [hx])) m' hm'
    · rw [List.countP_append, g7, k7, List.countP_cons, Nat.add_comm]

/-! ### Launching -/

theorem begun_client_keys (w : World) (l : Launch) (xs : List Done) (s : St) (h : (keys s.client.channels).Nodup) :
    (keys (xs.foldl (begun w l) s).client.channels).Nodup := by
  induction xs generalizing s with
  | nil => exact h
  | cons x xs ih =>
    refine ih _ ?_
    unfold begun
    split
    · exact step_keys {} s.client _ h (fun _ h => nomatch h)
    · exact h
    · exact step_keys {} s.client _ h (fun _ h => nomatch h)
    · exact h
    · exact h

theorem move_keys (w : World) (s : St) (m : Move) (hm : m.Small) (h : (keys s.client.channels).Nodup) :
    (keys (move w s m).1.client.channels).Nodup := by
  cases m with
  | event env e l => exact begun_client_keys w l _ _ (step_keys env s.client e h hm)
  | thread i fail =>
    simp only [move, thread]
    split
    · exact h
    · split
      · split
        · simp only [release]; split <;> exact h
        · exact h
      · rename_i v _ _
        rcases own_use w v.port ⟨⟨s.client, v.dropped⟩, v.prog⟩ fail with ⟨g1, _⟩ | ⟨op, hop, g1, _⟩
        · simp only [g1]; exact h
        · simp only [g1, Sys.use]
          split
          · exact h
          · exact step_keys {} s.client _ h (fun _ h => nomatch h)
  | take => simp only [move]; split <;> exact h
  | give => simp only [move]; repeat' split
            all_goals exact h

theorem run_keys' (w : World) (s : St) (ms : List Move) (hm : ∀ m ∈ ms, m.Small) (h : (keys s.client.channels).Nodup) :
    (keys (run w s ms).1.client.channels).Nodup := by
  induction ms generalizing s with
  | nil => exact h
  | cons m ms ih => exact ih _ (fun m' h' => hm m' (by simp [h'])) (move_keys w s m (hm m (by simp)) h)

theorem forget_self (chs : List (Int × Channel.Ch)) (v : Svc) : forget chs chs v = v := by
  obtain ⟨port, prog, slot, dropped⟩ := v
  simp only [forget]
  cases dropped with
  | some c => rfl
  | none => cases lookup port chs <;> rfl

/-- The instruction starts the service. -/
theorem launch_sim (w : World) (s : St) (n : Int) (ok : Bool) (prog : Prog) (refusal : List Call) (hk : (keys s.client.channels).Nodup)
    (hf : Free n s) (p : Prog) (hp : p = if (Limiter.launch s.lim ok).2 then prog else .calls refusal false) :
    Sim n s.svcs.length (begin s n ok prog refusal) ⟨⟨(begin s n ok prog refusal).client, none⟩, p⟩ ∧
    Ready n ⟨(begin s n ok prog refusal).client, none⟩ := by
  have hgc : (begin s n ok prog refusal).client.channels = (getChannel n s.client.channels).1 := rfl
  refine ⟨⟨⟨if (Limiter.launch s.lim ok).2 then ⟨n, prog, true, none⟩ else ⟨n, .calls refusal false, false, none⟩, ?_, ?_, ?_, ?_⟩, ?_⟩, rfl, ?_, ?_⟩
  · simp [begin]
  · split <;> rfl
  · subst hp; split <;> rfl
  · split <;> rfl
  · intro j v hj hv hvp
    simp only [begin] at hv
    rcases Nat.lt_or_ge j s.svcs.length with hlt | hge
    · rw [List.getElem?_append_left hlt] at hv
      exact hf.1 v (List.mem_of_getElem? hv) hvp
    · rw [List.getElem?_append_right hge] at hv
      have := (List.getElem?_eq_some_iff.1 hv).1
      simp only [List.length_singleton] at this
      omega
  · rw [hgc]; exact getChannel_keys n _ hk
  · rw [hgc]
    refine ⟨_, lookup_getChannel_self n _, ?_⟩
    cases hc : lookup n s.client.channels with
    | none => simp [getChannel, hc, Idle]
    | some c => rw [getChannel_some hc]; exact hf.2 c hc

/-- What a message with an instruction does to the agent. -/
theorem launch_move (w : World) (s : St) (env : Env) (l : Launch) (hh : s.client.hung = false) {m sender : Bytes} {d : List (PyVal × PyVal)}
    {surplus : List PyVal} (hl : m.length ≤ maxSize) (hd : decoded m = .int 16 :: .bytes sender :: .dict d :: surplus)
    (hk : Instructions.BytesKeys d) {op : Instructions.Op} {x : Done} (ha : Asks d op) (hm : Instructions.Meant w.known op [x]) :
    (move w s (.event env (.binary m) l)).1 = begun w l s x := by
  have h1 := Instructions.c87_message_partial env s.client hh hl hd hk (w := w.known) ha hm
  have hr : Instructions.requestOf m = some (.instruction sender d) := Instructions.requestOf_list m (.instruction sender d) surplus hd
  have ho := Instructions.call_of_request hl hr
  have h2 : (step env s.client (.binary m)).1 = s.client := by
    simp only [step, Ev.isSocket, if_true, hh, Bool.false_eq_true, if_false, onEvent, ho, Instructions.Request.packet, handle]
  simp only [move, h1, h2, List.foldl_cons, List.foldl_nil]
  have : s.svcs.map (forget s.client.channels s.client.channels) = s.svcs := by
    conv => rhs; rw [← List.map_id s.svcs]
    exact List.map_congr_left fun v _ => forget_self _ v
  rw [this]

theorem launch_wire (w : World) (s : St) (env : Env) (l : Launch) (m : Bytes) (n : Int) (hz : Sized (move w s (.event env (.binary m) l)).2) :
    wire n (move w s (.event env (.binary m) l)).2 = [] :=
  step_own_none env s.client (.binary m) n (fun _ h => nomatch h) hz

/-! ### A file that can not be opened -/

/-- The calls that are left in a file service that has failed. -/
def Fails (report : Services.Fail → Bytes) (f : Services.Fail) : FilePc → List Call × Bool → Prop
  | .failed g, x => g = f ∧ f ≠ .webSocket ∧ x = ([.control (report f), .close], false)
  | .reporting, x => x = ([.control (report f), .close], true)
  | .closing, x => x = ([.close], false)
  | .requesting, x => x = ([.close], true)
  | .ended, x => x = ([], false)
  | _, _ => False

theorem fails_thread {report f n content} {a : FileSys} {b : CallSys} (hs : a.sys = b.sys) (h : Fails report f a.pc (b.script, b.inside)) (fail) :
    (fileThread n content report a fail).1.sys = (callThread n b).1.sys ∧ (fileThread n content report a fail).2 = (callThread n b).2 ∧
    Fails report f (fileThread n content report a fail).1.pc ((callThread n b).1.script, (callThread n b).1.inside) := by
  obtain ⟨sys, pc⟩ := a
  obtain ⟨sys', script, inside⟩ := b
  simp only at hs h
  subst hs
  cases pc with
  | failed g =>
    obtain ⟨rfl, hne, h⟩ := h
    injection h with h1 h2
    subst h1 h2
    cases g with
    | webSocket => exact absurd rfl hne
    | _ =>
      simp only [fileThread, callThread, Bool.false_eq_true, if_false]
      split
      · exact ⟨rfl, rfl, rfl⟩
      · exact ⟨rfl, rfl, rfl⟩
  | closing =>
    injection h with h1 h2
    subst h1 h2
    simp only [fileThread, callThread, Bool.false_eq_true, if_false]
    split
    · exact ⟨rfl, rfl, rfl⟩
    · exact ⟨rfl, rfl, rfl⟩
  | reporting => injection h with h1 h2; subst h1 h2; exact ⟨rfl, rfl, rfl⟩
  | requesting => injection h with h1 h2; subst h1 h2; exact ⟨rfl, rfl, rfl⟩
  | ended => injection h with h1 h2; subst h1 h2; exact ⟨rfl, rfl, rfl⟩
  | opening => exact h.elim
  | reading => exact h.elim
  | looking => exact h.elim
  | writing => exact h.elim
  | sending => exact h.elim

/-- The thread of the file service as one that makes these calls; before it opens the file it does one statement more. -/
theorem fails_own (w : World) (n : Int) (path : Text) (f : Services.Fail) (hw : w.fs (Services.absPath path) = .raises f) (ms : List OwnMove)
    (a : FileSys) (b : CallSys) (hs : a.sys = b.sys) (hf : f ≠ .webSocket)
    (h : (a.pc = .opening ∧ b.script = [.control (w.report f), .close] ∧ b.inside = false) ∨ Fails w.report f a.pc (b.script, b.inside)) :
    ∃ cs : List CallMove, (ownSched w n ⟨a.sys, .file path a.pc⟩ ms).2 = (callSched n b cs).2 ∧
      ((∀ m ∈ ms, m.Fine n) → ∀ m ∈ cs, m.Fine n) ∧ ((∀ m ∈ ms, m.Keeps n) → ∀ m ∈ cs, m.Keeps n) ∧
      cs.countP CallMove.isThread + (if a.pc = .opening then 1 else 0) ≥ ms.countP OwnMove.isThread := by
  induction ms generalizing a b with
  | nil => exact ⟨[], rfl, fun _ _ h => (nomatch h), fun _ _ h => (nomatch h), Nat.zero_le _⟩
  | cons m ms ih =>
    cases m with
    | client env e =>
      obtain ⟨cs, g1, g2, g3, g4⟩ := ih ⟨(a.sys.event n env e).1, a.pc⟩ { b with sys := (b.sys.event n env e).1 } (by simp only [hs]) h
      refine ⟨.client env e :: cs, ?_, ?_, ?_, ?_⟩
      · simp only [ownSched, ownMove, callSched, callMove]
        rw [g1, hs]
      · intro hm m' hm'
        rcases List.mem_cons.1 hm' with rfl | hm'
        · exact hm (.client env e) (by simp)
        · exact g2 (fun x hx => hm x (by simp [hx])) _ hm'
      · intro hm m' hm'
        rcases List.mem_cons.1 hm' with rfl | hm'
        · exact hm (.client env e) (by simp)
        · exact g3 (fun x hx => hm x (by simp [hx])) _ hm'
      · simpa [List.countP_cons, CallMove.isThread, OwnMove.isThread] using g4
    | thread fail =>
      rcases h with ⟨h1, h2, h3⟩ | h
      · obtain ⟨cs, g1, g2, g3, g4⟩ := ih ⟨a.sys, .failed f⟩ b hs (.inr ⟨rfl, hf, by rw [h2, h3]⟩)
        refine ⟨cs, ?_, fun hm => g2 (fun x hx => hm x (by simp [hx])), fun hm => g3 (fun x hx => hm x (by simp [hx])), ?_⟩
        · simp only [ownSched, ownMove, Own.thread, h1, World.failing, hw, fileThread]
          rw [g1]; rfl
        · simp only [List.countP_cons, OwnMove.isThread, if_true, h1]
          have : ¬ (FilePc.failed f = FilePc.opening) := fun h => nomatch h
          simp only [this, if_false] at g4
          omega
      · have hno : a.pc ≠ .opening := by rintro e; rw [e] at h; exact h
        obtain ⟨k1, k2, k3⟩ := fails_thread (n := n) (content := w.content path) hs h (w.failing path a.pc fail)
        obtain ⟨cs, g1, g2, g3, g4⟩ := ih (fileThread n (w.content path) w.report a (w.failing path a.pc fail)).1 (callThread n b).1 k1 (.inr k3)
        have hno' : (fileThread n (w.content path) w.report a (w.failing path a.pc fail)).1.pc ≠ .opening := by rintro e; rw [e] at k3; exact k3
        refine ⟨.thread :: cs, ?_, ?_, ?_, ?_⟩
        · simp only [ownSched, ownMove, Own.thread, callSched, callMove]
          rw [g1, k2]
        · intro hm m' hm'
          rcases List.mem_cons.1 hm' with rfl | hm'
          · trivial
          · exact g2 (fun x hx => hm x (by simp [hx])) _ hm'
        · intro hm m' hm'
          rcases List.mem_cons.1 hm' with rfl | hm'
          · trivial
          · exact g3 (fun x hx => hm x (by simp [hx])) _ hm'
        · simp only [List.countP_cons, CallMove.isThread, OwnMove.isThread, if_true, hno, hno', if_false] at g4 ⊢
          omega

/-! ### The limiter -/

/-- The limiter counts the slots. -/
def Counts (limit : Nat) (s : St) : Prop := s.lim.limit = limit ∧ s.lim.value = (slots s : Int) ∧ slots s ≤ limit

theorem launch_ok {l : Limiter.Lim} (h : l.value < l.limit) : Limiter.launch l true = ({ l with value := l.value + 1 }, true) := by
  have : ¬ (l.value ≥ (l.limit : Int)) := by omega
  simp [Limiter.launch, Limiter.increment, this]

theorem launch_full {l : Limiter.Lim} (ok : Bool) (h : l.value ≥ l.limit) : Limiter.launch l ok = (l, false) := by
  simp [Limiter.launch, Limiter.increment, h]

theorem launch_cases (l : Limiter.Lim) (ok : Bool) (hv : 0 ≤ l.value) :
    (Limiter.launch l ok = (l, false)) ∨ (Limiter.launch l ok = ({ l with value := l.value + 1 }, true) ∧ l.value < l.limit) := by
  by_cases h : l.value ≥ l.limit
  · exact .inl (launch_full ok h)
  · cases ok with
    | true => exact .inr ⟨launch_ok (by omega), by omega⟩
    | false =>
      left
      have h2 : ¬ (l.value + 1 ≤ 0) := by omega
      simp only [Limiter.launch, Limiter.increment, h, if_false, Bool.false_eq_true, Limiter.decrement, h2]
      obtain ⟨a, b⟩ := l
      simp only [Prod.mk.injEq, Limiter.Lim.mk.injEq, and_true, true_and]
      omega

theorem begun_counts {limit} (w : World) (l : Launch) (xs : List Done) {s : St} (h : Counts limit s) : Counts limit (xs.foldl (begun w l) s) := by
  have add : ∀ (s : St) (c : WSClient.St) (v u : Svc) (ok : Bool), Counts limit s → v.slot = true → u.slot = false →
      Counts limit { s with client := c, lim := (Limiter.launch s.lim ok).1, svcs := s.svcs ++ [if (Limiter.launch s.lim ok).2 then v else u] } := by
    intro s c v u ok ⟨h1, h2, h3⟩ hv hu
    rcases launch_cases s.lim ok (by omega) with e | ⟨e, hlt⟩
    · simp only [e, Bool.false_eq_true, if_false]
      refine ⟨h1, ?_, ?_⟩
      · simp only [slots, List.countP_append, List.countP_singleton, hu] at h2 ⊢; simpa using h2
      · simp only [slots, List.countP_append, List.countP_singleton, hu] at h3 ⊢; simpa using h3
    · simp only [e, if_true]
      have : slots { s with client := c, lim := { s.lim with value := s.lim.value + 1 }, svcs := s.svcs ++ [v] } = slots s + 1 := by
        simp only [slots, List.countP_append, List.countP_singleton, hv, if_true]; omega
      refine ⟨h1, ?_, ?_⟩
      · rw [this]; simp only [h2]; omega
      · rw [this]; omega
  have addMute : ∀ (s : St) (ok : Bool), Counts limit s → Counts limit (beginMute s ok) := by
    intro s ok ⟨h1, h2, h3⟩
    simp only [beginMute]
    rcases launch_cases s.lim ok (by omega) with e | ⟨e, hlt⟩
    · simp only [e, Bool.false_eq_true, if_false, List.append_nil]; exact ⟨h1, h2, h3⟩
    · simp only [e, if_true]
      have : slots { s with lim := { s.lim with value := s.lim.value + 1 }, svcs := s.svcs ++ [⟨0, .calls [] false, true, none⟩] } = slots s + 1 := by
        simp only [slots, List.countP_append, List.countP_singleton, if_true]; omega
      refine ⟨h1, ?_, ?_⟩
      · rw [this]; simp only [h2]; omega
      · rw [this]; omega
  induction xs generalizing s with
  | nil => exact h
  | cons x xs ih =>
    refine ih ?_
    unfold begun
    split
    · exact add _ _ _ _ _ h rfl rfl
    · exact addMute _ _ h
    · exact add _ _ _ _ _ h rfl rfl
    · exact addMute _ _ h
    · exact h

theorem countP_set {l : List Svc} {i : Nat} {v u : Svc} (h : l[i]? = some v) :
    (l.set i u).countP (·.slot) + (if v.slot then 1 else 0) = l.countP (·.slot) + (if u.slot then 1 else 0) := by
  induction l generalizing i with
  | nil => exact nomatch h
  | cons a l ih =>
    cases i with
    | zero =>
      simp only [List.getElem?_cons_zero, Option.some.injEq] at h
      subst h
      simp only [List.set_cons_zero, List.countP_cons]
      omega
    | succ i =>
      simp only [List.getElem?_cons_succ] at h
      have := ih h
      simp only [List.set_cons_succ, List.countP_cons]
      omega

theorem move_counts {limit} (w : World) {s : St} (m : Move) (h : Counts limit s) : Counts limit (move w s m).1 := by
  obtain ⟨h1, h2, h3⟩ := h
  cases m with
  | event env e l =>
    refine begun_counts w l _ ?_
    have : slots { s with client := (step env s.client e).1, svcs := s.svcs.map (forget s.client.channels (step env s.client e).1.channels) } = slots s := by
      simp only [slots, List.countP_map]
      rfl
    exact ⟨h1, by rw [this]; exact h2, by rw [this]; exact h3⟩
  | thread i fail =>
    simp only [move, thread]
    split
    · exact ⟨h1, h2, h3⟩
    · rename_i v hv
      split
      · split
        · rename_i hs
          simp only [release]
          have hc := countP_set (u := { v with slot := false }) hv
          simp only [hs, if_true, Bool.false_eq_true, if_false] at hc
          have hpos : ¬ (s.lim.value ≤ 0) := by
            rw [h2]; simp only [slots]; omega
          simp only [Limiter.decrement, hpos, if_false]
          refine ⟨h1, ?_, ?_⟩
          · simp only [slots] at h2 ⊢; omega
          · simp only [slots] at h3 ⊢; omega
        · exact ⟨h1, h2, h3⟩
      · have hc := countP_set
          (u := ⟨v.port, (Own.thread w v.port ⟨⟨s.client, v.dropped⟩, v.prog⟩ fail).1.prog, v.slot,
            (Own.thread w v.port ⟨⟨s.client, v.dropped⟩, v.prog⟩ fail).1.sys.dropped⟩) hv
        simp only at hc
        refine ⟨h1, ?_, ?_⟩
        · simp only [slots] at h2 ⊢; omega
        · simp only [slots] at h3 ⊢; omega
  | take =>
    simp only [move, Limiter.increment]
    by_cases h : s.lim.value ≥ s.lim.limit
    · simp only [h, if_true]; exact ⟨h1, h2, h3⟩
    · simp only [h, if_false]
      refine ⟨h1, ?_, ?_⟩
      · simp only [slots] at h2 ⊢; omega
      · simp only [slots] at h2 h3 ⊢; omega
  | give =>
    simp only [move]
    by_cases ho : s.others = 0
    · rw [if_pos ho]; exact ⟨h1, h2, h3⟩
    · rw [if_neg ho]
      have hpos : ¬ (s.lim.value ≤ 0) := by
        rw [h2]; simp only [slots]; omega
      simp only [Limiter.decrement, hpos, if_false]
      refine ⟨h1, ?_, ?_⟩
      · simp only [slots] at h2 ⊢; omega
      · simp only [slots] at h2 h3 ⊢; omega

theorem run_counts {limit} (w : World) (ms : List Move) {s : St} (h : Counts limit s) : Counts limit (run w s ms).1 := by
  induction ms generalizing s with
  | nil => exact h
  | cons m ms ih => exact ih (move_counts w m h)

theorem init_counts (limit : Nat) : Counts limit (init limit) := ⟨rfl, rfl, Nat.zero_le _⟩

/-! ### The end of a service -/

/-- Statements that a program has still to do. -/
def progLeft (w : World) : Prog → Nat
  | .file path pc => fileLeft (w.content path) pc
  | .calls script inside => 2 * script.length - (if inside then 1 else 0)

def svcLeft (w : World) (v : Svc) : Nat := progLeft w v.prog + (if v.slot then 1 else 0)

theorem own_progress (w : World) (n : Int) (o : Own) (fail) : progLeft w (Own.thread w n o fail).1.prog ≤ progLeft w o.prog - 1 := by
  obtain ⟨sys, prog⟩ := o
  cases prog with
  | file path pc => exact file_progress n (w.content path) w.report ⟨sys, pc⟩ _
  | calls script inside =>
    simp only [Own.thread, callThread]
    cases script with
    | nil => simp [progLeft]
    | cons k rest =>
      cases inside with
      | true => simp [progLeft]; omega
      | false =>
        simp only [Bool.false_eq_true, if_false]
        split
        · simp [progLeft]; omega
        · simp [progLeft]

theorem begun_svc {w : World} {l : Launch} (xs : List Done) {s : St} {i : Nat} {v : Svc} (h : s.svcs[i]? = some v) : (xs.foldl (begun w l) s).svcs[i]? = some v := by
  have hlt : i < s.svcs.length := (List.getElem?_eq_some_iff.1 h).1
  induction xs generalizing s with
  | nil => exact h
  | cons x xs ih =>
    have key : (begun w l s x).svcs[i]? = some v := by
      unfold begun
      split
      · simp only [begin]; rw [List.getElem?_append_left hlt]; exact h
      · simp only [beginMute]; rw [List.getElem?_append_left hlt]; exact h
      · simp only [begin]; rw [List.getElem?_append_left hlt]; exact h
      · simp only [beginMute]; rw [List.getElem?_append_left hlt]; exact h
      · exact h
    exact ih key (List.getElem?_eq_some_iff.1 key).1

theorem move_left (w : World) {s : St} {i : Nat} {v : Svc} (m : Move) (h : s.svcs[i]? = some v) :
    ∃ v', (move w s m).1.svcs[i]? = some v' ∧ svcLeft w v' ≤ svcLeft w v - (if m.isThread i then 1 else 0) := by
  have hlt : i < s.svcs.length := (List.getElem?_eq_some_iff.1 h).1
  cases m with
  | event env e l =>
    refine ⟨forget s.client.channels (step env s.client e).1.channels v, begun_svc _ ?_, Nat.le_refl _⟩
    simp only [List.getElem?_map, h, Option.map_some]
  | thread j fail =>
    by_cases hj : j = i
    · subst hj
      simp only [move, thread, h, Move.isThread, decide_true, if_true]
      split
      · split
        · rename_i hs
          refine ⟨{ v with slot := false }, ?_, ?_⟩
          · simp only [release]; split <;> exact List.getElem?_set_self hlt
          · simp [svcLeft, hs]
        · rename_i hf hs
          refine ⟨v, h, ?_⟩
          have : progLeft w v.prog = 0 := by
            revert hf
            cases v.prog with
            | file path pc => intro hf; simp only [Prog.finished, decide_eq_true_eq] at hf; subst hf; rfl
            | calls script inside => intro hf; simp only [Prog.finished, List.isEmpty_iff] at hf; subst hf; simp [progLeft]
          simp only [svcLeft, this, hs]
          simp
      · rename_i hf
        refine ⟨_, List.getElem?_set_self hlt, ?_⟩
        have := own_progress w v.port ⟨⟨s.client, v.dropped⟩, v.prog⟩ fail
        have hpos : 0 < progLeft w v.prog := by
          revert hf
          cases v.prog with
          | file path pc => cases pc <;> simp [Prog.finished, progLeft, fileLeft]
          | calls script inside =>
            intro hf
            cases script with
            | nil => exact absurd rfl hf
            | cons k rest => simp only [progLeft, List.length_cons]; split <;> omega
        simp only [svcLeft] at this ⊢
        omega
    · simp only [move, thread, Move.isThread, hj, decide_false, Bool.false_eq_true, if_false]
      split
      · exact ⟨v, h, Nat.le_refl _⟩
      · split
        · split
          · refine ⟨v, ?_, Nat.le_refl _⟩
            simp only [release]; split <;> (simp only; rw [List.getElem?_set_ne hj]; exact h)
          · exact ⟨v, h, Nat.le_refl _⟩
        · exact ⟨v, by simp only; rw [List.getElem?_set_ne hj]; exact h, Nat.le_refl _⟩
  | take => simp only [move]; split <;> exact ⟨v, h, Nat.le_refl _⟩
  | give =>
    simp only [move, Move.isThread, Bool.false_eq_true, if_false]
    split
    · exact ⟨v, h, Nat.le_refl _⟩
    · split <;> exact ⟨v, h, Nat.le_refl _⟩

theorem run_left (w : World) (ms : List Move) {s : St} {i : Nat} {v : Svc} (h : s.svcs[i]? = some v) :
    ∃ v', (run w s ms).1.svcs[i]? = some v' ∧ svcLeft w v' ≤ svcLeft w v - ms.countP (Move.isThread i) := by
  induction ms generalizing s v with
  | nil => exact ⟨v, h, Nat.le_refl _⟩
  | cons m ms ih =>
    obtain ⟨v', h1, h2⟩ := move_left w m h
    obtain ⟨v'', h3, h4⟩ := ih h1
    refine ⟨v'', h3, ?_⟩
    rw [List.countP_cons]
    omega

theorem run_released (w : World) (ms : List Move) {s : St} {i : Nat} {v : Svc} (h : s.svcs[i]? = some v) (hc : svcLeft w v ≤ ms.countP (Move.isThread i)) :
    (run w s ms).1.svcs[i]?.map Svc.slot = some false := by
  obtain ⟨v', h1, h2⟩ := run_left w ms h
  rw [h1]
  simp only [svcLeft] at h2 hc
  cases hs : v'.slot with
  | false => simp [hs]
  | true => rw [hs] at h2; simp only [if_true] at h2; omega

end Verif.Agent
