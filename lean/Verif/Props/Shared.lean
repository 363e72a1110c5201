import Verif.Props.Agent
import Verif.Spec.Shared
/-!
C174: two services on one channel.
-/
namespace Verif.Agent
open Verif WSClient System
open _root_.Verif.Instructions (Asks Meant Done react perform isRequest passedOn requestIn step_requests)

/-! ### Helper lemmas -/

theorem react_length (w : Instructions.World) (o : Out) : (react w o).length ≤ 1 := by
  unfold react
  split
  · rename_i sender d
    split
    · rename_i done hd
      by_cases h : done = []
      · simp [h]
      · obtain ⟨op, y, -, h2, -⟩ := Instructions.c87_nothing_else d w hd h
        simp [h2]
    · exact Nat.zero_le _
  · exact Nat.zero_le _

theorem react_filter (w : Instructions.World) (outs : List Out) : outs.flatMap (react w) = (outs.filter isRequest).flatMap (react w) := by
  induction outs with
  | nil => rfl
  | cons o outs ih =>
    rw [List.filter_cons]
    split
    · rw [List.flatMap_cons, List.flatMap_cons, ih]
    · rename_i h
      have : react w o = [] := by cases o <;> first | rfl | exact absurd rfl h
      rw [List.flatMap_cons, this, ih]
      rfl

/-- One event starts at most one service. -/
theorem step_one (env : Env) (s : WSClient.St) (e : Ev) (hl : ∀ data, e = .binary data → data.length ≤ maxSize) (w : Instructions.World) :
    ((step env s e).2.flatMap (react w)).length ≤ 1 := by
  have none_ : (∀ o ∈ (step env s e).2, isRequest o = false) → ((step env s e).2.flatMap (react w)).length ≤ 1 := by
    intro h
    rw [react_filter, List.filter_eq_nil_iff.2 (by simpa using h)]
    exact Nat.zero_le _
  have fin : s.hung = false → (∀ data, e = .binary data → ¬ Hangs data) → ((step env s e).2.flatMap (react w)).length ≤ 1 := by
    intro hh hg
    have := congrArg List.length (step_requests env s hh e (fun data hd => ⟨hg data hd, hl data hd⟩))
    rw [List.length_map] at this
    rw [react_filter]
    match hq : (step env s e).2.filter isRequest with
    | [] => exact Nat.zero_le _
    | [o] => simpa using react_length w o
    | a :: b :: r =>
      rw [hq] at this
      cases hr : requestIn e <;> rw [hr] at this <;> simp at this
  cases e with
  | chanOp m op' =>
    refine none_ fun o ho => ?_
    simp only [step, Ev.isSocket, Bool.false_eq_true, if_false] at ho
    split at ho
    · split at ho
      · exact nomatch ho
      · exact noRequest_mem (Instructions.chanOuts_noRequest _ _) ho
    · exact nomatch ho
  | close => exact none_ fun _ ho => nomatch ho
  | addCallback => exact none_ fun _ ho => nomatch ho
  | getChannel => exact none_ fun _ ho => nomatch ho
  | binary data =>
    cases hh : s.hung with
    | true => rw [hung_step env s _ hh rfl]; exact Nat.zero_le _
    | false =>
      by_cases hg : Hangs data
      · have := (Dispatcher.onBinary_hang_iff data).2 hg
        simp only [step, Ev.isSocket, if_true, hh, Bool.false_eq_true, if_false, onEvent, this]
        exact Nat.zero_le _
      · refine fin hh ?_
        rintro data' hd'
        injection hd' with hd'
        subst hd'
        exact hg
  | _ =>
    cases hh : s.hung with
    | true => rw [hung_step env s _ hh rfl]; exact Nat.zero_le _
    | false => exact fin hh (fun data hd => nomatch hd)

theorem countP_set_le {α} (p : α → Bool) (l : List α) (i : Nat) (v v' : α) (h : l[i]? = some v) (hp : p v' = true → p v = true) :
    (l.set i v').countP p ≤ l.countP p := by
  induction l generalizing i with
  | nil => simp at h
  | cons a l ih =>
    cases i with
    | zero =>
      simp only [List.getElem?_cons_zero, Option.some.injEq] at h
      subst h
      simp only [List.set_cons_zero, List.countP_cons]
      by_cases h1 : p v' = true
      · rw [if_pos h1, if_pos (hp h1)]; exact Nat.le_refl _
      · rw [if_neg h1]; omega
    | succ i =>
      simp only [List.getElem?_cons_succ] at h
      simp only [List.set_cons_succ, List.countP_cons]
      have := ih i h
      omega

theorem thread_users (w : World) (n : Int) (s : St) (i : Nat) (fail : Option Services.Fail) : users n (thread w s i fail).1 ≤ users n s := by
  unfold thread
  cases hv : s.svcs[i]? with
  | none => exact Nat.le_refl _
  | some v =>
    simp only
    split
    · split
      · unfold release
        split
        · exact countP_set_le _ _ _ _ _ hv fun h => h
        · exact countP_set_le _ _ _ _ _ hv fun h => h
      · exact Nat.le_refl _
    · rename_i hf
      refine countP_set_le _ _ _ _ _ hv fun h => ?_
      simp only [Bool.and_eq_true, decide_eq_true_eq, Bool.not_eq_true'] at h ⊢
      exact ⟨h.1, by simpa using hf⟩

theorem begun_users_other (w : World) (l : Launch) (n : Int) (s : St) (x : Done) (h : portOf x ≠ some n) : users n (begun w l s x) ≤ users n s := by
  have mute : ∀ ok, users n (beginMute s ok) ≤ users n s := by
    intro ok
    simp only [users, beginMute, List.countP_append]
    split <;> simp [Prog.finished]
  have beg : ∀ k ok p r, k ≠ n → users n (begin s k ok p r) ≤ users n s := by
    intro k ok p r hk
    simp only [users, begin, List.countP_append]
    split <;> simp [hk]
  unfold begun
  split
  · exact beg _ _ _ _ fun e => h (by rw [e]; rfl)
  · exact mute _
  · exact beg _ _ _ _ fun e => h (by rw [e]; rfl)
  · exact mute _
  · exact Nat.le_refl _

theorem begun_users (w : World) (l : Launch) (n : Int) (s : St) (x : Done) : users n (begun w l s x) ≤ users n s + 1 := by
  have mute : ∀ ok, users n (beginMute s ok) ≤ users n s + 1 := by
    intro ok
    simp only [users, beginMute, List.countP_append]
    split <;> simp [Prog.finished]
  have beg : ∀ k ok p r, users n (begin s k ok p r) ≤ users n s + 1 := by
    intro k ok p r
    simp only [users, begin, List.countP_append, List.countP_singleton]
    split <;> split <;> omega
  unfold begun
  split
  · exact beg _ _ _ _
  · exact mute _
  · exact beg _ _ _ _
  · exact mute _
  · omega

theorem users_forget (n : Int) (a b : List (Int × Channel.Ch)) (l : List Svc) :
    (l.map (forget a b)).countP (fun v => decide (v.port = n) && !v.prog.finished) = l.countP fun v => decide (v.port = n) && !v.prog.finished := by
  rw [List.countP_map]
  rfl

/-! ### C174 -/

/-- C174, the part that holds: as long as the server asks for a service on a channel only when no other one uses it, no channel is used by two services,
whatever else happens.  Missing for the full property: the agent itself does not see to it (`c174_started`). -/
theorem c174_partial (w : World) (limit : Nat) (n : Int) (ms : List Move) (hs : ∀ m ∈ ms, m.Small) (h : InTurn w n (init limit) ms) :
    users n (run w (init limit) ms).1 ≤ 1 := by
  have h0 : users n (init limit) ≤ 1 := Nat.zero_le _
  generalize init limit = s at h h0
  induction ms generalizing s with
  | nil => exact h0
  | cons m ms ih =>
    refine ih (fun m hm => hs m (List.mem_cons_of_mem _ hm)) _ h.2 ?_
    cases m with
    | event env e l =>
      have hsm : ∀ data, e = .binary data → data.length ≤ maxSize := hs (.event env e l) List.mem_cons_self
      have hone := step_one env s.client e hsm w.known
      simp only [move]
      generalize hs' : ({ s with client := (step env s.client e).1, svcs := s.svcs.map (forget s.client.channels (step env s.client e).1.channels) } : St) = s'
      have hu : users n s' = users n s := by rw [← hs']; exact users_forget _ _ _ _
      match hq : (step env s.client e).2.flatMap (react w.known) with
      | [] => rw [List.foldl_nil, hu]; exact h0
      | [x] =>
        simp only [List.foldl_cons, List.foldl_nil]
        by_cases hx : portOf x = some n
        · have hask : Asked n e := by
            obtain ⟨sender, d, op, h1, h2, h3⟩ := step_asked hsm (by rw [hq]; exact List.mem_singleton.2 rfl)
            obtain ⟨v, rfl | rfl⟩ := portOf_asked h3 hx
            · exact ⟨sender, d, v, h1, .inl h2⟩
            · exact ⟨sender, d, v, h1, .inr h2⟩
          have := h.1 env e l rfl hask
          have := begun_users w l n s' x
          omega
        · have := begun_users_other w l n s' x hx
          omega
      | _ :: _ :: _ => rw [hq] at hone; simp at hone
    | thread i fail => exact Nat.le_trans (thread_users w n s i fail) h0
    | take =>
      simp only [move]
      split <;> exact h0
    | give =>
      simp only [move]
      split
      · exact h0
      · split <;> exact h0

/-- C174 fails, whenever the server asks for a file and a slot is free: the service is started on the channel and uses it with those that do already. -/
theorem c174_started (w : World) (limit : Nat) (before : List Move) (n : Int) (path : Text) (m : Bytes)
    (hm : Sent m (.readFile (.int n) (.text path))) (env : Env) (l : Launch) (hl : l.ok = true) :
    let s := (run w (init limit) before).1
    s.client.hung = false → slots s < limit → users n (move w s (.event env (.binary m) l)).1 = users n s + 1 := by
  intro s hh hs
  obtain ⟨h1, sender, d, surplus, hd, hkeys, ha⟩ := hm
  rw [launch_move w s env l hh h1 hd hkeys ha .readFile]
  have hfree : (Limiter.launch s.lim true).2 = true := free_slot w limit before hs
  simp only [begun, begin, users, List.countP_append, hl, hfree, if_true]
  simp [fileProg, Prog.finished]

/-- The server asks for `/a` ("hello") and for `/b` ("world") on channel 1. -/
def askB1 : Bytes := asc "li16e0:d6:action9:read-file4:path1:b4:porti1eee"

/-- C174 fails: two files are asked for on one channel, and the one that was asked for last arrives first; if the server takes the first request to
close for the end, the other file does not arrive at all, and nothing is said about it. -/
theorem c174_counterexample :
    let ask : List Move := [.event {} (.binary askA) {}, .event {} (.binary askB1) {}]
    wire 1 (run exWorld (init 2) (ask ++ List.replicate 5 (.thread 1 none) ++ List.replicate 9 (.thread 0 none) ++ List.replicate 9 (.thread 1 none))).2 =
      [.sendData (asc "world"), .sendData (asc "hello"), .requestClose, .requestClose] ∧
    wire 1 (run exWorld (init 2) (ask ++ List.replicate 9 (.thread 0 none) ++ [.event {} (.binary (asc "li19ei1ee")) {}] ++
      List.replicate 20 (.thread 1 none))).2 = [.sendData (asc "hello"), .requestClose] ∧
    users 1 (run exWorld (init 2) ask).1 = 2 := by decide +kernel

theorem inTurn_threads (w : World) (n : Int) (i k : Nat) (ms : List Move) (s : St) (h : InTurn w n (run w s (List.replicate k (.thread i none))).1 ms) :
    InTurn w n s (List.replicate k (.thread i none) ++ ms) := by
  induction k generalizing s with
  | zero => exact h
  | succ k ih => exact ⟨fun _ _ _ h => (nomatch h), ih _ h⟩

/-- The hypotheses of `c174_partial` can be met: `/b` is asked for on channel 1 after `/a` was sent. -/
example : users 1 (run exWorld (init 2) [.event {} (.binary askA) {}]).1 = 1 ∧
    users 1 (run exWorld (init 2) (.event {} (.binary askA) {} :: (List.replicate 9 (.thread 0 none) ++ [.event {} (.binary askB1) {}]))).1 = 1 ∧
    InTurn exWorld 1 (init 2) (.event {} (.binary askA) {} :: (List.replicate 9 (.thread 0 none) ++ [.event {} (.binary askB1) {}])) := by
  refine ⟨by decide +kernel, by decide +kernel, fun _ _ _ _ _ => rfl, inTurn_threads _ _ _ _ _ _ ⟨fun _ _ _ _ _ => ?_, trivial⟩⟩
  decide +kernel

end Verif.Agent
