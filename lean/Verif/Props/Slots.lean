import Verif.Proofs.Slots
/-!
C145: which instructions take a slot of which limiter.
-/
namespace Verif.Slots
open Verif WSClient
open _root_.Verif.Instructions (World Op)
open _root_.Verif.Opening (localServices Sent)

/-- C145: at every moment each limiter counts the threads of its kind that run, and there are never more of them than its limit. -/
theorem c145_slots (a b : Nat) (ms : List Move) (k : Kind) :
    ((run (init a b) ms).lim k).value = (run (init a b) ms).count k ∧ (run (init a b) ms).count k ≤ limitOf a b k := by
  have h := run_inv ms (init_inv a b)
  exact ⟨by rw [h.lim k]; rfl, h.atMost k⟩

/-- C145: a message that asks for an operation that starts a thread starts exactly one thread, of its kind, if fewer than the limit of that kind run and
a thread can be started, however many of the other kind run; otherwise it starts none. -/
theorem c145_started (a b : Nat) (ms : List Move) (hf : Fair (ms.filterMap Move.client)) (w : World) (env : Env) (m : Bytes) (op : Op) (k : Kind)
    (ok : Bool) (hm : Sent m op) (hs : Starts w op k) :
    (move (run (init a b) ms) (.event w env (.binary m) ok)).running = (run (init a b) ms).running ++
      if (run (init a b) ms).count k < limitOf a b k ∧ ok = true then [k] else [] := by
  have hh : (run (init a b) ms).client.hung = false := by
    rw [run_client]; exact run_hung _ _ hf
  have hi := run_inv ms (init_inv a b)
  obtain ⟨x, hx, hk⟩ := (starts_iff w op k).1 hs
  obtain ⟨h1, h2⟩ := sent_done (w := w) (env := env) hh hm
  rw [hx] at h2
  simp only [move, h1, h2, List.foldl_cons, List.foldl_nil]
  rw [begin_some (a := a) (b := b) hk ⟨hi.terminals, hi.services, hi.atMost⟩]
  show St.running (if (run (init a b) ms).running.count k < limitOf a b k ∧ ok = true then _ else _) = _
  simp only [St.count]
  by_cases hc : (run (init a b) ms).running.count k < limitOf a b k ∧ ok = true
  · simp [hc]
  · simp [hc]

/-- C145: all other operations that a message may ask for start nothing: an unknown terminal or service, a route that is not made of four items, a channel
that is a list, and so on. -/
theorem c145_not_started (a b : Nat) (ms : List Move) (hf : Fair (ms.filterMap Move.client)) (w : World) (env : Env) (m : Bytes) (op : Op) (ok : Bool)
    (hm : Sent m op) (hs : ∀ k, ¬ Starts w op k) : move (run (init a b) ms) (.event w env (.binary m) ok) = run (init a b) ms := by
  have hh : (run (init a b) ms).client.hung = false := by
    rw [run_client]; exact run_hung _ _ hf
  obtain ⟨h1, h2⟩ := sent_done (w := w) (env := env) hh hm
  simp only [move, h1, h2]
  rcases perform_cases w op with ⟨x, hx⟩ | hx | ⟨e, hx⟩
  · rw [hx]
    simp only [List.foldl_cons, List.foldl_nil]
    refine begin_none ?_
    cases hn : need x with
    | none => rfl
    | some k => exact absurd ((starts_iff w op k).2 ⟨x, hx, hn⟩) (hs k)
  · rw [hx]; rfl
  · rw [hx]; rfl

/-- C145: an event of the client that is not a message that asks for something, whatever it is, starts and ends nothing. -/
theorem c145_other_events (a b : Nat) (ms : List Move) (w : World) (env : Env) (e : Ev) (ok : Bool)
    (hf : Fair ((ms ++ [Move.event w env e ok]).filterMap Move.client)) (hn : ∀ m op, e = .binary m → ¬ Sent m op) :
    (move (run (init a b) ms) (.event w env e ok)).running = (run (init a b) ms).running := by
  rw [List.filterMap_append] at hf
  have hh : (run (init a b) ms).client.hung = false := by
    rw [run_client]; exact run_hung _ _ fun x hx => hf x (List.mem_append_left _ hx)
  have he : ∀ data, e = .binary data → ¬ Hangs data ∧ data.length ≤ maxSize :=
    fun data hd => hf (env, e) (List.mem_append_right _ (by simp [Move.client])) data hd
  have : (step env (run (init a b) ms).client e).2.flatMap (Instructions.react w) = [] := by
    apply Classical.byContradiction
    intro hne
    obtain ⟨x, hx⟩ := List.exists_mem_of_ne_nil _ hne
    obtain ⟨m, op, h1, h2⟩ := done_sent hh he hx
    exact hn m op h1 h2
  simp only [move, this, List.foldl_nil]

/-- C145: a thread that ends gives its slot back, and no other. -/
theorem c145_ended (a b : Nat) (ms : List Move) (i : Nat) :
    (move (run (init a b) ms) (.ended i)).running = (run (init a b) ms).running.eraseIdx i := by
  have hi := run_inv ms (init_inv a b)
  cases hk : (run (init a b) ms).running[i]? with
  | none =>
    simp only [move, hk]
    exact (List.eraseIdx_of_length_le (List.getElem?_eq_none_iff.1 hk)).symm
  | some k => rw [ended_eq hi hk]

/-- One slot of each kind: a terminal and a file service run; a second command is refused, and gets a slot when the file service has ended. -/
example :
    let say (m : String) (ok : Bool) : Move := .event (Instructions.worldAt 2) {} (.binary (asc m)) ok
    let s := run (init 1 1) [say "li16e1:sd6:action13:open-terminal4:name5:shell4:porti1eee" true,
      say "li16e1:sd6:action9:read-file4:path2:/x4:porti2eee" true, say "li16e1:sd6:action11:run-command7:command2:ls4:porti3eee" true]
    s.running = [.terminal, .service] ∧
    (run s [.ended 1, say "li16e1:sd6:action11:run-command7:command2:ls4:porti3eee" false]).running = [.terminal] ∧
    (run s [.ended 1, say "li16e1:sd6:action11:run-command7:command2:ls4:porti3eee" true]).running = [.terminal, .service] := by decide +kernel

/-- A route that is a text of four letters takes a slot. -/
example : (run (init 1 1) [.event (Instructions.worldAt 2) {}
    (.binary (asc "li16e1:sd6:action16:open-portforward5:route4:abcd7:service3:webee")) true]).running = [.service] := by decide +kernel

end Verif.Slots
