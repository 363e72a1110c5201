import Verif.Proofs.Instructions
/-!
C87 and C91: instructions and requests of the server.
-/
namespace Verif.Instructions
open Verif WSClient

/-! ### C87 -/

def exEcho : List (PyVal × PyVal) := [(.bytes (asc "action"), .bytes (asc "open-echo")), (.bytes (asc "port"), .int 7)]

/-- C87: a message asks for at most one operation. -/
theorem c87_one {d : List (PyVal × PyVal)} (hk : BytesKeys d) {op op' : Op} (h : Asks d op) (h' : Asks d op') : op = op' := by
  obtain ⟨data, r⟩ := reads hk
  have e1 := (choose_iff r op).2 h
  rw [(choose_iff r op').2 h'] at e1
  injection e1 with e1
  injection e1 with e1
  exact e1.symm

/-- C87, the part that holds: if all keys of the message are byte strings, the operation it asks for is done, with its arguments. -/
theorem c87_done_partial {d : List (PyVal × PyVal)} (hk : BytesKeys d) {w : World} {op : Op} {done : List Done} (h : Asks d op)
    (hm : Meant w op done) : instruct w d = .ok done := by
  obtain ⟨data, r⟩ := reads hk
  unfold instruct
  rw [r.ok]
  show (choose data >>= _) = _
  rw [(choose_iff r op).2 h]
  exact perform_meant hm

/-- Only byte strings can be decoded as keys. -/
theorem decodeItems_keys : ∀ (d : List (PyVal × PyVal)) acc data, decodeItems acc d = .ok data → BytesKeys d := by
  intro d
  induction d with
  | nil => exact fun _ _ _ x hx => nomatch hx
  | cons y d ih =>
    intro acc data h x hx
    obtain ⟨a, b⟩ := y
    simp only [decodeItems] at h
    split at h
    · exact nomatch h
    · rename_i heq
      rcases List.mem_cons.1 hx with rfl | hx
      · cases a <;> first | exact ⟨_, rfl⟩ | (simp [decodeItem] at heq; done)
      · exact ih _ _ h x hx

/-- C87: nothing is done unless it is asked for, and at most one thing. -/
theorem c87_nothing_else (d : List (PyVal × PyVal)) (w : World) {done : List Done} (h : instruct w d = .ok done)
    (hne : done ≠ []) : ∃ op x, Asks d op ∧ done = [x] ∧ perform w op = .ok [x] := by
  unfold instruct at h
  obtain ⟨data, h1, h⟩ := bind_ok h
  obtain ⟨o, h2, h⟩ := bind_ok h
  have hk : BytesKeys d := decodeItems_keys d [] data h1
  obtain ⟨data', r⟩ := reads hk
  have : data' = data := by
    have e := r.ok
    rw [h1] at e
    injection e with e
    exact e.symm
  subst this
  cases o with
  | none => injection h with h; exact absurd h.symm hne
  | some op =>
    refine ⟨op, ?_⟩
    have hop : perform w op = .ok done := h
    have : ∃ x, done = [x] := by
      cases op with
      | openTerminal name port size =>
        simp only [perform] at hop
        split at hop
        · split at hop
          · split at hop
            · obtain ⟨_, _, hop⟩ := bind_ok hop
              injection hop with hop
              exact ⟨_, hop.symm⟩
            · injection hop with hop; exact absurd hop.symm hne
          · injection hop with hop; exact absurd hop.symm hne
        · exact nomatch hop
      | openEcho | readFile | runCommand =>
        obtain ⟨_, _, hop⟩ := bind_ok hop
        injection hop with hop
        exact ⟨_, hop.symm⟩
      | openPortforward | openPortredirect =>
        simp only [perform] at hop
        split at hop
        · injection hop with hop; exact ⟨_, hop.symm⟩
        · exact nomatch hop
      | _ => injection hop with hop; exact ⟨_, hop.symm⟩
    obtain ⟨x, rfl⟩ := this
    exact ⟨x, (choose_iff r op).1 h2, rfl, hop⟩

/-- C87: unknown actions and missing arguments. -/
theorem c87_none (d : List (PyVal × PyVal)) (w : World) (sender : Bytes) (h : ∀ op, ¬ Asks d op) :
    react w (.instruction sender (.dict d)) = [] := by
  simp only [react]
  split
  · rename_i done hi
    apply Decidable.byContradiction
    intro hne
    obtain ⟨op, _, ha, _⟩ := c87_nothing_else d w hi hne
    exact h op ha
  · rfl

/-- C87, exactly when an operation that is asked for, and meant to do something, is done: all keys are byte strings. -/
theorem c87_done_iff {d : List (PyVal × PyVal)} {w : World} {op : Op} {done : List Done} (h : Asks d op) (hm : Meant w op done) :
    instruct w d = .ok done ↔ BytesKeys d := by
  refine ⟨fun hi => ?_, fun hk => c87_done_partial hk h hm⟩
  unfold instruct at hi
  obtain ⟨data, h1, _⟩ := bind_ok hi
  exact decodeItems_keys d [] data h1

/-- C87 is false with a key that is not a byte string: then nothing is done. -/
theorem c87_key_false : ∃ d op, Asks d op ∧ ∀ w, instruct w d = .error .attributeError := by
  refine ⟨[(.bytes (asc "action"), .bytes (asc "sync")), (.int 1, .int 2)], .sync,
    .sync ⟨[], asc "action", .bytes (asc "sync"), [(.int 1, .int 2)], rfl, by decide +kernel, ?_, by decide +kernel⟩, fun _ => rfl⟩
  intro key' w' h
  exact absurd h (by simp)

/-- C87: from the message to the operation, in any state of the client that still runs. -/
theorem c87_message_partial (env : Env) (s : St) (hs : s.hung = false) {m sender : Bytes} {d : List (PyVal × PyVal)} {surplus : List PyVal}
    (hl : m.length ≤ maxSize) (hd : decoded m = .int 16 :: .bytes sender :: .dict d :: surplus) (hk : BytesKeys d) {w : World}
    {op : Op} {done : List Done} (h : Asks d op) (hm : Meant w op done) :
    (step env s (.binary m)).2.flatMap (react w) = done := by
  have hr : requestOf m = some (.instruction sender d) := requestOf_list m (.instruction sender d) surplus hd
  have ho := call_of_request hl hr
  simp only [step, Ev.isSocket, if_true, hs, Bool.false_eq_true, if_false, onEvent, ho, Request.packet, handle]
  simp only [List.append_nil, List.flatMap_cons, List.flatMap_nil, react, c87_done_partial hk h hm]

example : Asks exEcho (.openEcho (.int 7)) :=
  .echo ⟨[], asc "action", .bytes (asc "open-echo"), [(.bytes (asc "port"), .int 7)], rfl, by decide +kernel, by
      intro key' w' h
      simp only [List.mem_cons, Prod.mk.injEq, PyVal.bytes.injEq, List.not_mem_nil, or_false] at h
      rw [h.1]
      decide +kernel, by decide +kernel⟩
    ⟨[(.bytes (asc "action"), .bytes (asc "open-echo"))], asc "port", .int 7, [], rfl, by decide +kernel, (fun _ _ h => nomatch h), rfl⟩
example : instruct (worldAt 2) exEcho = .ok [.echo (.int 7)] := by decide +kernel
example : instruct (worldAt 2) [(.bytes (asc "action"), .bytes (asc "open-terminal")), (.bytes (asc "name"), .bytes (asc "shell")),
    (.bytes (asc "port"), .int 3), (.bytes (asc "size"), .list [.int 100, .int 40])] =
    .ok [.launched "shell".toList (.int 3) (some (.list [.int 100, .int 40]))] := by decide +kernel
/-- An unknown action, and a missing port. -/
example : instruct (worldAt 2) [(.bytes (asc "action"), .bytes (asc "dance"))] = .ok [] ∧
    instruct (worldAt 2) [(.bytes (asc "action"), .bytes (asc "open-echo"))] = .error .keyError := by decide +kernel

/-! ### C96 -/

/-- C96, the part that holds: once the agent has started, instructions do what they are meant to do. -/
theorem c96_started_partial {n : Nat} (hn : 2 ≤ n) {op : Op} {done : List Done} (h : Meant (worldAt 2) op done) :
    perform (worldAt n) op = .ok done := by
  have : worldAt n = worldAt 2 := by
    unfold worldAt
    rw [List.take_of_length_le (show starting.length ≤ n from hn)]
    rfl
  rw [this]
  exact perform_meant h

/-- C96: once it has started, it has a terminal `shell` and port forwards. -/
theorem c96_ready_partial {n : Nat} (hn : 2 ≤ n) (port : Int) (size : Option PyVal) (a b : PyVal) :
    perform (worldAt n) (.openTerminal (.text "shell".toList) (.int port) size) = .ok [.launched "shell".toList (.int port) size] ∧
    perform (worldAt n) (.openPortforward a b) = .ok [.forwarded a b] ∧
    perform (worldAt n) (.openPortredirect a b) = .ok [.redirected a b] :=
  ⟨c96_started_partial hn (.terminal (by decide +kernel)), c96_started_partial hn (.portforward rfl), c96_started_partial hn (.portredirect rfl)⟩

/-- C96: those that open neither terminals nor port forwards do so at all times. -/
theorem c96_always_partial (n : Nat) {op : Op} {done : List Done} (h : Meant (worldAt 2) op done)
    (h1 : ∀ name port size, op ≠ .openTerminal name port size) (h2 : ∀ service route, op ≠ .openPortforward service route)
    (h3 : ∀ a b, op ≠ .openPortredirect a b) : perform (worldAt n) op = .ok done := by
  rw [← perform_meant h]
  cases op with
  | openTerminal a b c => exact absurd rfl (h1 a b c)
  | openPortforward a b => exact absurd rfl (h2 a b)
  | openPortredirect a b => exact absurd rfl (h3 a b)
  | _ => rfl

/-- C96, exactly when an operation does what it is meant to do: the terminal from the first step of the start on, port forwards from the second, all
others always. -/
theorem c96_iff (n : Nat) {op : Op} {done : List Done} (h : Meant (worldAt 2) op done) : perform (worldAt n) op = .ok done ↔
    ((∃ name port size, name ∈ (worldAt 2).terminals ∧ op = .openTerminal (.text name) port size) → 1 ≤ n) ∧
    ((∃ a b, op = .openPortforward a b ∨ op = .openPortredirect a b) → 2 ≤ n) := by
  have hw2 : worldAt 2 = ⟨[sShell], true⟩ := rfl
  have hw : n = 0 ∧ worldAt n = ⟨[], false⟩ ∨ n = 1 ∧ worldAt n = ⟨[sShell], false⟩ ∨ 2 ≤ n ∧ worldAt n = ⟨[sShell], true⟩ := by
    match n with
    | 0 => exact .inl ⟨rfl, rfl⟩
    | 1 => exact .inr (.inl ⟨rfl, rfl⟩)
    | n + 2 =>
      refine .inr (.inr ⟨by omega, ?_⟩)
      unfold worldAt
      rw [List.take_of_length_le (show starting.length ≤ n + 2 from by simp [starting])]
      rfl
  cases h with
  | terminal hn =>
    rename_i name port size
    have h0 : Bencode.hashable (.text name) = true := rfl
    rw [hw2] at hn
    have hx : ∀ w : World, perform w (.openTerminal (.text name) (.int port) size) = .ok [.launched name (.int port) size] ↔ name ∈ w.terminals := by
      intro w
      simp only [perform, h0, if_true]
      by_cases hm : name ∈ w.terminals
      · rw [if_pos hm]; exact ⟨fun _ => hm, fun _ => rfl⟩
      · rw [if_neg hm]
        exact ⟨fun h => (by injection h with h; cases h), fun h => absurd h hm⟩
    rw [hx]
    constructor
    · intro hm
      refine ⟨fun _ => ?_, fun ⟨a, b, h⟩ => by rcases h with h | h <;> exact nomatch h⟩
      rcases hw with ⟨rfl, h⟩ | ⟨rfl, _⟩ | ⟨h, _⟩
      · rw [h] at hm; exact nomatch hm
      · exact Nat.le_refl _
      · omega
    · intro ⟨h1, _⟩
      have := h1 ⟨name, .int port, size, by rw [hw2]; exact hn, rfl⟩
      rcases hw with ⟨rfl, h⟩ | ⟨rfl, h⟩ | ⟨_, h⟩
      · omega
      · rw [h]; exact hn
      · rw [h]; exact hn
  | noTerminal hn =>
    rename_i name port size
    have h0 : Bencode.hashable (.text name) = true := rfl
    have hnn : name ∉ (worldAt n).terminals := by
      rw [hw2] at hn
      rcases hw with ⟨rfl, h⟩ | ⟨rfl, h⟩ | ⟨_, h⟩
      · rw [h]; exact List.not_mem_nil
      · rw [h]; exact hn
      · rw [h]; exact hn
    simp only [perform, h0, if_true, if_neg hnn, true_iff]
    refine ⟨fun ⟨nm, p, s, hm, h⟩ => ?_, fun ⟨a, b, h⟩ => by rcases h with h | h <;> exact nomatch h⟩
    injection h with h _ _
    injection h with h
    subst h
    exact absurd hm hn
  | portforward hp =>
    rename_i a b
    have hx : ∀ w : World, perform w (.openPortforward a b) = .ok [.forwarded a b] ↔ w.portForward = true := by
      intro w
      simp only [perform]
      split
      · rename_i h; simp [h]
      · rename_i h; exact ⟨fun h' => (nomatch h'), fun h' => absurd h' h⟩
    rw [hx]
    refine ⟨fun hm => ⟨fun ⟨_, _, _, _, h⟩ => (nomatch h), fun _ => ?_⟩, fun ⟨_, h2⟩ => ?_⟩
    · rcases hw with ⟨rfl, h⟩ | ⟨rfl, h⟩ | ⟨h, _⟩
      · rw [h] at hm; exact nomatch hm
      · rw [h] at hm; exact nomatch hm
      · exact h
    · have := h2 ⟨a, b, .inl rfl⟩
      rcases hw with ⟨rfl, h⟩ | ⟨rfl, h⟩ | ⟨_, h⟩
      · omega
      · omega
      · rw [h]
  | portredirect hp =>
    rename_i a b
    have hx : ∀ w : World, perform w (.openPortredirect a b) = .ok [.redirected a b] ↔ w.portForward = true := by
      intro w
      simp only [perform]
      split
      · rename_i h; simp [h]
      · rename_i h; exact ⟨fun h' => (nomatch h'), fun h' => absurd h' h⟩
    rw [hx]
    refine ⟨fun hm => ⟨fun ⟨_, _, _, _, h⟩ => (nomatch h), fun _ => ?_⟩, fun ⟨_, h2⟩ => ?_⟩
    · rcases hw with ⟨rfl, h⟩ | ⟨rfl, h⟩ | ⟨h, _⟩
      · rw [h] at hm; exact nomatch hm
      · rw [h] at hm; exact nomatch hm
      · exact h
    · have := h2 ⟨a, b, .inr rfl⟩
      rcases hw with ⟨rfl, h⟩ | ⟨rfl, h⟩ | ⟨_, h⟩
      · omega
      · omega
      · rw [h]
  | sync | echo | reboot | readFile | runCommand | scan =>
    refine ⟨fun _ => ⟨fun ⟨_, _, _, _, h⟩ => (nomatch h), fun ⟨a, b, h⟩ => by rcases h with h | h <;> exact nomatch h⟩, fun _ => ?_⟩
    rfl

/-- C96 is false while the agent starts: an instruction that comes before the terminal is added is dropped without an answer, and a port
forward fails until the last step. -/
theorem c96_early_false : ¬ (∀ (n : Nat) (op : Op) (done : List Done), Meant (worldAt 2) op done → perform (worldAt n) op = .ok done) ∧
    perform (worldAt 0) (.openTerminal (.text "shell".toList) (.int 1) none) = .ok [] ∧
    perform (worldAt 1) (.openPortforward (.text "web".toList) (.list [])) = .error .attributeError := by
  have h1 : perform (worldAt 0) (.openTerminal (.text "shell".toList) (.int 1) none) = .ok [] := by decide +kernel
  refine ⟨fun h => ?_, h1, by decide +kernel⟩
  have := h 0 _ _ (.terminal (name := "shell".toList) (port := 1) (size := none) (by decide +kernel))
  rw [h1] at this
  injection this with this
  exact nomatch this

/-- The terminal of the agent. -/
example : Meant (worldAt 2) (.openTerminal (.text "shell".toList) (.int 1) none) [.launched "shell".toList (.int 1) none] :=
  .terminal (by decide +kernel)

/-! ### C91 -/

/-- C91: the manager and the remote directory are called exactly once for each request, in the order of the messages, with what is in the
message, and never otherwise. -/
theorem c91_passed_on (s : St) (hs : s.hung = false) (hist : List (Env × Ev)) (hf : Fair hist) :
    ((run s hist).2.filter isRequest).map passedOn = (hist.filterMap (fun x => requestIn x.2)).map some := by
  induction hist generalizing s with
  | nil => rfl
  | cons x hist ih =>
    obtain ⟨env, e⟩ := x
    have h1 := step_requests env s hs e hf.head
    have h2 := ih (step env s e).1 (by rw [step_hung env s e (fun data hd => (hf.head data hd).1), hs]) hf.tail
    simp only [run, List.filter_append, List.map_append, h1, h2]
    rw [List.filterMap_cons]
    cases hr : requestIn e <;> simp [hr]

example : requestOf (asc "li16e5:adminde1:xe") = some (.instruction (asc "admin") []) := by
  have : decoded (asc "li16e5:adminde1:xe") = [.int 16, .bytes (asc "admin"), .dict [], .bytes (asc "x")] := by decide +kernel
  simp only [requestOf, this]

end Verif.Instructions
