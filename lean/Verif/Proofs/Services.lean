import Verif.Spec.Services
/-!
Helper lemmas for the services.
-/
namespace Verif.Services
open Verif

theorem sentBytes_append (a b : List Act) : sentBytes (a ++ b) = sentBytes a ++ sentBytes b := by simp [sentBytes]
theorem written_append (a b : List Act) : written (a ++ b) = written a ++ written b := by simp [written]
theorem outputRead_append (a b : List Act) : outputRead (a ++ b) = outputRead a ++ outputRead b := by simp [outputRead]

theorem chunksOf_flatten (n : Nat) (hn : 0 < n) : ∀ (fuel : Nat) (b : Bytes), b.length ≤ fuel → (chunksOf n fuel b).flatten = b := by
  intro fuel
  induction fuel with
  | zero => intro b h; have : b = [] := List.length_eq_zero_iff.mp (by omega); subst this; rfl
  | succ fuel ih =>
    intro b h
    simp only [chunksOf]
    split
    · rename_i hb; simp at hb; simp [hb]
    · rename_i hb
      have hb' : 0 < b.length := by cases b with | nil => simp at hb | cons => simp
      rw [List.flatten_cons, ih _ (by rw [List.length_drop]; omega), List.take_append_drop]

theorem chunksOf_size (n : Nat) (hn : 0 < n) (fuel : Nat) (b : Bytes) : ∀ c ∈ chunksOf n fuel b, 1 ≤ c.length ∧ c.length ≤ n := by
  induction fuel generalizing b with
  | zero => simp [chunksOf]
  | succ fuel ih =>
    intro c hc
    simp only [chunksOf] at hc
    split at hc
    · simp at hc
    · rename_i hb
      have hb' : 0 < b.length := by cases b with | nil => simp at hb | cons => simp
      rcases List.mem_cons.mp hc with h | h
      · subst h; simp only [List.length_take]; omega
      · exact ih _ c h

theorem onFail_sent (f : Option Fail) : sentBytes (onFail f) = [] := by
  rcases f with _ | f
  · rfl
  · cases f <;> rfl

theorem fileLoop_good (env : FileEnv) (h : env.Good) (k : Nat) (cs : List Bytes) :
    fileLoop env k cs = (cs.map (fun c => .write c true), none) := by
  induction cs generalizing k with
  | nil => simp [fileLoop, h.read]
  | cons c cs ih => simp [fileLoop, h.read, h.write, h.open_, ih]

theorem sentBytes_map (cs : List Bytes) : sentBytes (cs.map (fun c => Act.write c true)) = cs.flatten := by
  induction cs with
  | nil => rfl
  | cons c cs ih => simp only [List.map_cons, List.flatten_cons, ← ih]; rfl

/-- After a look that found the channel closed nothing more is sent. -/
theorem fileLoop_closed (env : FileEnv) (k : Nat) (cs : List Bytes) (h : env.closed (2 * k) = true) :
    sentBytes (fileLoop env k cs).1 = [] := by
  cases cs with
  | nil => rfl
  | cons c cs =>
    simp only [fileLoop]
    split
    · rfl
    · simp [h, sentBytes]

theorem fileLoop_prefix (env : FileEnv) (hm : Mono env.closed) (k : Nat) (cs : List Bytes) :
    sentBytes (fileLoop env k cs).1 <+: cs.flatten := by
  induction cs generalizing k with
  | nil => exact List.nil_prefix
  | cons c cs ih =>
    simp only [fileLoop]
    split
    · exact List.nil_prefix
    · split
      · exact List.nil_prefix
      · split
        · exact List.nil_prefix
        · show sentBytes ([Act.write c _] ++ _) <+: _
          rw [sentBytes_append]
          cases hc : env.closed (2 * k + 1) with
          | true =>
            rw [fileLoop_closed env (k + 1) cs (hm (2 * k + 1) _ (by omega) hc)]
            exact List.nil_prefix
          | false =>
            rw [List.flatten_cons]
            show c ++ [] ++ _ <+: _
            rw [List.append_nil]
            exact (List.prefix_append_right_inj c).mpr (ih (k + 1))

/-- The loop only writes chunks. -/
theorem fileLoop_mem (env : FileEnv) (k : Nat) (cs : List Bytes) : ∀ a ∈ (fileLoop env k cs).1, ∃ c ∈ cs, ∃ b, a = .write c b := by
  induction cs generalizing k with
  | nil => simp [fileLoop]
  | cons c cs ih =>
    intro a ha
    simp only [fileLoop] at ha
    split at ha
    · simp at ha
    · split at ha
      · simp at ha
      · split at ha
        · simp at ha; exact ⟨c, by simp, false, ha⟩
        · rcases List.mem_cons.mp ha with h | h
          · exact ⟨c, by simp, _, h⟩
          · obtain ⟨c', h1, h2⟩ := ih _ a h
            exact ⟨c', by simp [h1], h2⟩

theorem onFail_mem (f : Option Fail) : ∀ a ∈ onFail f, ∃ s, a = .error s := by
  rcases f with _ | f
  · simp [onFail]
  · cases f <;> simp [onFail]

theorem pollEvents_read (closed : Nat → Bool) (n : Nat) (es : List PollEvent) :
    written (pollEvents closed n es).1 = outputRead (pollEvents closed n es).1 := by
  induction es generalizing n with
  | nil => rfl
  | cons e es ih =>
    simp only [pollEvents]
    repeat' split
    all_goals first | rfl | exact ih _ | (rename_i h; simp at h; subst h; rfl; done) | skip
    · have := ih (n + 1)
      simp only [written, outputRead, List.flatMap_cons, List.nil_append] at this ⊢
      rw [this]

theorem cmdLoop_read (env : CmdEnv) (fuel k n : Nat) :
    written (cmdLoop env fuel k n).1 = outputRead (cmdLoop env fuel k n).1 := by
  induction fuel generalizing k n with
  | zero => rfl
  | succ fuel ih =>
    simp only [cmdLoop]
    split
    · rfl
    · rename_i es _
      have h := pollEvents_read env.closed n es
      split
      · rename_i hp; rw [hp] at h; exact h
      · rename_i hp; rw [hp] at h; exact h
      · rename_i hp; rw [hp] at h
        split
        · exact h
        · rw [written_append, outputRead_append, h, ih]

/-- The loop reads, writes and nothing else. -/
theorem pollEvents_mem (closed : Nat → Bool) (n : Nat) (es : List PollEvent) :
    ∀ a ∈ (pollEvents closed n es).1, (∃ d b, a = .write d b) ∨ (∃ d, a = .readOut d) ∨ (∃ d, a = .readErr d) := by
  induction es generalizing n with
  | nil => simp [pollEvents]
  | cons e es ih =>
    intro a ha
    simp only [pollEvents] at ha
    repeat' split at ha
    all_goals try simp only [List.mem_cons, List.not_mem_nil, or_false] at ha
    all_goals first
      | exact ih _ a ha
      | (rcases ha with h | h | h; exact .inr (.inl ⟨_, h⟩); exact .inl ⟨_, _, h⟩; exact ih _ a h; done)
      | (rcases ha with h | h; exact .inr (.inl ⟨_, h⟩); exact .inl ⟨_, _, h⟩; done)
      | (rcases ha with h | h; exact .inr (.inr ⟨_, h⟩); exact ih _ a h; done)
      | exact .inr (.inl ⟨_, ha⟩)
      | exact .inr (.inr ⟨_, ha⟩)
      | exact absurd ha (by simp)

theorem cmdLoop_mem (env : CmdEnv) (fuel k n : Nat) :
    ∀ a ∈ (cmdLoop env fuel k n).1, (∃ d b, a = .write d b) ∨ (∃ d, a = .readOut d) ∨ (∃ d, a = .readErr d) := by
  induction fuel generalizing k n with
  | zero => simp [cmdLoop]
  | succ fuel ih =>
    intro a ha
    simp only [cmdLoop] at ha
    split at ha
    · simp at ha
    · rename_i es _
      have h := pollEvents_mem env.closed n es a
      split at ha
      · rename_i hp; rw [hp] at h; exact h ha
      · rename_i hp; rw [hp] at h; exact h ha
      · rename_i hp; rw [hp] at h
        split at ha
        · exact h ha
        · rcases List.mem_append.mp ha with h' | h'
          · exact h h'
          · exact ih _ _ a h'

/-- On an open channel, and if no write raises, all that is written is sent. -/
theorem pollEvents_sent (closed : Nat → Bool) (ho : ∀ n, closed n = false) (n : Nat) (es : List PollEvent)
    (hw : ∀ e ∈ es, e.write = none) : sentBytes (pollEvents closed n es).1 = written (pollEvents closed n es).1 := by
  induction es generalizing n with
  | nil => rfl
  | cons e es ih =>
    have ih := fun n => ih n (fun e he => hw e (List.mem_cons_of_mem _ he))
    have hwe := hw e (by simp)
    simp only [pollEvents, hwe, ho]
    repeat' split
    all_goals first | rfl | exact ih _ | skip
    have := ih (n + 1)
    simp only [written, sentBytes, List.flatMap_cons, List.nil_append, Bool.not_false] at this ⊢
    rw [this]

theorem cmdLoop_sent (env : CmdEnv) (ho : ∀ n, env.closed n = false) (hw : ∀ k es, env.poll k = some es → ∀ e ∈ es, e.write = none)
    (fuel k n : Nat) : sentBytes (cmdLoop env fuel k n).1 = written (cmdLoop env fuel k n).1 := by
  induction fuel generalizing k n with
  | zero => rfl
  | succ fuel ih =>
    simp only [cmdLoop]
    split
    · rfl
    · rename_i es hes
      have h := pollEvents_sent env.closed ho n es (hw k es hes)
      split
      · rename_i hp; rw [hp] at h; exact h
      · rename_i hp; rw [hp] at h; exact h
      · rename_i hp; rw [hp] at h
        split
        · exact h
        · rw [sentBytes_append, written_append, h, ih]

/-- If the channel closes at some moment, what is sent by one pass is a prefix of what is written, and either all of it was sent or the
channel was closed at the last look. -/
theorem pollEvents_prefix (closed : Nat → Bool) (hm : Mono closed) (n : Nat) (es : List PollEvent) :
    n ≤ (pollEvents closed n es).2.1 ∧
    sentBytes (pollEvents closed n es).1 <+: written (pollEvents closed n es).1 ∧
    (closed n = true → sentBytes (pollEvents closed n es).1 = []) ∧
    (sentBytes (pollEvents closed n es).1 = written (pollEvents closed n es).1 ∨ closed (pollEvents closed n es).2.1 = true
      ∨ ∃ f, (pollEvents closed n es).2.2 = .raised f) := by
  induction es generalizing n with
  | nil => exact ⟨Nat.le_refl _, List.prefix_refl _, fun _ => rfl, .inl rfl⟩
  | cons e es ih =>
    simp only [pollEvents]
    split
    · split
      · exact ⟨Nat.le_refl _, List.prefix_refl _, fun _ => rfl, .inl rfl⟩
      · rename_i c _
        split
        · split
          · exact ⟨Nat.le_refl _, List.prefix_refl _, fun _ => rfl, .inl rfl⟩
          · split
            · rename_i f _
              exact ⟨Nat.le_succ _, List.nil_prefix, fun _ => rfl, .inr (.inr ⟨f, rfl⟩)⟩
            · split
              · refine ⟨Nat.le_succ _, ?_, ?_, ?_⟩
                · cases closed n
                  · exact List.prefix_refl _
                  · exact List.nil_prefix
                · intro h; simp [h, sentBytes]
                · cases h : closed n
                  · exact .inl rfl
                  · exact .inr (.inl (hm n _ (Nat.le_succ n) h))
              · obtain ⟨i1, i2, i3, i4⟩ := ih (n + 1)
                refine ⟨by simp only; omega, ?_, ?_, ?_⟩
                · cases h : closed n with
                  | false =>
                    show sentBytes ([.readOut c, .write c true] ++ _) <+: written ([.readOut c, .write c true] ++ _)
                    rw [sentBytes_append, written_append]
                    exact (List.prefix_append_right_inj (sentBytes [.readOut c, .write c true])).mpr i2
                  | true =>
                    show sentBytes ([.readOut c, .write c false] ++ _) <+: _
                    rw [sentBytes_append, i3 (hm n _ (Nat.le_succ n) h)]
                    exact List.nil_prefix
                · intro h
                  show sentBytes ([.readOut c, .write c (!closed n)] ++ _) = _
                  rw [sentBytes_append, i3 (hm n _ (Nat.le_succ n) h), h]
                  rfl
                · cases h : closed n with
                  | true => exact .inr (.inl (hm n _ (Nat.le_trans (Nat.le_succ n) i1) h))
                  | false =>
                    rcases i4 with h4 | h4 | h4
                    · refine .inl ?_
                      show sentBytes ([.readOut c, .write c true] ++ _) = written ([.readOut c, .write c true] ++ _)
                      rw [sentBytes_append, written_append, h4]
                      rfl
                    · exact .inr (.inl h4)
                    · exact .inr (.inr h4)
        · split
          · exact ⟨Nat.le_refl _, List.prefix_refl _, fun _ => rfl, .inl rfl⟩
          · exact ih n
    · split
      · exact ⟨Nat.le_refl _, List.prefix_refl _, fun _ => rfl, .inl rfl⟩
      · exact ih n

theorem cmdLoop_prefix (env : CmdEnv) (hm : Mono env.closed) (fuel k n : Nat) :
    sentBytes (cmdLoop env fuel k n).1 <+: written (cmdLoop env fuel k n).1 := by
  induction fuel generalizing k n with
  | zero => exact List.prefix_refl _
  | succ fuel ih =>
    simp only [cmdLoop]
    split
    · exact List.prefix_refl _
    · rename_i es _
      obtain ⟨-, i2, -, i4⟩ := pollEvents_prefix env.closed hm n es
      split
      · rename_i hp; rw [hp] at i2; exact i2
      · rename_i hp; rw [hp] at i2; exact i2
      · rename_i acts n' hp; rw [hp] at i2 i4
        split
        · exact i2
        · rename_i hc
          rcases i4 with h | h | ⟨f, h⟩
          · rw [sentBytes_append, written_append, h]
            exact (List.prefix_append_right_inj _).mpr (ih _ _)
          · exact absurd h hc
          · simp at h

/-- A pass over results that are not readable reads nothing and does not end the loop. -/
theorem pollEvents_hangUp (closed : Nat → Bool) (n : Nat) (es : List PollEvent) (h : hangUpOnly es) :
    pollEvents closed n es = ([], n, .more) := by
  induction es generalizing n with
  | nil => rfl
  | cons e es ih =>
    have he := h e (by simp)
    simp only [pollEvents, he]
    rw [if_neg (by simp)]
    split
    · rfl
    · exact ih n (fun x hx => h x (by simp [hx]))

theorem cmdLoop_hangUp (env : CmdEnv) (k0 : Nat) (h : ∀ k, k0 ≤ k → ∃ es, env.poll k = some es ∧ hangUpOnly es)
    (ho : ∀ n, env.closed n = false) (fuel k n : Nat) (hk : k0 ≤ k) : cmdLoop env fuel k n = ([], .more) := by
  induction fuel generalizing k n with
  | zero => rfl
  | succ fuel ih =>
    obtain ⟨es, h1, h2⟩ := h k hk
    simp only [cmdLoop, h1, pollEvents_hangUp _ _ _ h2, ho, ih (k + 1) (n + 1) (by omega)]
    simp

/-- Once the outer loop has ended, more fuel changes nothing. -/
theorem cmdLoop_fuel (env : CmdEnv) (fuel fuel' k n : Nat) (hf : fuel ≤ fuel') (h : (cmdLoop env fuel k n).2 ≠ .more) :
    cmdLoop env fuel' k n = cmdLoop env fuel k n := by
  induction fuel generalizing fuel' k n with
  | zero => simp [cmdLoop] at h
  | succ fuel ih =>
    obtain ⟨f', rfl⟩ : ∃ f', fuel' = f' + 1 := ⟨fuel' - 1, by omega⟩
    simp only [cmdLoop] at h ⊢
    cases hp : env.poll k with
    | none => rfl
    | some es =>
      rcases hq : pollEvents env.closed n es with ⟨acts, n', fin⟩
      simp only [hp, hq] at h ⊢
      cases fin with
      | done => rfl
      | raised f => rfl
      | more =>
        simp only at h ⊢
        by_cases hc : env.closed n' = true
        · simp only [hc, if_true]
        · simp only [hc] at h ⊢
          simp only [Bool.false_eq_true, if_false] at h ⊢
          rw [ih f' _ _ (by omega) h]

/-- A loop that only has to look at `m` more poll results ends. -/
theorem cmdLoop_ends (env : CmdEnv) (m k n : Nat)
    (h : ∀ n, ∃ es, env.poll (k + m) = some es ∧ (pollEvents env.closed n es).2.2 ≠ .more) :
    (cmdLoop env (m + 1) k n).2 ≠ .more := by
  induction m generalizing k n with
  | zero =>
    obtain ⟨es, h1, h2⟩ := h n
    simp only [Nat.add_zero] at h1
    simp only [cmdLoop, h1]
    rcases hq : pollEvents env.closed n es with ⟨acts, n', fin⟩
    rw [hq] at h2
    cases fin with
    | more => simp at h2
    | done => simp
    | raised f => simp
  | succ m ih =>
    rw [cmdLoop]
    cases hp : env.poll k with
    | none => simp
    | some es =>
      simp only
      rcases hq : pollEvents env.closed n es with ⟨acts, n', fin⟩
      cases fin with
      | done => simp
      | raised f => simp
      | more =>
        simp only
        split
        · simp
        · have := ih (k + 1) (n' + 1) (by have e : k + 1 + m = k + (m + 1) := by omega
                                          rw [e]; exact h)
          exact this

end Verif.Services
