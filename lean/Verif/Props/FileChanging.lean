import Verif.Proofs.FileChanging
/-!
C181, C182: files that other programs change while they are sent.
-/
namespace Verif.FileChanging
open Verif Services

/-! ### C181 -/

/-- C181, what holds in all cases: every byte that the server receives stood at its place in the file when it was read. -/
theorem c181_bytes (env : Env) (hm : Mono env.closed) (fuel j : Nat) (x : UInt8) (h : (sentBytes (send env fuel))[j]? = some x) :
    ∃ t, t < fuel ∧ (env.content t)[j]? = some x := by
  simp only [send, sent_append, (finish_sent _).1, List.append_nil] at h
  obtain ⟨rest, hrest⟩ := (loop_sent env hm fuel 0 0).1
  have h' : (written (sendLoop env fuel 0 0).1)[j]? = some x := by
    have hj : j < (sentBytes (sendLoop env fuel 0 0).1).length := by
      apply Classical.byContradiction
      intro hn
      rw [List.getElem?_eq_none (by omega)] at h
      exact (nomatch h)
    rw [← hrest, List.getElem?_append_left hj]
    exact h
  obtain ⟨t, _, h2, h3⟩ := loop_bytes env fuel 0 0 j x h'
  exact ⟨t, by omega, by simpa using h3⟩

/-- C181, the part that holds: of a file that is only appended to the server receives the beginning, and if nothing fails and the channel
stays open until the service ends, it has received the file as it was at one moment.  Missing: files that are written over, see
`c181_counterexample`. -/
theorem c181_appended_partial (env : Env) (hf : Appended env.content) (hm : Mono env.closed) (fuel : Nat) :
    sentBytes (send env fuel) <+: env.content fuel ∧
    (env.Good → Act.close ∈ send env fuel → ∃ t, t < fuel ∧ sentBytes (send env fuel) = env.content t) := by
  obtain ⟨h1, h2⟩ := loop_appended env hf hm fuel 0 [] List.nil_prefix
  simp only [List.nil_append, List.length_nil, Nat.zero_add] at h1 h2
  simp only [send, sent_append, (finish_sent _).1, List.append_nil]
  refine ⟨h1, ?_⟩
  intro hg hc
  refine (h2 hg ?_).imp (fun t ht => ⟨ht.2.1, ht.2.2⟩)
  intro hr
  rw [hr] at hc
  simp only [finish, List.append_nil] at hc
  have hall : ∀ fuel k pos, Act.close ∉ (sendLoop env fuel k pos).1 := by
    intro fuel
    induction fuel with
    | zero => intro k pos h; simp [sendLoop] at h
    | succ fuel ih =>
      intro k pos h
      rcases round_cases env fuel k pos with ⟨f, _, e⟩ | ⟨_, _, e⟩ | ⟨_, _, _, e⟩ | ⟨f, _, _, _, _, e⟩ | ⟨_, _, _, _, e⟩
      · rw [e] at h; simp at h
      · rw [e] at h; simp at h
      · rw [e] at h; simp at h
      · rw [e] at h; simp at h
      · rw [e] at h
        simp only [List.mem_cons] at h
        rcases h with h | h
        · exact (nomatch h)
        · exact ih _ _ h
  exact hall _ _ _ hc

/-- C181: a file that nobody changes is sent as in C32. -/
theorem c181_agrees (env : FileEnv) (path : Text) (content : Bytes) (hf : env.fs (absPath path) = .file content) (fuel : Nat)
    (hfuel : content.length < fuel) : send ⟨fun _ => content, env.read, env.write, env.closed⟩ fuel = fileRun env (some path) := by
  simp only [send, fileRun, fileBody, hf]
  have := loop_same env content fuel 0 0 (by simpa using hfuel) content.length (by simp)
  simp only [List.drop_zero] at this
  rw [this]
  simp [finish]

/-- Somebody writes ones over a file of zeros, longer than 1 MiB, between two reads. -/
def overwritten : Env := ⟨fun k => List.replicate (1048576 + 1) (if k = 0 then 0 else 1), fun _ => none, fun _ => none, fun _ => false⟩

/-- C181 fails for files that are written over: the server receives a file that never was, and no report of an error. -/
theorem c181_counterexample : sentBytes (send overwritten 3) = List.replicate 1048576 0 ++ [1] ∧
    (send overwritten 3).filter (fun a => match a with | .error _ => true | _ => false) = [] ∧
    ∀ t, overwritten.content t ≠ sentBytes (send overwritten 3) := by
  have c0 : overwritten.content 0 = List.replicate (1048576 + 1) 0 := rfl
  have c1 : ∀ t, t ≠ 0 → overwritten.content t = List.replicate (1048576 + 1) 1 := by
    intro t ht
    simp only [overwritten]
    rw [if_neg ht]
  have p0 : piece overwritten 0 0 = List.replicate 1048576 0 := by
    simp only [piece, c0, chunkSize]
    rw [List.drop_zero, List.take_replicate, Nat.min_eq_left (by omega)]
  have p1 : piece overwritten 1 1048576 = [1] := by
    simp only [piece, c1 1 (by omega), chunkSize]
    rw [List.drop_replicate, List.take_replicate, Nat.add_sub_cancel_left, Nat.min_eq_right (by omega)]
    rfl
  have p2 : piece overwritten 2 1048577 = [] := by
    simp only [piece, c1 2 (by omega), chunkSize]
    rw [List.drop_replicate, List.take_replicate, Nat.sub_self, Nat.min_eq_right (by omega)]
    rfl
  have hloop : sendLoop overwritten 3 0 0 = ([.write (List.replicate 1048576 0) true, .write [1] true], .ended none) := by
    have h2 : sendLoop overwritten 1 2 1048577 = ([], .ended none) := by
      simp only [sendLoop]
      rw [show overwritten.read 2 = none from rfl]
      simp only
      rw [if_pos (by rw [p2]; rfl)]
    have h1 : sendLoop overwritten 2 1 1048576 = ([.write [1] true], .ended none) := by
      rcases round_cases overwritten 1 1 1048576 with ⟨f, hr, _⟩ | ⟨_, hp, _⟩ | ⟨_, _, hc, _⟩ | ⟨f, _, _, _, hw, _⟩ | ⟨_, _, _, _, e⟩
      · exact (nomatch hr)
      · rw [p1] at hp; exact (nomatch hp)
      · exact (nomatch hc)
      · exact (nomatch hw)
      · rw [e, p1, show (1048576 + [(1 : UInt8)].length) = 1048577 from rfl, h2]; rfl
    rcases round_cases overwritten 2 0 0 with ⟨f, hr, _⟩ | ⟨_, hp, _⟩ | ⟨_, _, hc, _⟩ | ⟨f, _, _, _, hw, _⟩ | ⟨_, _, _, _, e⟩
    · exact (nomatch hr)
    · exact absurd hp ((piece_some overwritten 0 0).2 (by rw [c0, List.length_replicate]; omega))
    · exact (nomatch hc)
    · exact (nomatch hw)
    · rw [e, p0, List.length_replicate, Nat.zero_add, h1]; rfl
  have hsend : send overwritten 3 = [.write (List.replicate 1048576 0) true, .write [1] true, .close, .release] := by
    simp only [send, hloop]; rfl
  have hsent : sentBytes (send overwritten 3) = List.replicate 1048576 0 ++ [1] := by
    rw [hsend, sent_write, sent_write]; rfl
  refine ⟨hsent, by rw [hsend]; rfl, ?_⟩
  intro t h
  rw [hsent] at h
  by_cases ht : t = 0
  · subst ht
    rw [c0] at h
    have h1 := congrArg (fun l : Bytes => l[1048576]?) h
    rw [List.getElem?_append_right (by rw [List.length_replicate]; omega), List.length_replicate, Nat.sub_self,
      List.getElem?_replicate, if_pos (by omega)] at h1
    exact absurd h1 (by decide)
  · rw [c1 t ht] at h
    have h1 := congrArg (fun l : Bytes => l[0]?) h
    rw [List.getElem?_append_left (by rw [List.length_replicate]; omega), List.getElem?_replicate, List.getElem?_replicate,
      if_pos (by omega), if_pos (by omega)] at h1
    exact absurd h1 (by decide)

/-! ### C182 -/

/-- C182: exactly when the file service never ends: nothing fails, the channel is never found closed, and the file is always longer than what
has been read of it. -/
theorem c182_iff (env : Env) : (∀ fuel, Act.release ∉ send env fuel) ↔
    ∀ k, env.read k = none ∧ readTo env.content k < (env.content k).length ∧ env.closed (2 * k) = false ∧ env.write k = none := by
  have hrel : ∀ fuel, Act.release ∉ send env fuel ↔ (sendLoop env fuel 0 0).2 = .running := by
    intro fuel
    have hall : ∀ fuel k pos, Act.release ∉ (sendLoop env fuel k pos).1 := by
      intro fuel
      induction fuel with
      | zero => intro k pos h; simp [sendLoop] at h
      | succ fuel ih =>
        intro k pos h
        rcases round_cases env fuel k pos with ⟨f, _, e⟩ | ⟨_, _, e⟩ | ⟨_, _, _, e⟩ | ⟨f, _, _, _, _, e⟩ | ⟨_, _, _, _, e⟩
        · rw [e] at h; simp at h
        · rw [e] at h; simp at h
        · rw [e] at h; simp at h
        · rw [e] at h; simp at h
        · rw [e] at h
          simp only [List.mem_cons] at h
          rcases h with h | h
          · exact (nomatch h)
          · exact ih _ _ h
    simp only [send, List.mem_append, not_or]
    constructor
    · rintro ⟨_, h⟩
      cases hs : (sendLoop env fuel 0 0).2 with
      | running => rfl
      | ended f => rw [hs] at h; simp [finish] at h
    · intro h
      exact ⟨hall _ _ _, by rw [h]; simp [finish]⟩
  have hrun : ∀ fuel, (sendLoop env fuel 0 0).2 = .running ↔ _ := fun fuel => loop_running env fuel 0
  constructor
  · intro h k
    exact (hrun (k + 1)).1 ((hrel _).1 (h (k + 1))) k (by omega) (by omega)
  · intro h fuel
    exact (hrel fuel).2 ((hrun fuel).2 (fun j _ _ => h j))

/-- C182, the part that holds: when the channel is found closed, before the m-th chunk is sent, the service has ended after m + 1 rounds, has
closed the channel and given back its slot, however the file grows. -/
theorem c182_closed_partial (env : Env) (m : Nat) (h : env.closed (2 * m) = true) :
    ∃ acts f, send env (m + 1) = acts ++ onFail f ++ [.close, .release] := by
  have hne := loop_closed env m h (m + 1) 0 0 (by omega) (by omega)
  cases hs : (sendLoop env (m + 1) 0 0).2 with
  | running => exact absurd hs hne
  | ended f =>
    refine ⟨(sendLoop env (m + 1) 0 0).1, f, ?_⟩
    simp only [send, hs, finish, List.append_assoc]

/-- C182 fails: a device without an end, or a log that grows faster than it is sent, keeps the thread and its slot as long as the channel is
open. -/
theorem c182_endless (env : Env) (hg : env.Good) (hf : ∀ k, (k + 1) * 1048576 ≤ (env.content k).length) (fuel : Nat) :
    Act.release ∉ send env fuel := by
  refine (c182_iff env).2 (fun k => ⟨hg.read k, ?_, hg.open_ _, hg.write k⟩) fuel
  have hle : ∀ k, readTo env.content k ≤ k * 1048576 := by
    intro k
    induction k with
    | zero => simp [readTo]
    | succ k ih => simp only [readTo]; omega
  have := hle k
  have := hf k
  omega

/-- Such a file: `/dev/zero`, of which as much can be read as one likes. -/
example (fuel : Nat) : Act.release ∉ send ⟨fun k => List.replicate ((k + 1) * 1048576) 0, fun _ => none, fun _ => none, fun _ => false⟩ fuel :=
  c182_endless _ ⟨fun _ => rfl, fun _ => rfl, fun _ => rfl⟩ (fun k => by simp) fuel

/-- A log that gets a line while it is sent: the second read finds it. -/
example : send ⟨fun k => if k = 0 then [1, 2] else [1, 2, 3], fun _ => none, fun _ => none, fun _ => false⟩ 5 =
    [.write [1, 2] true, .write [3] true, .close, .release] := by decide +kernel

end Verif.FileChanging
