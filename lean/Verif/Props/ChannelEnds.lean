import Verif.Proofs.Told
import Verif.Props.WSClient
/-!
C100, exactly: which channels are closed when the receive thread ends.
-/
namespace Verif.Props
open Verif WSClient

theorem created_open {env} {s : WSClient.St} {e n c} (hn : WSClient.lookup n s.channels = none) (hl : ∀ data, e = .binary data → data.length ≤ maxSize)
    (hc : WSClient.lookup n (step env s e).1.channels = some c) : c.closed = false := by
  have hnew : (getChannel n s.channels).2 = {} := by simp [getChannel, hn]
  by_cases hm : mentions n e
  · cases e with
    | binary data =>
      have hl := hl data rfl
      simp only [step, Ev.isSocket, if_true] at hc
      split at hc
      · rw [hn] at hc; exact (nomatch hc)
      simp only [onEvent] at hc
      split at hc
      · rw [hn] at hc; exact (nomatch hc)
      · rw [hn] at hc; exact (nomatch hc)
      · rw [hn] at hc; exact (nomatch hc)
      · rename_i num args hb
        by_cases h6 : num = 6
        · subst h6
          obtain ⟨m, d, surplus, rfl, hd⟩ := call_chan hl (.inl rfl) hb
          simp only [handle, lookup_update] at hc
          by_cases hmn : m = n
          · subst hmn
            rw [if_pos rfl, lookup_getChannel_self, hnew] at hc
            injection hc with hc
            rw [← hc]; rfl
          · rw [if_neg hmn, lookup_getChannel_ne _ _ _ hmn, hn] at hc; exact (nomatch hc)
        by_cases h21 : num = 21
        · subst h21
          obtain ⟨m, d, surplus, rfl, hd⟩ := call_chan hl (.inr rfl) hb
          simp only [handle, lookup_update] at hc
          by_cases hmn : m = n
          · subst hmn
            rw [if_pos rfl, lookup_getChannel_self, hnew] at hc
            injection hc with hc
            rw [← hc]; rfl
          · rw [if_neg hmn, lookup_getChannel_ne _ _ _ hmn, hn] at hc; exact (nomatch hc)
        by_cases h14 : num = 14
        · subst h14
          obtain ⟨m, rfl, _⟩ := call_int hl (.inl rfl) hb
          simp only [handle] at hc
          by_cases hmn : m = n
          · subst hmn
            rw [lookup_getChannel_self, hnew] at hc
            injection hc with hc
            rw [← hc]
          · rw [lookup_getChannel_ne _ _ _ hmn, hn] at hc; exact (nomatch hc)
        by_cases h19 : num = 19
        · subst h19
          obtain ⟨m, rfl, _⟩ := call_int hl (.inr rfl) hb
          simp only [handle] at hc
          split at hc
          · rw [hn] at hc; exact (nomatch hc)
          · rename_i hm'
            have hmn : m ≠ n := by rintro rfl; rw [hn] at hm'; exact (nomatch hm')
            rw [lookup_remove_ne _ _ _ hmn, hn] at hc; exact (nomatch hc)
        obtain ⟨h1, _⟩ := handle_channels env s num args ⟨h6, h21, h14, h19⟩ n
        rw [h1, hn] at hc; exact (nomatch hc)
    | getChannel m =>
      simp only [mentions] at hm
      subst hm
      simp only [step, Ev.isSocket, Bool.false_eq_true, if_false] at hc
      rw [lookup_getChannel_self, hnew] at hc
      injection hc with hc
      rw [← hc]
    | _ => exact absurd hm (by simp [mentions])
  · rw [(step_absent env s e n hn hl hm).1] at hc; exact (nomatch hc)

/-- An operation other than the end leaves an open channel open. -/
theorem ops_open {c : Channel.Ch} (hc : c.closed = false) {ops : List Channel.Op} (h : .onClose ∉ ops) : (Channel.run c ops).1.closed = false := by
  induction ops generalizing c with
  | nil => exact hc
  | cons op ops ih =>
    simp only [List.mem_cons, not_or] at h
    simp only [Channel.run]
    refine ih ?_ h.2
    by_cases hs : ∃ d cl ct, op = .setCallbacks d cl ct
    · obtain ⟨d, cl, ct, rfl⟩ := hs; exact hc
    · exact (Channel.step_other hc (Ne.symm h.1) fun d cl ct e => hs ⟨d, cl, ct, e⟩).1

/-- C100: when the receive thread ends, for whatever reason, exactly those channels are closed that were there at some loss of the connection and were
not closed by the server since. -/
theorem c100_iff (hist : List (Env × Ev)) (hf : Fair hist) (stop : Stop) (n : Int) (c : Channel.Ch)
    (hc : WSClient.lookup n (thread {} hist stop).1.channels = some c) :
    c.closed = true ↔ ∃ before env since, hist = before ++ (env, .disconnected) :: since ∧ WSClient.lookup n (run {} before).1.channels ≠ none ∧
      ∀ x ∈ since, ∀ data, x.2 = .binary data → ¬ closes n data := by
  replace hc : WSClient.lookup n (run {} hist).1.channels = some c := hc
  constructor
  · intro hcl
    generalize hlen : hist.length = k
    induction k generalizing hist c with
    | zero =>
      cases hist with
      | nil => exact (nomatch hc)
      | cons _ _ => exact (nomatch hlen)
    | succ k ih =>
      rcases List.eq_nil_or_concat hist with rfl | ⟨hist', x, rfl⟩
      · exact (nomatch hlen)
      obtain ⟨env, e⟩ := x
      rw [List.concat_eq_append] at *
      have hf' : Fair hist' := fun y hy => hf y (by simp [hy])
      have hx := hf (env, e) (by simp)
      have hl : ∀ data, e = .binary data → data.length ≤ maxSize := fun data hd => (hx data hd).2
      have hh : (run {} hist').1.hung = false := run_hung {} hist' hf'
      have hk : (keys (run {} hist').1.channels).Nodup := run_keys {} hist' (by simp [keys]) hf'
      have hlast : (run {} (hist' ++ [(env, e)])).1 = (step env (run {} hist').1 e).1 := by simp only [run_append, run]
      rw [hlast] at hc
      cases h0 : WSClient.lookup n (run {} hist').1.channels with
      | none => rw [created_open h0 hl hc] at hcl; exact (nomatch hcl)
      | some c0 =>
        by_cases hcl' : ∃ data, e = .binary data ∧ closes n data
        · obtain ⟨data, rfl, hclo⟩ := hcl'
          exfalso
          have hb := (closes_call (hl data rfl) n).1 hclo
          simp only [step, Ev.isSocket, if_true, hh, Bool.false_eq_true, if_false, onEvent, hb, handle, h0] at hc
          rw [lookup_remove_self _ _ hk] at hc
          exact (nomatch hc)
        have hnc : ∀ data, e = .binary data → ¬ closes n data := fun data hd h => hcl' ⟨data, hd, h⟩
        by_cases hd : e = .disconnected
        · subst hd
          exact ⟨hist', env, [], rfl, by rw [h0]; exact (nomatch ·), by simp⟩
        · have hst := (step_channel env _ e n c0 hh hk h0 hl hnc).1
          rw [hst] at hc
          injection hc with hc
          have hc0 : c0.closed = true := by
            cases hb : c0.closed with
            | true => rfl
            | false =>
              have hno : .onClose ∉ opsFor n e := by
                cases e with
                | binary data =>
                  simp only [opsFor]
                  split <;> (try split) <;> simp
                | disconnected => exact absurd rfl hd
                | chanOp m o =>
                  simp only [opsFor]
                  split
                  · rename_i hm
                    intro hmem
                    simp only [List.mem_singleton] at hmem
                    rw [← hmem] at hm
                    simp [serviceOp] at hm
                  · simp
                | _ => simp [opsFor]
              rw [← hc, ops_open hb hno] at hcl
              exact (nomatch hcl)
          obtain ⟨before, env', since, he, h1, h2⟩ := ih hist' hf' c0 h0 hc0 (by simpa using hlen)
          refine ⟨before, env', since ++ [(env, e)], by rw [he]; simp, h1, ?_⟩
          intro x hx data hdat
          rcases List.mem_append.1 hx with hx | hx
          · exact h2 x hx data hdat
          · simp only [List.mem_singleton] at hx
            subst hx
            exact hnc data hdat
  · rintro ⟨before, env, since, rfl, h1, h2⟩
    have hfb : Fair before := fun y hy => hf y (by simp [hy])
    have hfs : Fair since := fun y hy => hf y (by simp [hy])
    have hh : (run {} before).1.hung = false := run_hung {} before hfb
    have hk : (keys (run {} before).1.channels).Nodup := run_keys {} before (by simp [keys]) hfb
    cases h0 : WSClient.lookup n (run {} before).1.channels with
    | none => exact absurd h0 h1
    | some c0 =>
      obtain ⟨g1, _⟩ := c100_disconnect before hfb env n c0 h0
      have hh' : (step env (run {} before).1 .disconnected).1.hung = false := by rw [step_hung _ _ _ (by intro data h; simp at h)]; exact hh
      have hk' := step_keys env _ .disconnected hk (by intro data h; simp at h)
      have := (run_channel _ since n _ hh' hk' g1 hfs h2).1
      rw [run_append] at hc
      simp only [run] at hc
      rw [this] at hc
      injection hc with hc
      rw [← hc]
      exact Channel.closed_run _ _ rfl

/-- Channel 1 was there when the connection was lost and stays closed; channel 2 is new, and so is channel 3, which the server closed and opened since. -/
example :
    let s := (thread {} [({}, .binary (asc "li14ei1ee")), ({}, .binary (asc "li14ei3ee")), ({}, .disconnected), ({}, .ready),
      ({}, .binary (asc "li14ei2ee")), ({}, .binary (asc "li19ei3ee")), ({}, .binary (asc "li14ei3ee")), ({}, .binary (asc "li6ei1e1:xe"))] .exits).1
    ((WSClient.lookup 1 s.channels).map (·.closed), (WSClient.lookup 2 s.channels).map (·.closed), (WSClient.lookup 3 s.channels).map (·.closed)) =
      (some true, some false, some false) := by decide +kernel

end Verif.Props
