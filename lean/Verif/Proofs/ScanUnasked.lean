import Verif.Proofs.ScanRun
/-!
Scans that are asked for by instructions only (for C120).
-/
namespace Verif.ScanWire
open Verif WSClient RemoteDirectory Instructions

theorem request_packet (s : DirectoryScanner.State) (p : Bool) (st : Option Text) :
    (DirectoryScanner.request s p st).packet = fun u => if u = s.next then p else s.packet u := by
  simp only [DirectoryScanner.request]
  repeat' split
  all_goals rfl

/-- Without a packet that asks for it, no scan is asked for as by a packet. -/
theorem client_unasked (env : WSClient.Env) (s : St) (hs : s.hung = false) (e : Ev)
    (hf : ∀ data, e = .binary data → ¬ Hangs data ∧ data.length ≤ maxSize) (ha : requestIn e ≠ some .scan) :
    true ∉ (WSClient.step env s e).2.filterMap scanRequest := by
  have h1 := step_requests env s hs e hf
  intro hm
  obtain ⟨o, ho, hr⟩ := List.mem_filterMap.1 hm
  unfold scanRequest at hr
  split at hr
  · have := List.mem_filter.2 (⟨ho, rfl⟩ : _ ∧ isRequest (.remote 29 []) = true)
    have h2 : some Request.scan ∈ ((WSClient.step env s e).2.filter isRequest).map passedOn := List.mem_map.2 ⟨_, this, rfl⟩
    rw [h1] at h2
    obtain ⟨r, h3, h4⟩ := List.mem_map.1 h2
    injection h4 with h4
    subst h4
    exact ha (Option.mem_toList.1 h3)
  · split at hr
    · split at hr
      · injection hr with hr; exact (nomatch hr)
      · exact (nomatch hr)
    · exact (nomatch hr)
  · exact (nomatch hr)

/-- An instruction to scan asks for a scan, not as a packet does. -/
theorem client_instruction (env : WSClient.Env) (s : St) (hs : s.hung = false) (e : Ev)
    (hf : ∀ data, e = .binary data → ¬ Hangs data ∧ data.length ≤ maxSize) {sender : Bytes} {d : List (PyVal × PyVal)}
    (hi : requestIn e = some (.instruction sender d)) (hk : BytesKeys d) (ha : Action d "scan-directory") :
    (WSClient.step env s e).2.filterMap scanRequest = [false] := by
  have h1 := step_requests env s hs e hf
  have h2 : (WSClient.step env s e).2.filterMap scanRequest = ((WSClient.step env s e).2.filter isRequest).filterMap scanRequest := by
    generalize (WSClient.step env s e).2 = l
    induction l with
    | nil => rfl
    | cons o l ih =>
      by_cases h : isRequest o = true
      · rw [List.filter_cons_of_pos h, List.filterMap_cons, List.filterMap_cons, ih]
      · rw [List.filter_cons_of_neg h, List.filterMap_cons, ih]
        have : scanRequest o = none := by cases o <;> simp [isRequest] at h <;> rfl
        rw [this]
  rw [h2]
  generalize (WSClient.step env s e).2.filter isRequest = l at h1
  rw [hi] at h1
  obtain ⟨o, rfl, ho⟩ : ∃ o, l = [o] ∧ passedOn o = some (.instruction sender d) := by
    cases l with
    | nil => simp at h1
    | cons a l =>
      cases l with
      | nil => exact ⟨a, rfl, by simpa using h1⟩
      | cons b l => simp at h1
  have hd : instruct ⟨[], false⟩ d = .ok [.scanned] := c87_done_partial hk (Asks.scan ha) .scan
  unfold passedOn at ho
  split at ho
  · injection ho with ho
    injection ho with _ ho
    subst ho
    simp [scanRequest, hd]
  all_goals first | exact (nomatch ho) | (injection ho with ho; exact (nomatch ho))

/-- A thread that may still report. -/
def going : DirectoryScanner.Phase → Bool
  | .waiting | .scanning | .scanned _ | .writing _ _ | .written _ => true
  | _ => false

/-- The number of requests by packet that may still be answered. -/
def due (s : DirectoryScanner.State) : Nat := (List.range s.next).countP (fun t => s.packet t && going (s.phase t))

/-- Threads have numbers below the next one. -/
def Fresh (s : DirectoryScanner.State) : Prop := ∀ t, s.next ≤ t → s.phase t = .absent

theorem countP_le {f g : Nat → Bool} (n : Nat) (h : ∀ u, u < n → g u = true → f u = true) : (List.range n).countP g ≤ (List.range n).countP f := by
  induction n with
  | zero => exact Nat.le_refl _
  | succ n ih =>
    have := ih (fun u hu => h u (by omega))
    rw [List.range_succ, List.countP_append, List.countP_append]
    have h2 : [n].countP g ≤ [n].countP f := by
      simp only [List.countP_singleton]
      by_cases hg : g n = true
      · rw [if_pos hg, if_pos (h n (by omega) hg)]; exact Nat.le_refl _
      · rw [if_neg hg]; exact Nat.zero_le _
    omega

theorem countP_lt {f g : Nat → Bool} (n t : Nat) (ht : t < n) (h : ∀ u, u < n → g u = true → f u = true) (hf : f t = true) (hg : g t = false) :
    (List.range n).countP g + 1 ≤ (List.range n).countP f := by
  induction n with
  | zero => omega
  | succ n ih =>
    rw [List.range_succ, List.countP_append, List.countP_append]
    simp only [List.countP_singleton]
    by_cases hn : t = n
    · subst hn
      have := countP_le t (fun u hu => h u (by omega))
      rw [if_pos hf, hg]
      simp only [Bool.false_eq_true, if_false]
      omega
    · have := ih (by omega) (fun u hu => h u (by omega))
      have h2 : (if g n = true then 1 else 0) ≤ (if f n = true then 1 else 0) := by
        by_cases hg' : g n = true
        · rw [if_pos hg', if_pos (h n (by omega) hg')]; exact Nat.le_refl _
        · rw [if_neg hg']; exact Nat.zero_le _
      omega

theorem fresh_request (s : DirectoryScanner.State) (h : Fresh s) (p : Bool) (st : Option Text) : Fresh (DirectoryScanner.request s p st) := by
  intro t ht
  rw [DirectoryScanner.request_next] at ht
  have h1 : t ≠ s.next := by omega
  have h2 := h t (by omega)
  simp only [DirectoryScanner.request]
  repeat' split
  all_goals simp [DirectoryScanner.State.set, h1, h2]

theorem due_request (s : DirectoryScanner.State) (p : Bool) (st : Option Text) :
    due (DirectoryScanner.request s p st) = due s + (if p = true ∧ s.lock = none ∧ st = none then 1 else 0) := by
  have key : ∀ q : DirectoryScanner.Phase, (DirectoryScanner.request s p st).phase = (fun u => if u = s.next then q else s.phase u) →
      due (DirectoryScanner.request s p st) = due s + if (p && going q) = true then 1 else 0 := by
    intro q hq
    unfold due
    rw [DirectoryScanner.request_next, hq, request_packet, List.range_succ, List.countP_append, List.countP_singleton]
    simp only [if_true]
    congr 1
    apply List.countP_congr
    intro u hu
    have : u ≠ s.next := by have := List.mem_range.1 hu; omega
    simp [this]
  by_cases hl : s.lock = none
  · cases st with
    | none =>
      rw [key .waiting (by simp [DirectoryScanner.request, hl, DirectoryScanner.State.set])]
      simp [going, hl]
    | some e =>
      rw [key (.unstarted e) (by cases p <;> simp [DirectoryScanner.request, hl, DirectoryScanner.State.set] <;> rfl)]
      simp [going]
  · rw [key .refused (by simp [DirectoryScanner.request, hl, DirectoryScanner.State.set])]
    simp [going, hl]

theorem due_requests (l : List Bool) (hl : true ∉ l) (st : Option Text) (s : DirectoryScanner.State) (h : Fresh s) :
    Fresh (l.foldl (fun s p => DirectoryScanner.request s p st) s) ∧ due (l.foldl (fun s p => DirectoryScanner.request s p st) s) = due s := by
  induction l generalizing s with
  | nil => exact ⟨h, rfl⟩
  | cons p l ih =>
    have hp : p = false := by cases p with | false => rfl | true => exact absurd (by simp) hl
    obtain ⟨h1, h2⟩ := ih (fun hm => hl (by simp [hm])) (DirectoryScanner.request s p st) (fresh_request s h p st)
    refine ⟨h1, ?_⟩
    rw [List.foldl_cons, h2, due_request, hp]
    simp

/-- A thread goes from one phase to another. -/
theorem due_set (s s' : DirectoryScanner.State) (h : Fresh s) (t : Nat) (q : DirectoryScanner.Phase) (hn : s'.next = s.next) (hp : s'.packet = s.packet)
    (hs : s'.phase = fun u => if u = t then q else s.phase u) (hg : going (s.phase t) = true) :
    Fresh s' ∧ due s' ≤ due s ∧ (s.packet t = true → going q = false → due s' + 1 ≤ due s) := by
  have ht : t < s.next := by
    apply Classical.byContradiction
    intro hlt
    rw [h t (by omega)] at hg
    exact (nomatch hg)
  have hle : ∀ u, u < s.next → (s.packet u && going (if u = t then q else s.phase u)) = true → (s.packet u && going (s.phase u)) = true := by
    intro u _ hu
    by_cases e : u = t
    · subst e
      simp only [if_true, Bool.and_eq_true] at hu
      simp [hu.1, hg]
    · simpa [e] using hu
  refine ⟨fun u hu => ?_, ?_, fun h1 h2 => ?_⟩
  · rw [hn] at hu
    rw [hs]
    have : u ≠ t := by omega
    simp only [this, if_false]
    exact h u hu
  · unfold due
    rw [hn, hp, hs]
    exact countP_le _ hle
  · unfold due
    rw [hn, hp, hs]
    exact countP_lt _ t ht hle (by simp [h1, hg]) (by simp [h2])

/-- A step that is answered at most once, and then counts. -/
def Fine (s s' : DirectoryScanner.State) : Prop := Fresh s' ∧ due s' + (if s'.replies = s.replies then 0 else 1) ≤ due s

theorem due_step (s : DirectoryScanner.State) (h : Fresh s) (op : DirectoryScanner.Op) (ho : ∀ p st, op ≠ .request p st) :
    Fine s (DirectoryScanner.step s op) := by
  have gen : ∀ (s' : DirectoryScanner.State) (t : Nat) (q : DirectoryScanner.Phase), s'.next = s.next → s'.packet = s.packet →
      s'.phase = (fun u => if u = t then q else s.phase u) → going (s.phase t) = true → s'.replies = s.replies →
      Fine s s' := by
    intro s' t q h1 h2 h3 h4 h5
    obtain ⟨k1, k2, -⟩ := due_set s s' h t q h1 h2 h3 h4
    exact ⟨k1, by rw [if_pos h5]; exact k2⟩
  have same : Fine s s := ⟨h, by simp⟩
  cases op with
  | request p st => exact absurd rfl (ho p st)
  | acquire t =>
    simp only [DirectoryScanner.step]
    split
    · rename_i hp
      split
      · exact gen _ t .scanning rfl rfl rfl (by rw [hp]; rfl) rfl
      · exact same
    · exact same
  | scan t out =>
    simp only [DirectoryScanner.step]
    split
    · rename_i hp
      split
      · exact gen _ t _ rfl rfl rfl (by rw [hp]; rfl) rfl
      · exact gen _ t _ rfl rfl rfl (by rw [hp]; rfl) rfl
    · exact same
  | openFile t ok =>
    simp only [DirectoryScanner.step]
    split
    · rename_i hp
      split
      · exact gen _ t _ rfl rfl rfl (by rw [hp]; rfl) rfl
      · exact gen _ t _ rfl rfl rfl (by rw [hp]; rfl) rfl
    · exact same
  | write t n =>
    simp only [DirectoryScanner.step]
    split
    · rename_i hp
      exact gen _ t _ rfl rfl rfl (by rw [hp]; rfl) rfl
    · exact same
  | writeFails t =>
    simp only [DirectoryScanner.step]
    split
    · rename_i hp
      exact gen _ t _ rfl rfl rfl (by rw [hp]; rfl) rfl
    · exact same
  | close t =>
    simp only [DirectoryScanner.step]
    split
    · rename_i hp
      exact gen _ t _ rfl rfl rfl (by rw [hp]; rfl) rfl
    · exact same
  | report t ok =>
    simp only [DirectoryScanner.step]
    split
    · rename_i json hp
      by_cases hs : (s.packet t && ok) = true
      · simp only [hs, if_true]
        obtain ⟨k1, -, k3⟩ := due_set s { s.set t (.finished json true) with lock := none, replies := s.replies ++ [(t, [])] } h t _ rfl rfl rfl
          (by rw [hp]; rfl)
        refine ⟨k1, ?_⟩
        have := k3 (by simp at hs; exact hs.1) rfl
        split
        · exact Nat.le_of_succ_le this
        · exact this
      · rw [if_neg hs]
        exact gen _ t _ rfl rfl rfl (by rw [hp]; rfl) rfl
    · exact same

/-- What is told, and what may still be told, is at most what was asked for. -/
theorem run_due (c : Cfg) (ms : List Move) (s : Sys) (hh : s.files.client.hung = false) (hq : Fresh s.scan) (hf : ∀ m ∈ ms, m.fair)
    (hz : Sized (run c s ms).2) : (results (run c s ms).2).length ≤ due s.scan + ms.countP Move.asks := by
  induction ms generalizing s with
  | nil => simp [run, results, sentOf]
  | cons m ms ih =>
    simp only [run] at hz ⊢
    rw [sized_append] at hz
    have key : (step c s m).1.files.client.hung = false ∧ Fresh (step c s m).1.scan ∧
        (results (step c s m).2).length + due (step c s m).1.scan ≤ due s.scan + (if m.asks then 1 else 0) := by
      cases m with
      | event env start e =>
        have hfe : ∀ data, e = .binary data → ¬ Hangs data ∧ data.length ≤ maxSize := hf (.event env start e) (by simp)
        have hz1 := hz.1
        simp only [step] at hz1 ⊢
        have hlock : (if s.scan.lock = none then start else none) ≠ none → s.scan.lock = none := by
          intro h
          split at h
          · assumption
          · exact absurd rfl h
        generalize (if s.scan.lock = none then start else none) = st at hz1 hlock ⊢
        generalize hen : ({ env with client := { env.client with scanError := st } } : RemoteFiles.Env) = env' at hz1 ⊢
        have hse : env'.client.scanError = st := by rw [← hen]
        obtain ⟨g1, -, -, -⟩ := RemoteFiles.event_spec (RemoteFiles.openAnswer []) (RemoteFiles.open_deaf _) c s.files hh env' e hfe hz1
        have hreq : (RemoteFiles.step c s.files (.event env' e)).2.filterMap scanRequest = (WSClient.step env'.client s.files.client e).2.filterMap scanRequest := by
          simp only [RemoteFiles.step]
          rw [pass_requests]
        have hres : results (RemoteFiles.step c s.files (.event env' e)).2 = [] ∨ (requestIn e = some .scan ∧ st ≠ none ∧
            (results (RemoteFiles.step c s.files (.event env' e)).2).length ≤ 1) := by
          simp only [RemoteFiles.step] at hz1 ⊢
          rw [pass_results _ _ _ _ hz1, ← hse]
          exact client_results env'.client s.files.client hh e hfe (sized_pass _ _ _ _ hz1)
        rw [hreq, asks_event]
        by_cases ha : requestIn e = some .scan
        · rw [client_requests env'.client s.files.client hh e hfe (fun sender d h => by rw [ha] at h; exact (nomatch h)), ha]
          simp only [List.foldl_cons, List.foldl_nil, if_true]
          refine ⟨g1, fresh_request _ hq _ _, ?_⟩
          rw [due_request]
          rcases hres with h | ⟨-, h1, h2⟩
          · rw [h]
            split <;> simp
          · have : ¬ (True ∧ s.scan.lock = none ∧ st = none) := fun h => h1 h.2.2
            simp only [h1, and_false, if_false]
            omega
        · obtain ⟨d1, d2⟩ := due_requests _ (client_unasked env'.client s.files.client hh e hfe ha) st s.scan hq
          refine ⟨g1, d1, ?_⟩
          rw [d2]
          rcases hres with h | ⟨h, _⟩
          · rw [h]; simp
          · exact absurd h ha
      | thread op =>
        by_cases hr : ∃ p st, op = .request p st
        · obtain ⟨p, st, rfl⟩ := hr
          exact ⟨hh, hq, by simp [step, results, sentOf]⟩
        · have h : ∀ p st, op ≠ .request p st := fun p st e => hr ⟨p, st, e⟩
          obtain ⟨q1, q2⟩ := due_step { s.scan with file := fileAt c s.files.fs } hq _ (allowed_not_request c s.files.fs op h)
          have q2' : due (after c s op) + (if (after c s op).replies = s.scan.replies then 0 else 1) ≤ due s.scan := q2
          rw [step_thread c s op h]
          refine ⟨?_, q1, ?_⟩
          · dsimp only
            split <;> exact hh
          · by_cases he : (after c s op).replies = s.scan.replies
            · rw [if_pos he] at q2' ⊢
              simp only [results, sentOf, List.filterMap_nil, List.length_nil]
              omega
            · rw [if_neg he] at q2' ⊢
              rw [results_success]
              simp only [List.length_singleton]
              omega
      | change k n => exact ⟨hh, hq, by simp [step, results, sentOf]⟩
    have := ih _ key.1 key.2.1 (fun x hx => hf x (by simp [hx])) hz.2
    rw [results_append, List.length_append, List.countP_cons]
    have := key.2.2
    omega

end Verif.ScanWire
