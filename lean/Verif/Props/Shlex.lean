import Verif.Proofs.Shlex
/-!
C150: the command of a terminal (`dataplicity/m2m/remoteprocess.py`, `dataplicity/m2m/proxy.py`).
-/
namespace Verif.Shlex
open Verif

/-- C150: `shlex.split` gives exactly the words of a command line. -/
theorem c150_words (s : Text) (ws : List Text) : split s = .ok ws ↔ Line s ws := split_iff s ws

/-- C150: so a command line has at most one reading. -/
theorem c150_unambiguous {s : Text} {ws ws' : List Text} (h : Line s ws) (h' : Line s ws') : ws = ws' := by
  have := (split_iff s ws).2 h
  rw [(split_iff s ws').2 h'] at this
  injection this with this
  exact this.symm

theorem quote_pieces (a : Text) : ∀ pre : Text, '\'' ∉ pre →
    Pieces ('\'' :: (pre ++ (a.flatMap fun c => if c = '\'' then "'\\''".toList else [c]) ++ ['\''])) (pre ++ a) := by
  induction a with
  | nil =>
    intro pre h
    have := Pieces.cons (.single h) .nil
    simpa using this
  | cons c a ih =>
    intro pre h
    by_cases hc : c = '\''
    · subst hc
      have := Pieces.cons (.single h) (.cons (.escaped '\'') (ih [] (by simp)))
      simpa using this
    · have := ih (pre ++ [c]) (by simp only [List.mem_append, List.mem_singleton, not_or]; exact ⟨h, fun e => hc e.symm⟩)
      simpa [hc] using this

/-- C150: every list of arguments has a command line: each argument in quotes. -/
theorem c150_quoted (args : List Text) : split (quoteAll args) = .ok args := by
  rw [split_iff]
  induction args with
  | nil => exact .nil
  | cons a args ih =>
    have h := quote_pieces a [] (by simp)
    have key : ∀ s v, Pieces s v → s ≠ [] → Line (s ++ ' ' :: quoteAll args) (v :: args) := by
      intro s v hs hne
      cases hs with
      | nil => exact absurd rfl hne
      | cons h1 h2 =>
        rw [List.append_assoc]
        exact .word h1 h2 (by simp [White]) ih
    have := key _ _ h (by simp)
    simpa [quoteAll, quoteArg] using this

/-- C150: a program is executed exactly if the command names it, as its first word, with all words as arguments; a command without words is the
program that the variable SHELL names. -/
theorem c150_exec (shell : Option Text) (command p : Text) (argv : List Text) :
    start shell command = .exec p argv ↔ (Line command argv ∧ argv.head? = some p) ∨ (Line command [] ∧ shell = some p ∧ argv = [p]) := by
  unfold start
  cases h : split command with
  | error e =>
    refine ⟨fun h => (nomatch h), ?_⟩
    rintro (⟨h', -⟩ | ⟨h', -⟩) <;> rw [← split_iff, h] at h' <;> exact (nomatch h')
  | ok ws =>
    have hl := (split_iff _ _).1 h
    cases ws with
    | nil =>
      cases shell with
      | none =>
        refine ⟨fun h => (nomatch h), ?_⟩
        rintro (⟨h', hp⟩ | ⟨-, hp, -⟩)
        · rw [← c150_unambiguous hl h'] at hp; exact (nomatch hp)
        · exact (nomatch hp)
      | some sh =>
        constructor
        · intro e
          injection e with e1 e2
          subst e1
          exact .inr ⟨hl, rfl, e2.symm⟩
        · rintro (⟨h', hp⟩ | ⟨-, hp, e⟩)
          · rw [← c150_unambiguous hl h'] at hp; exact (nomatch hp)
          · injection hp with hp; rw [hp, e]
    | cons a rest =>
      constructor
      · intro e
        injection e with e1 e2
        rw [← e1, ← e2]
        exact .inl ⟨hl, rfl⟩
      · rintro (⟨h', hp⟩ | ⟨h', -, -⟩)
        · rw [← c150_unambiguous hl h'] at hp ⊢
          injection hp with hp
          rw [hp]
        · exact (nomatch c150_unambiguous hl h')

/-- C150: exactly for a command that has no reading no process is started (the slot of the terminal is given back, C30). -/
theorem c150_raises (shell : Option Text) (command : Text) : start shell command = .raised ↔ ∀ ws, ¬ Line command ws := by
  constructor
  · intro h ws hl
    rw [← split_iff] at hl
    unfold start at h
    rw [hl] at h
    cases ws with
    | nil => cases shell <;> exact (nomatch h)
    | cons a r => exact (nomatch h)
  · intro h
    unfold start
    cases hs : split command with
    | error e => rfl
    | ok ws => exact absurd ((split_iff _ _).1 hs) (h ws)

/-- The terminal of the agent. -/
example : start none "bash -i".toList = .exec "bash".toList ["bash".toList, "-i".toList] := by decide +kernel

/-- Quotes, escapes, an empty argument; a quote that is not closed; no words. -/
example : split " sh -c 'echo \"$1\"' a\\ b \"\\\"\\n\" ''".toList =
      .ok ["sh".toList, "-c".toList, "echo \"$1\"".toList, "a b".toList, "\"\\n".toList, []] ∧
    start (some "/bin/sh".toList) "echo 'a".toList = .raised ∧
    start (some "/bin/sh".toList) " \t".toList = .exec "/bin/sh".toList ["/bin/sh".toList] ∧ start none [] = .noShell := by decide +kernel

end Verif.Shlex
