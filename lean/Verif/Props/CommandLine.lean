import Verif.Proofs.CommandLine
import Verif.Props.App
import Verif.Props.Shlex
/-!
C160: which command lines are understood, and what they mean.
C161: the serial and the token given on the command line are those that the agent uses.
C162: the command that is suggested after a failure shows the traceback.
-/
namespace Verif.CommandLine
open Verif

/-! ### C160 -/

/-- C160: a command line is accepted exactly if it consists of options as described, without `--help` and `--version`, and maybe the
subcommand at the end; the agent then gets for each option the value that was given last. -/
theorem c160_iff {digit : Char → Bool} (hd : Digits digit) (argv : List Text) (n : Ns) :
    parse digit argv = .ok n ↔ ∃ ss c, Line digit argv ss c ∧ Plain ss ∧ n = meaning ss c := by
  constructor
  · intro h
    unfold parse at h
    split at h
    · exact nomatch h
    · rename_i l hl
      split at h
      · exact nomatch h
      · exact nomatch h
      · rename_i m hm
        injection h with h
        subst h
        obtain ⟨_, ss, c, h1, h2, h3⟩ := walk_line hd _ argv (Nat.le_refl _) _ _ _ _ hl hm
        exact ⟨ss, c, h1, h2, by rw [h3, meaning_eq h1]⟩
  · rintro ⟨ss, c, h1, h2, rfl⟩
    obtain ⟨l, hl, hw⟩ := line_walk hd h1 h2
    unfold parse
    simp only [hl, hw, meaning_eq h1]

/-- C160: so a command line has at most one meaning. -/
theorem c160_unambiguous {digit : Char → Bool} (hd : Digits digit) {argv : List Text} {ss ts : List Setting} {c d : Option App.Cmd}
    (h1 : Line digit argv ss c) (hp1 : Plain ss) (h2 : Line digit argv ts d) (hp2 : Plain ts) : meaning ss c = meaning ts d := by
  have e1 := (c160_iff hd argv _).2 ⟨ss, c, h1, hp1, rfl⟩
  rw [(c160_iff hd argv _).2 ⟨ts, d, h2, hp2, rfl⟩] at e1
  injection e1 with e1
  exact e1.symm

/-- C160: all other lines end the process, with status 0 (help or version) or 2. -/
theorem c160_exit (digit : Char → Bool) (argv : List Text) (code : Nat) (h : parse digit argv = .error code) : code = 0 ∨ code = 2 := by
  unfold parse at h
  split at h
  · injection h with h; exact .inr h.symm
  · split at h
    · rename_i c hc
      injection h with h
      subst h
      exact walk_exit (subcommand digit) table (sub_exit digit) _ (.inr rfl) _ _ (Nat.le_refl _) _ _ _ hc
    · injection h with h; exact .inr h.symm
    · exact nomatch h

/-- ASCII digits. -/
def asciiDigit (c : Char) : Bool := '0' ≤ c && c ≤ '9'

theorem ascii_digits : Digits asciiDigit := ⟨by decide +kernel, by decide +kernel, by decide +kernel⟩

def exampleLine : List Text := ["-dqshttp://x".toList, "--seri".toList, "ab 1".toList, "--auth=-t=1".toList, "--serial".toList, "-5".toList, "run".toList]

example : parse asciiDigit exampleLine =
    .ok { debug := true, quiet := true, serverUrl := some "http://x".toList, serial := some "-5".toList, auth := some "-t=1".toList,
          cmd := some .run } := by decide +kernel
/-- A beginning that two options share. -/
example : parse asciiDigit ["--se".toList, "x".toList] = .error 2 := by decide +kernel
/-- `-vd`: the version is printed. -/
example : parse asciiDigit ["-qv".toList, "run".toList] = .error 0 := by decide +kernel
/-- Options after the subcommand belong to it, and it has none. -/
example : parse asciiDigit ["run".toList, "--debug".toList] = .error 2 := by decide +kernel
example : parse asciiDigit [] = .ok {} := by decide +kernel
example : ∀ c ∈ ["run".toList, "version".toList], parse asciiDigit [c, "--helpx".toList] = .error 2 := by decide +kernel
/-- The help of a subcommand: status 0. -/
example : ∀ c ∈ ["run".toList, "version".toList], ∀ h ∈ ["-h".toList, "-hy".toList, "--help".toList, "--he".toList], parse asciiDigit [c, h] = .error 0 := by
  decide +kernel

/-! ### C161 -/

theorem names_dashes {p : Text} {o : Opt} (h : Names p o) : ∃ q, p = '-' :: '-' :: q := by
  obtain ⟨⟨q, hq⟩, _⟩ := h
  exact ⟨q, by rw [← hq]; rfl⟩

theorem group_dash {q : Text} {ss : List Setting} {w : Option Opt} (h : Group ('-' :: q) ss w) : False := by
  obtain ⟨o, ho, _⟩ := (group_iff _ _ _ _).1 h
  rw [letter_dash] at ho
  exact nomatch ho

/-- C161: a name of an option with its value in the next string is understood exactly if that string can stand alone as a value. -/
theorem c161_value {digit : Char → Bool} (hd : Digits digit) {p : Text} {o : Opt} (hN : Names p o) (hf : ¬ o.IsFlag) (v : Text)
    (l : List Text) (n : Ns) :
    parse digit (p :: v :: l) = .ok n ↔
      Value digit v ∧ ∃ ss c, Line digit l ss c ∧ Plain ss ∧ n = meaning ((o, some v) :: ss) c := by
  rw [c160_iff hd]
  constructor
  · rintro ⟨ss, c, h1, h2, h3⟩
    obtain ⟨q, hq⟩ := names_dashes hN
    generalize hargv : p :: v :: l = argv at h1
    cases h1 with
    | nil => exact nomatch hargv
    | run => injection hargv with h; rw [hq] at h; injection h with h; exact absurd h (by decide)
    | version => injection hargv with h; rw [hq] at h; injection h with h; exact absurd h (by decide)
    | @item a ss' l' ts _ hi hl =>
      cases hi with
      | @group e _ hg =>
        injection hargv with h
        rw [hq] at h
        injection h with _ h
        rw [← h] at hg
        exact (group_dash hg).elim
      | @groupValue e _ _ _ hg =>
        injection hargv with h
        rw [hq] at h
        injection h with _ h
        rw [← h] at hg
        exact (group_dash hg).elim
      | @long p' o' hN' hf' =>
        injection hargv with h
        subst h
        rw [← hN'.2.2 o hN.2.1] at hf'
        exact absurd hf' hf
      | @equals p' o' v' hN' hf' =>
        injection hargv with h
        exact absurd (h ▸ List.mem_append_right p' (List.mem_cons_self) : '=' ∈ p) (names_noeq hN)
      | @longValue p' o' v' hN' hf' hv' =>
        injection hargv with h hargv
        injection hargv with hv hargv
        subst h; subst hv
        replace hargv : l = l' := hargv
        subst hargv
        rw [← hN'.2.2 o hN.2.1] at h2 h3
        exact ⟨hv', ts, c, hl, (plain_append.1 h2).2, h3⟩
  · rintro ⟨hv, ss, c, h1, h2, rfl⟩
    refine ⟨_, c, .item (a := [p, v]) (.longValue hN hf hv) h1, plain_append.2 ⟨fun s hs => ?_, h2⟩, rfl⟩
    rw [List.mem_singleton.1 hs]
    exact not_flag_plain hf

theorem not_flag_serial : ¬ Opt.IsFlag .serial := by simp [Opt.IsFlag]
theorem not_flag_auth : ¬ Opt.IsFlag .auth := by simp [Opt.IsFlag]

/-- The namespace for a serial and a token. -/
def withBoth (s t : Text) : Ns := { serial := some s, auth := some t, cmd := some .run }

/-- C161, the part that holds for all values: written with `=`, the serial and the token are taken as they are, and, unless they are empty,
the agent uses them whatever the files hold. -/
theorem c161_equals_partial {digit : Char → Bool} (hd : Digits digit) (s t : Text) :
    parse digit [Opt.long .serial ++ '=' :: s, Opt.long .auth ++ '=' :: t, "run".toList] = .ok (withBoth s t) ∧
      (s ≠ [] → t ≠ [] → ∀ sf tf, App.credentials (withBoth s t).serial (withBoth s t).auth sf tf = some (s, t)) := by
  constructor
  · rw [c160_iff hd]
    refine ⟨_, _, .item (.equals (names_exact .serial) not_flag_serial) (.item (.equals (names_exact .auth) not_flag_auth) .run), ?_, ?_⟩
    · intro x hx
      simp only [List.append_nil, List.singleton_append, List.mem_cons, List.not_mem_nil, or_false] at hx
      rcases hx with rfl | rfl
      · exact not_flag_plain not_flag_serial
      · exact not_flag_plain not_flag_auth
    · rfl
  · intro hs ht sf tf
    cases s with
    | nil => exact absurd rfl hs
    | cons a s => cases t with
      | nil => exact absurd rfl ht
      | cons b t => rfl

/-- C161, exactly for values in strings of their own: both must be able to stand alone. -/
theorem c161_iff {digit : Char → Bool} (hd : Digits digit) (s t : Text) :
    parse digit [Opt.long .serial, s, Opt.long .auth, t, "run".toList] = .ok (withBoth s t) ↔ Value digit s ∧ Value digit t := by
  rw [c161_value hd (names_exact .serial) not_flag_serial]
  constructor
  · rintro ⟨h1, ss, c, h2, h3, _⟩
    refine ⟨h1, ?_⟩
    have := (c160_iff hd [Opt.long .auth, t, "run".toList] _).2 ⟨ss, c, h2, h3, rfl⟩
    exact ((c161_value hd (names_exact .auth) not_flag_auth _ _ _).1 this).1
  · rintro ⟨h1, h2⟩
    refine ⟨h1, _, _, .item (.longValue (names_exact .auth) not_flag_auth h2) .run, ?_, rfl⟩
    intro x hx
    simp only [List.append_nil, List.mem_cons, List.not_mem_nil, or_false] at hx
    rw [hx]
    exact not_flag_plain not_flag_auth

/-- C161 is false for a token that begins with a dash: the agent does not start. -/
theorem c161_false : parse asciiDigit [Opt.long .serial, "s1".toList, Opt.long .auth, "-abc".toList, "run".toList] = .error 2 := by decide +kernel

/-- A token such as `-d` is not taken for a value either; `-1.5` is. -/
example : parse asciiDigit [Opt.long .auth, "-d".toList, "run".toList] = .error 2 := by decide +kernel
example : parse asciiDigit [Opt.long .auth, "-1.5".toList, "run".toList] = .ok { auth := some "-1.5".toList, cmd := some .run } := by decide +kernel
example : parse asciiDigit ["--serial=--run".toList, "--auth=".toList, "run".toList] = .ok (withBoth "--run".toList []) := by decide +kernel

/-! ### C162 -/

/-- C162: with `--debug` in front a line means the same and asks for tracebacks. -/
theorem c162_debug {digit : Char → Bool} (hd : Digits digit) {argv : List Text} {n : Ns} (h : parse digit argv = .ok n) :
    parse digit (Opt.long .debug :: argv) = .ok { n with debug := true } := by
  rw [c160_iff hd] at h ⊢
  obtain ⟨ss, c, h1, h2, rfl⟩ := h
  refine ⟨[(.debug, none)] ++ ss, c, .item (a := [_]) (.long (names_exact .debug) (by simp [Opt.IsFlag])) h1, plain_append.2 ⟨?_, h2⟩, ?_⟩
  · intro s hs
    rw [List.mem_singleton.1 hs]
    exact ⟨nofun, nofun⟩
  · rfl

/-- C162: if the command fails and the suggestion is printed, the suggested arguments show the traceback if it fails again. -/
theorem c162_traceback {digit : Char → Bool} (hd : Digits digit) (upper : Text → Text) (usable : Text → Bool) (argv : List Text)
    (cmd : App.Cmd → Bool) (h : main digit upper usable argv cmd = .exit (-1)) :
    main digit upper usable (Opt.long .debug :: argv) cmd = .traceback := by
  unfold main at h ⊢
  cases hp : parse digit argv with
  | error c =>
    rw [hp] at h
    simp only at h
    injection h with h
    omega
  | ok n =>
    rw [hp] at h
    simp only [c162_debug hd hp]
    simp only at h
    have hinit : App.initLogging upper (Ns.args { n with debug := true } usable) = App.initLogging upper (n.args usable) := rfl
    unfold App.main at h ⊢
    rw [hinit]
    have hr : App.initLogging upper (n.args usable) ≠ .error .reported := by
      simp only [App.initLogging]
      split
      · exact fun h => nomatch h
      · split <;> exact fun h => nomatch h
    split at h
    · contradiction
    · exact nomatch h
    · rename_i k hk
      have hcmd : (Ns.args { n with debug := true } usable).cmd = (n.args usable).cmd := rfl
      have hdbg : (Ns.args { n with debug := true } usable).debug = true := rfl
      rw [hcmd, hdbg]
      cases hc : (n.args usable).cmd with
      | none => rw [hc] at h; simp only at h; injection h with h; exact absurd h (by decide)
      | some c =>
        rw [hc] at h
        simp only at h ⊢
        cases hx : cmd c with
        | true => rw [hx] at h; simp only [if_true] at h; injection h with h; exact absurd h (by decide)
        | false => simp only [if_true]; rfl

/-- The length of words with a separator after each. -/
def total (ws : List Text) : Nat := (ws.map (·.length + 1)).sum

theorem inside_length {s v : Text} (h : Shlex.Inside s v) : v.length ≤ s.length := by
  induction h <;> simp_all <;> omega

theorem piece_length {s v : Text} (h : Shlex.Piece s v) : v.length ≤ s.length ∧ (v.length = s.length → Simple v) := by
  cases h with
  | plain hw h =>
    refine ⟨Nat.le_refl _, fun _ => ⟨by simp, ?_⟩⟩
    intro c hc
    rw [List.mem_singleton.1 hc]
    exact ⟨hw, h⟩
  | escaped => simp
  | single => simp; omega
  | double h => have := inside_length h; simp; omega

theorem pieces_length {s v : Text} (h : Shlex.Pieces s v) : v.length ≤ s.length ∧
    (v.length = s.length → ∀ c ∈ v, ¬ Shlex.White c ∧ c ∉ ['\\', '\'', '"']) := by
  induction h with
  | nil => exact ⟨Nat.le_refl _, fun _ c hc => nomatch hc⟩
  | cons hp _ ih =>
    have h1 := piece_length hp
    simp only [List.length_append]
    refine ⟨by omega, fun he c hc => ?_⟩
    rcases List.mem_append.1 hc with hc | hc
    · exact (h1.2 (by omega)).2 c hc
    · exact ih.2 (by omega) c hc

theorem word_length {s v t w : Text} (h1 : Shlex.Piece s v) (h2 : Shlex.Pieces t w) : (v ++ w).length ≤ (s ++ t).length ∧
    ((v ++ w).length = (s ++ t).length → Simple (v ++ w)) := by
  have e1 := piece_length h1
  have e2 := pieces_length h2
  simp only [List.length_append]
  refine ⟨by omega, fun he => ?_⟩
  have hs := e1.2 (by omega)
  refine ⟨fun h => hs.1 (List.append_eq_nil_iff.1 h).1, fun c hc => ?_⟩
  rcases List.mem_append.1 hc with hc | hc
  · exact hs.2 c hc
  · exact e2.2 (by omega) c hc

/-- Words are not longer than the line, and as long only if nothing is quoted. -/
theorem line_length {s : Text} {ws : List Text} (h : Shlex.Line s ws) : total ws ≤ s.length + 1 ∧
    (total ws = s.length + 1 → ∀ w ∈ ws, Simple w) := by
  induction h with
  | nil => exact ⟨by simp [total], fun h => by simp [total] at h⟩
  | white _ _ ih => simp only [List.length_cons]; exact ⟨by omega, fun h => by omega⟩
  | last h1 h2 =>
    have e := word_length h1 h2
    simp only [total, List.map_cons, List.map_nil, List.sum_cons, List.sum_nil]
    refine ⟨by omega, fun he w hw => ?_⟩
    rw [List.mem_singleton.1 hw]
    exact e.2 (by omega)
  | @word s v t w c r ws h1 h2 _ _ ih =>
    have e := word_length h1 h2
    have ht : total ((v ++ w) :: ws) = (v ++ w).length + 1 + total ws := by simp [total]
    have hl : (s ++ (t ++ c :: r)).length = (s ++ t).length + 1 + r.length := by simp; omega
    rw [ht, hl]
    refine ⟨by omega, fun he x hx => ?_⟩
    rcases List.mem_cons.1 hx with rfl | hx
    · exact e.2 (by omega)
    · exact ih.2 (by omega) x hx

/-- Words joined with spaces: the text of the suggestion. -/
def joined (ws : List Text) : Text := (ws.intersperse [' ']).flatten

theorem joined_cons (w w' : Text) (ws : List Text) : joined (w :: w' :: ws) = w ++ ' ' :: joined (w' :: ws) := by
  simp [joined]

theorem joined_length (w : Text) (ws : List Text) : (joined (w :: ws)).length + 1 = total (w :: ws) := by
  induction ws generalizing w with
  | nil => simp [joined, total]
  | cons w' ws ih =>
    rw [joined_cons]
    have := ih w'
    have ht : total (w :: w' :: ws) = w.length + 1 + total (w' :: ws) := by simp [total]
    rw [ht]
    simp only [List.length_append, List.length_cons]
    omega

theorem simple_pieces {w : Text} (h : ∀ c ∈ w, ¬ Shlex.White c ∧ c ∉ ['\\', '\'', '"']) : Shlex.Pieces w w := by
  induction w with
  | nil => exact .nil
  | cons c w ih => exact .cons (s := [c]) (v := [c]) (.plain (h c (by simp)).1 (h c (by simp)).2) (ih (fun x hx => h x (by simp [hx])))

theorem joined_line (ws : List Text) (h : ∀ w ∈ ws, Simple w) : Shlex.Line (joined ws) ws := by
  induction ws with
  | nil => exact .nil
  | cons w ws ih =>
    obtain ⟨hne, hw⟩ := h w (by simp)
    cases w with
    | nil => exact absurd rfl hne
    | cons c w =>
      have hp : Shlex.Piece [c] [c] := .plain (hw c (by simp)).1 (hw c (by simp)).2
      have hps : Shlex.Pieces w w := simple_pieces (fun x hx => hw x (by simp [hx]))
      cases ws with
      | nil =>
        have := Shlex.Line.last hp hps
        simpa [joined] using this
      | cons w' ws =>
        rw [joined_cons]
        have := Shlex.Line.word hp hps (c := ' ') (by simp [Shlex.White]) (ih (fun x hx => h x (by simp [hx])))
        simpa using this

/-- C162, exactly: the words of the printed command are the program with `--debug` and the arguments, if and only if no word is empty or has
white space, quotes or backslashes in it. -/
theorem c162_text_iff (program : Text) (argv : List Text) :
    Shlex.split (suggestion program argv) = .ok (baseName program :: Opt.long .debug :: argv) ↔
      Simple (baseName program) ∧ ∀ a ∈ argv, Simple a := by
  have hs : suggestion program argv = joined (baseName program :: Opt.long .debug :: argv) := rfl
  have hd : Simple (Opt.long .debug) := by
    refine ⟨nofun, ?_⟩
    unfold Shlex.White
    decide +kernel
  rw [Shlex.split_iff, hs]
  constructor
  · intro h
    have := (line_length h).2 (joined_length _ _).symm
    exact ⟨this _ (by simp), fun a ha => this a (by simp [ha])⟩
  · rintro ⟨h1, h2⟩
    refine joined_line _ (fun w hw => ?_)
    rcases List.mem_cons.1 hw with rfl | hw
    · exact h1
    · rcases List.mem_cons.1 hw with rfl | hw
      · exact hd
      · exact h2 w hw

/-- C162: the name of the program is what follows the last slash. -/
theorem c162_program (d b : Text) (h : '/' ∉ b) : baseName (d ++ '/' :: b) = b ∧ baseName b = b := by
  have hb : ∀ r : Text, (b.reverse ++ r).takeWhile (fun c => decide (c ≠ '/')) = b.reverse ++ r.takeWhile (fun c => decide (c ≠ '/')) := by
    intro r
    rw [List.takeWhile_append_of_pos]
    intro c hc
    have : c ∈ b := List.mem_reverse.1 hc
    simp only [ne_eq, decide_not, Bool.not_eq_true', decide_eq_false_iff_not]
    rintro rfl
    exact h this
  constructor
  · unfold baseName
    rw [List.reverse_append, List.reverse_cons, List.append_assoc, hb]
    simp
  · unfold baseName
    have := hb []
    simp only [List.append_nil, List.takeWhile_nil] at this
    rw [this, List.reverse_reverse]

/-- C162 is false for an argument with a space: the suggested command means something else. -/
theorem c162_space_false : ∃ argv, parse asciiDigit argv = .ok { remoteDir := some "/my files".toList, cmd := some .run } ∧
    Shlex.split (suggestion "/usr/bin/dataplicity".toList argv) =
      .ok ["dataplicity".toList, Opt.long .debug, "--remote-dir".toList, "/my".toList, "files".toList, "run".toList] ∧
    parse asciiDigit [Opt.long .debug, "--remote-dir".toList, "/my".toList, "files".toList, "run".toList] = .error 2 :=
  ⟨["--remote-dir".toList, "/my files".toList, "run".toList], by decide +kernel⟩

example : suggestion "/usr/bin/dataplicity".toList ["-q".toList, "run".toList] = "dataplicity --debug -q run".toList := by decide +kernel
example : main asciiDigit id (fun _ => true) ["-q".toList, "run".toList] (fun _ => false) = .exit (-1) := by decide +kernel
example : main asciiDigit id (fun _ => true) ["--debug".toList, "-q".toList, "run".toList] (fun _ => false) = .traceback := by decide +kernel

end Verif.CommandLine
