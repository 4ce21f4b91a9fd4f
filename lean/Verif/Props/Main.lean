import Verif.Spec.Session
import Verif.Props.Words
import Verif.Props.Actuators
import Verif.Lemmas.Raises

/-!
# Properties C04, C55, C56: `main`
-/

namespace PyCNC

open Spec

section lines

variable [PyText]

/-- A character of a word. -/
def WordChar (c : Char) : Prop :=
  ('A' ≤ c ∧ c ≤ 'Z') ∨ (('0' ≤ c ∧ c ≤ '9') ∨ c = '.') ∨ c = '-' ∨ c = '+'

instance : DecidablePred WordChar := fun c => by unfold WordChar; infer_instance

theorem wordChar_facts {c : Char} (h : WordChar c) :
    PyText.upper c = [c] ∧ PyText.isSpace c = false ∧ c ≠ '(' ∧ c ≠ ';' := by
  have hr : 33 ≤ c.toNat ∧ c.toNat < 127 ∧ ¬ (97 ≤ c.toNat ∧ c.toNat ≤ 122) ∧ c ≠ '(' ∧ c ≠ ';' := by
    rcases h with ⟨h1, h2⟩ | (⟨h1, h2⟩ | rfl) | rfl | rfl
    · have h1' : 65 ≤ c.toNat := h1
      have h2' : c.toNat ≤ 90 := h2
      refine ⟨by omega, by omega, by omega, ?_, ?_⟩ <;> rintro rfl <;> revert h1 <;> decide
    · have h1' : 48 ≤ c.toNat := h1
      have h2' : c.toNat ≤ 57 := h2
      refine ⟨by omega, by omega, by omega, ?_, ?_⟩ <;> rintro rfl <;>
        [revert h1; revert h2] <;> decide
    all_goals decide
  obtain ⟨h1, h2, h3, h4, h5⟩ := hr
  refine ⟨?_, PyText.not_space_ascii c h1 h2, h4, h5⟩
  rw [PyText.upper_ascii c (by omega)]
  congr 1
  unfold Char.toUpper
  rw [dif_neg]
  intro h
  apply h3
  exact ⟨h.1, h.2⟩

/-- A line made of words without white space. -/
theorem parse_words {ws : List (Char × List Char)} (hb : Block ws)
    (hc : ∀ c ∈ wordsText ws, WordChar c) : parseLine (wordsText ws) = .ok (some ⟨ws⟩) := by
  have hu : ∀ l : List Char, (∀ c ∈ l, WordChar c) → l.flatMap PyText.upper = l ∧ Strip l l := by
    intro l hl
    induction l with
    | nil => exact ⟨rfl, .nil⟩
    | cons c cs ih =>
      obtain ⟨h1, h2, h3, h4⟩ := wordChar_facts (hl c (by simp))
      obtain ⟨h5, h6⟩ := ih fun d hd => hl d (by simp [hd])
      exact ⟨by rw [List.flatMap_cons, h1, h5]; rfl, .char h2 h3 h4 h6⟩
  unfold parseLine
  rw [parseClean_ok]
  obtain ⟨h1, h2⟩ := hu _ hc
  rw [h1, (strip_iff_clean _ _).1 h2]
  exact ⟨rfl, hb⟩

end lines

variable [PyText]

omit [PyText] in
/-- The default configuration is a realistic machine. -/
theorem sane_default : SaneMachine Cfg.default := by
  have ht : TableOk Cfg.default := by
    refine ⟨⟨by norm_num [Cfg.default], (2 * 10 ^ 12 : ℤ), by norm_num [Cfg.default]⟩,
      ⟨by norm_num [Cfg.default], (2 * 10 ^ 12 : ℤ), by norm_num [Cfg.default]⟩,
      ⟨by norm_num [Cfg.default], (220 * 10 ^ 10 : ℤ), by norm_num [Cfg.default]⟩⟩
  refine ⟨⟨?_, ?_, ?_, ?_, ?_⟩, ht, ?_, ?_, ?_, ?_, ?_⟩
  all_goals first | (intro ax; cases ax <;> norm_num [Cfg.default, V4.get]) | skip
  all_goals norm_num [Cfg.default]

theorem numbersOk_of_decimal {line : List Char} {g : GCode} (hp : parseLine line = .ok (some g))
    (hn : ∀ w ∈ g.params, Decimal w.2) : NumbersOk g := by
  unfold parseLine at hp
  rw [parseClean_ok] at hp
  exact fun w hw h => (Props.C61_value_error w.2 (hp.2.words w hw).2).1 h (hn w hw)

theorem parse_error {line : List Char} {e : PyErr} (h : parseLine line = .error e) :
    ∃ msg, e = .gcode msg := parseClean_error h

section runs

variable {F : Type} [PyNum F] {c : Cfg} {env : Env F}

theorem doLine_cases (line : List Char) (s : MState F) :
    (∃ a s', Executes c env line s a s' ∧ doLine c env line s = (.ok (.ok a), s')) ∨
    (∃ e s', Spec.Raises c env line s e s' ∧ Reported e ∧ doLine c env line s = (.ok (.error e), s')) ∨
    (∃ e s', Spec.Raises c env line s e s' ∧ ¬ Reported e ∧ doLine c env line s = (.error e, s')) := by
  unfold doLine
  have hc : ∀ e : PyErr, (Reported e ∧ (catchLine e : Except PyErr (Reply F)) = .ok (.error e)) ∨
      (¬ Reported e ∧ (catchLine e : Except PyErr (Reply F)) = .error e) := by
    intro e
    cases e <;> simp [Reported, catchLine]
  rcases hp : parseLine line with e | g
  · right
    rcases hc e with ⟨h1, h2⟩ | ⟨h1, h2⟩
    · exact .inl ⟨e, s, .inl ⟨hp, rfl⟩, h1, by simp only [h2]⟩
    · exact .inr ⟨e, s, .inl ⟨hp, rfl⟩, h1, by simp only [h2]⟩
  · rcases hd : doCommand c env g s with ⟨e | a, s'⟩
    · right
      rcases hc e with ⟨h1, h2⟩ | ⟨h1, h2⟩
      · exact .inl ⟨e, s', .inr ⟨g, hp, hd⟩, h1, by simp only [hd, h2]⟩
      · exact .inr ⟨e, s', .inr ⟨g, hp, hd⟩, h1, by simp only [hd, h2]⟩
    · exact .inl ⟨a, s', ⟨g, hp, hd⟩, by simp only [hd]⟩

omit [PyText] in
theorem finishMain_eq (s : MState F) :
    finishMain c s = ⟨[], (release c s).2, .released⟩ := by
  obtain ⟨stops, h, _⟩ := release_run (c := c) s
  unfold finishMain
  rw [h]

end runs

namespace Props

/-! ## C04 -/

/-- **C04, partial.** Exact arithmetic, realistic configuration, hardware without errors: every
accepted line whose numbers are decimal numbers is executed, or raises an exception that `main`
reports as `ERROR`, if it is no arc and moves the E axis by less than 10 m.
Missing: malformed numbers (`C04_refuted`), sensors that fail while a heater is started
(`C04_sensor_refuted`), arcs (see C36) and huge E moves (`C28_refuted`). -/
theorem C04_reported_partial [PyRound] {c : Cfg} {env : Env ℝ} (hc : SaneMachine c)
    (henv : GoodEnv env) {s : MState ℝ} (hs : Reachable c env s) {line : List Char} {g : GCode}
    (hp : parseLine line = .ok (some g)) (hn : ∀ w ∈ g.params, Decimal w.2) (ha : ¬ IsArc g)
    (he : SmallE g s) :
    (∃ a s', doCommand c env (some g) s = (.ok a, s')) ∨
    ∃ e s', doCommand c env (some g) s = (.error e, s') ∧ Reported e := by
  rcases h : doCommand c env (some g) s with ⟨e | a, s'⟩
  · exact .inr ⟨e, s', rfl, doCommand_raises hc henv (tidy_reachable hs)
      (reachable_inTable hc.table hs) (numbersOk_of_decimal hp hn) ha he e s' h⟩
  · exact .inl ⟨a, s', rfl⟩

/-- The words of `X1.2.3`. -/
def badWords : List (Char × List Char) := [('X', "1.2.3".toList)]

theorem bad_parse : parseLine "X1.2.3".toList = .ok (some ⟨badWords⟩) := by
  refine parse_words (ws := badWords) ⟨by decide, ?_, by decide, by decide⟩ ?_
  · intro w hw
    simp only [badWords, List.mem_singleton] at hw
    subst hw
    exact ⟨by decide, [], _, rfl, .inl rfl, by decide, by decide⟩
  · decide

omit [PyText] in
theorem bad_raises {F : Type} [PyNum F] (c : Cfg) (env : Env F) (s : MState F) :
    doCommand c env (some ⟨badWords⟩) s = (.error .value, s) := by
  have hx : ∀ d m : F, GCode.get ⟨badWords⟩ 'X' d m = .error .value := by
    intro d m
    have : parseFloat "1.2.3".toList = none := by decide
    unfold GCode.get GCode.lookup badWords
    rw [List.lookup_cons_self]
    simp only [this]
  have hd : readDelta s ⟨badWords⟩ = .error .value := by
    unfold readDelta GCode.coordinates
    simp only [hx]
    split <;> rfl
  simp [doCommand, hd]

/-- **C04 is false of the code.** The line `X1.2.3` is accepted by the parser, and executing it
raises `ValueError` in every state of every machine. -/
theorem C04_refuted {F : Type} [PyNum F] (c : Cfg) (env : Env F) (s : MState F) :
    ∃ g, parseLine "X1.2.3".toList = .ok (some g) ∧
      doCommand c env (some g) s = (.error .value, s) ∧
      doLine c env "X1.2.3".toList s = (.error .value, s) := by
  refine ⟨_, bad_parse, bad_raises c env s, ?_⟩
  unfold doLine
  rw [bad_parse]
  simp only [bad_raises]
  rfl

omit [PyText] in
/-- The line `M104 S100` with the sensor of `flaky` raises `IOError`. -/
theorem heat_io [PyRound] : ∃ s' : MState ℝ, doCommand Cfg.default flaky (some heatLine)
    (MState.init Cfg.default) = (.error .io, s') := by
  obtain ⟨d, r, h⟩ := plain_run (c := Cfg.default) (env := flaky) (g := heatLine)
    (s := MState.init Cfg.default) (by decide)
    (by simp only [MState.init, minMaxVel, Cfg.default, pmin_eq, ofRat_eq]; norm_num)
  have hS : HasNum heatLine 'S' 100 := ⟨_, rfl, by decide +kernel⟩
  have hh : ∃ s', heat Cfg.default flaky .extruder (100 : ℝ) false (MState.init Cfg.default) =
      (.error .io, s') := by
    rcases heat_cases (c := Cfg.default) (env := flaky) .extruder (100 : ℝ) false
      (MState.init Cfg.default) with ⟨h1, _⟩ | ⟨_, h1, _⟩ | ⟨_, _, s2, rfl, ⟨_, h'⟩ | ⟨h1, _⟩⟩
    · simp [flaky, MState.init] at h1
    · simp [zeroF] at h1
    · exact ⟨_, h'⟩
    · exact absurd rfl h1
  obtain ⟨s', hh⟩ := hh
  refine ⟨s', ?_⟩
  rw [h, show lineCmd heatLine = .heat .extruder false from rfl]
  refine M.bind_error ?_
  simp only [execCmd, heatCommand, has_word hS, Bool.not_true, Bool.false_eq_true, if_false,
    get_word hS]
  have : ((PyNum.ofRat (heaterMax Cfg.default .extruder) <ₚ
      (PyNum.ofRat 100 *ₚ PyNum.ofRat 1 : ℝ) ||
      (PyNum.ofRat 100 *ₚ PyNum.ofRat 1 : ℝ) <ₚ PyNum.ofRat Cfg.default.minT)) = false := by
    simp [heaterMax, Cfg.default]; norm_num
  rw [M.bind_run, M.bind_lift_ok, this]
  simp only [Bool.false_and, Bool.false_eq_true, if_false, ofRat_eq, mul_eq]
  norm_num
  exact M.bind_error hh

omit [PyText] in
theorem numText_digits {ds : List Char} (hne : ds ≠ []) (hd : ∀ c ∈ ds, '0' ≤ c ∧ c ≤ '9') :
    NumText ds := ⟨[], ds, rfl, .inl rfl, hne, fun c hc => .inl (hd c hc)⟩

theorem heat_parse : parseLine "M104S100".toList = .ok (some heatLine) := by
  refine parse_words (ws := heatLine.params) ⟨by decide, ?_, by decide, by decide⟩ (by decide)
  intro w hw
  simp only [heatLine, List.mem_cons, List.not_mem_nil, or_false] at hw
  rcases hw with rfl | rfl <;> exact ⟨by decide, numText_digits (by decide) (by decide)⟩

/-- **C04 is false of the code** also for well formed numbers: when the temperature sensor fails
right after the heater thread was started, `M104 S100` raises `IOError`, which `main` does not
report. -/
theorem C04_sensor_refuted [PyRound] : ∃ (env : Env ℝ) (s' : MState ℝ),
    parseLine "M104S100".toList = .ok (some heatLine) ∧
    doCommand Cfg.default env (some heatLine) (MState.init Cfg.default) = (.error .io, s') ∧
    doLine Cfg.default env "M104S100".toList (MState.init Cfg.default) = (.error .io, s') := by
  obtain ⟨s', h⟩ := heat_io
  refine ⟨flaky, s', heat_parse, h, ?_⟩
  unfold doLine
  rw [heat_parse]
  simp only [h]
  rfl

/-- `G1 X10 F600` on a new default machine meets the hypotheses of `C04_reported_partial`. -/
example [PyRound] : SaneMachine Cfg.default ∧
    GoodEnv (F := ℝ) ⟨fun _ => some 20, fun _ => none, fun _ => true, fun _ => none⟩ ∧
    ∃ g, parseLine "G1X10F600".toList = .ok (some g) ∧ (∀ w ∈ g.params, Decimal w.2) ∧
      ¬ IsArc g ∧ SmallE g (MState.init Cfg.default) := by
  refine ⟨sane_default, ⟨fun _ => by simp, fun _ => rfl, fun _ => rfl⟩, _,
    parse_words (ws := [('G', "1".toList), ('X', "10".toList), ('F', "600".toList)])
      ⟨by decide, ?_, by decide, by decide⟩ (by decide), ?_, ?_, ?_⟩
  · intro w hw
    simp only [List.mem_cons, List.not_mem_nil, or_false] at hw
    rcases hw with rfl | rfl | rfl <;>
      exact ⟨by decide, numText_digits (by decide) (by decide)⟩
  · intro w hw
    simp only [List.mem_cons, List.not_mem_nil, or_false] at hw
    rcases hw with rfl | rfl | rfl <;>
      exact ⟨numText_digits (by decide) (by decide), by decide, by decide⟩
  · unfold IsArc Is; decide
  · rintro q ⟨t, ht, _⟩
    cases ht

/-! ## C55 -/

/-- **C55.** Any file, any machine, any hardware: the lines are executed in order; `main` stops at
the first line that raises an exception.  If there is none, or if it is one of the two exceptions
that `do_line` catches, the session ends with `release()`; any other exception ends the program at
once, without `release()` (which makes the second half of C55 false, `C55_refuted`). -/
theorem C55_stops_at_first_error {F : Type} [PyNum F] (c : Cfg) (env : Env F)
    (lines : List (List Char)) (s : MState F) :
    ∃ done as s1, ExecutesAll c env (done.map strip) s as s1 ∧
      ((lines = done ∧
        mainFile c env (some lines) s = ⟨as.map .ok, (release c s1).2, .released⟩) ∨
      ∃ line rest e s2, lines = done ++ line :: rest ∧ Spec.Raises c env (strip line) s1 e s2 ∧
        ((Reported e ∧ mainFile c env (some lines) s =
            ⟨as.map .ok ++ [.error e], (release c s2).2, .released⟩) ∨
         (¬ Reported e ∧ mainFile c env (some lines) s = ⟨as.map .ok, s2, .escaped e⟩))) := by
  simp only [mainFile]
  induction lines generalizing s with
  | nil => exact ⟨[], [], s, .nil, .inl ⟨rfl, by rw [fileLoop, finishMain_eq]; rfl⟩⟩
  | cons line rest ih =>
    rcases doLine_cases (c := c) (env := env) (strip line) s with
      ⟨a, s1, h1, h2⟩ | ⟨e, s1, h1, h3, h2⟩ | ⟨e, s1, h1, h3, h2⟩
    · obtain ⟨done, as, s2, h4, h5⟩ := ih s1
      refine ⟨line :: done, a :: as, s2, .cons h1 h4, ?_⟩
      have hu : fileLoop c env (line :: rest) s =
          { fileLoop c env rest s1 with replies := .ok a :: (fileLoop c env rest s1).replies } := by
        rw [fileLoop, h2]; rfl
      rcases h5 with ⟨rfl, h6⟩ | ⟨l, r, e, s3, rfl, h6, ⟨h7, h8⟩ | ⟨h7, h8⟩⟩
      · exact .inl ⟨rfl, by rw [hu, h6]; rfl⟩
      · exact .inr ⟨l, r, e, s3, rfl, h6, .inl ⟨h7, by rw [hu, h8]; rfl⟩⟩
      · exact .inr ⟨l, r, e, s3, rfl, h6, .inr ⟨h7, by rw [hu, h8]; rfl⟩⟩
    · refine ⟨[], [], s, .nil, .inr ⟨line, rest, e, s1, rfl, h1, .inl ⟨h3, ?_⟩⟩⟩
      rw [fileLoop, h2]
      simp [Reply.isOk, finishMain_eq]
    · refine ⟨[], [], s, .nil, .inr ⟨line, rest, e, s1, rfl, h1, .inr ⟨h3, ?_⟩⟩⟩
      rw [fileLoop, h2]
      simp

omit [PyText] in
theorem reachable_doCommand {F : Type} [PyNum F] {c : Cfg} {env : Env F} {s : MState F}
    (hs : Reachable c env s) (g : Option GCode) : Reachable c env (doCommand c env g s).2 :=
  .step (.cmd g) hs

theorem plain_reported [PyRound] {c : Cfg} {env : Env ℝ} (hc : SaneMachine c) (henv : GoodEnv env)
    {s s' : MState ℝ} (hs : Reachable c env s) {line : List Char} {e : PyErr}
    (hl : Spec.PlainLine line) (h : Spec.Raises c env line s e s') : Reported e := by
  rcases h with ⟨h, _⟩ | ⟨g, hp, h⟩
  · obtain ⟨msg, rfl⟩ := parse_error h
    trivial
  · rcases g with _ | g
    · cases h
    · obtain ⟨h1, h2, h3⟩ := hl g hp
      refine doCommand_raises hc henv (tidy_reachable hs) (reachable_inTable hc.table hs)
        (numbersOk_of_decimal hp h1) h2 ?_ e s' h
      rintro q ⟨t, ht, _⟩
      rw [h3] at ht
      cases ht

theorem executesAll_reachable {F : Type} [PyNum F] {c : Cfg} {env : Env F} {ls : List (List Char)}
    {s s' : MState F} {as : List (Option (Answer F))} (h : ExecutesAll c env ls s as s')
    (hs : Reachable c env s) : Reachable c env s' := by
  induction h with
  | nil => exact hs
  | @cons _ _ _ _ _ _ _ h1 _ ih =>
    obtain ⟨g, _, h2⟩ := h1
    have := reachable_doCommand hs g
    rw [h2] at this
    exact ih this

/-- **C55, partial.** Exact arithmetic, realistic configuration, hardware without errors, lines with
decimal numbers, without arcs and E words: the session always ends with `release()`.
Missing: the exceptions that `do_line` does not catch, see `C55_refuted`. -/
theorem C55_released_partial [PyRound] {c : Cfg} {env : Env ℝ} (hc : SaneMachine c)
    (henv : GoodEnv env) (lines : List (List Char)) (hl : ∀ l ∈ lines, Spec.PlainLine (strip l)) :
    ∃ s, Reachable c env s ∧ (mainFile c env (some lines) (MState.init c)).state = (release c s).2 ∧
      (mainFile c env (some lines) (MState.init c)).ending = .released := by
  obtain ⟨done, as, s1, h1, h2⟩ := C55_stops_at_first_error c env lines (MState.init c)
  have hr := executesAll_reachable h1 .init
  rcases h2 with ⟨_, h2⟩ | ⟨l, r, e, s2, hl', h3, ⟨_, h2⟩ | ⟨hn, _⟩⟩
  · exact ⟨s1, hr, by rw [h2], by rw [h2]⟩
  · refine ⟨s2, ?_, by rw [h2], by rw [h2]⟩
    rcases h3 with ⟨_, rfl⟩ | ⟨g, _, h3⟩
    · exact hr
    · have := reachable_doCommand hr g
      rw [h3] at this
      exact this
  · exact absurd (plain_reported hc henv hr (hl l (by simp [hl'])) h3) hn

theorem strip_id {l : List Char} (h : ∀ c ∈ l, WordChar c) : strip l = l := by
  have h1 : ∀ m : List Char, (∀ c ∈ m, WordChar c) → m.dropWhile PyText.isSpace = m := by
    intro m hm
    cases m with
    | nil => rfl
    | cons c m => rw [List.dropWhile_cons, (wordChar_facts (hm c (by simp))).2.1]; rfl
  unfold strip
  rw [h1 l h, h1 l.reverse (fun c hc => h c (by simpa using hc)), List.reverse_reverse]

/-- The line `M3 S1000`. -/
def spindleLine : GCode := ⟨[('M', "3".toList), ('S', "1000".toList)]⟩

theorem spindle_parse : parseLine "M3S1000".toList = .ok (some spindleLine) := by
  refine parse_words (ws := spindleLine.params) ⟨by decide, ?_, by decide, by decide⟩ (by decide)
  intro w hw
  simp only [spindleLine, List.mem_cons, List.not_mem_nil, or_false] at hw
  rcases hw with rfl | rfl <;> exact ⟨by decide, numText_digits (by decide) (by decide)⟩

/-- `M3 S1000` on a new default machine. -/
theorem spindle_doLine [PyRound] (env : Env ℝ) : ∃ s' : MState ℝ,
    doLine Cfg.default env "M3S1000".toList (MState.init Cfg.default) = (.ok (.ok none), s') ∧
    s'.trace = [.spindle 10, .join, .watchdog, .init] := by
  obtain ⟨d, r, h⟩ := plain_run (c := Cfg.default) (env := env) (g := spindleLine)
    (s := MState.init Cfg.default) (by decide)
    (by simp only [MState.init, minMaxVel, Cfg.default, pmin_eq, ofRat_eq]; norm_num)
  have hS : HasNum spindleLine 'S' 1000 := ⟨_, rfl, by decide +kernel⟩
  have hb : ((PyNum.ofRat 1000 *ₚ PyNum.ofRat 1 : ℝ) <ₚ zeroF ||
      PyNum.ofRat Cfg.default.spindleMax <ₚ (PyNum.ofRat 1000 *ₚ PyNum.ofRat 1 : ℝ)) = false := by
    simp [Cfg.default, zeroF]
    norm_num
  rw [show lineCmd spindleLine = .m3 from rfl] at h
  have hx : execCmd Cfg.default env .m3 spindleLine d r (MState.init Cfg.default).vel
      (MState.init Cfg.default) = (.ok none, { (MState.init Cfg.default : MState ℝ) with
        spindle := PyNum.ofRat 1000 *ₚ PyNum.ofRat 1
        trace := [.spindle (PyNum.ofRat 100 *ₚ (PyNum.ofRat 1000 *ₚ PyNum.ofRat 1) /ₚ
          PyNum.ofRat Cfg.default.spindleMax), .join, .watchdog, .init] }) := by
    simp only [execCmd, M.bind_get, get_word hS, M.bind_lift_ok, hb, Bool.false_eq_true, if_false]
    rfl
  rw [M.bind_ok hx] at h
  unfold doLine
  rw [spindle_parse]
  simp only [h]
  refine ⟨_, rfl, ?_⟩
  change [HalCall.spindle _, .join, .watchdog, .init] = _
  congr 2
  simp [Cfg.default]
  norm_num

/-- **C55 is false of the code.** The file with the lines `M3S1000` and `X1.2.3`: the second line
raises `ValueError`, `release()` is not called, and the spindle keeps running at 10 %. -/
theorem C55_refuted [PyRound] (env : Env ℝ) : ∃ s' : MState ℝ,
    mainFile Cfg.default env (some ["M3S1000".toList, "X1.2.3".toList]) (MState.init Cfg.default) =
      ⟨[.ok none], s', .escaped .value⟩ ∧
    s'.trace = [.spindle 10, .join, .watchdog, .init] := by
  obtain ⟨s', h1, h2⟩ := spindle_doLine env
  refine ⟨s', ?_, h2⟩
  obtain ⟨_, _, _, h3⟩ := C04_refuted Cfg.default env s'
  rw [mainFile, fileLoop, strip_id (by decide), h1]
  simp only [fileLoop]
  rw [strip_id (by decide), h3]
  rfl

/-- A file of two plain lines meets the hypotheses of `C55_released_partial`. -/
example : ∀ l ∈ ["M3S1000".toList, "M104S100".toList], PlainLine (strip l) := by
  intro l hl
  simp only [List.mem_cons, List.not_mem_nil, or_false] at hl
  rcases hl with rfl | rfl
  · rw [strip_id (by decide)]
    intro g hg
    rw [spindle_parse] at hg
    cases hg
    refine ⟨?_, by unfold IsArc Is; decide, by decide⟩
    intro w hw
    simp only [spindleLine, List.mem_cons, List.not_mem_nil, or_false] at hw
    rcases hw with rfl | rfl <;>
      exact ⟨numText_digits (by decide) (by decide), by decide, by decide⟩
  · rw [strip_id (by decide)]
    intro g hg
    rw [heat_parse] at hg
    cases hg
    refine ⟨?_, by unfold IsArc Is; decide, by decide⟩
    intro w hw
    simp only [heatLine, List.mem_cons, List.not_mem_nil, or_false] at hw
    rcases hw with rfl | rfl <;>
      exact ⟨numText_digits (by decide) (by decide), by decide, by decide⟩

/-! ## C56 -/

/-- **C56.** Any input, any machine, any hardware: every line up to `quit`, `exit`, Ctrl-C or the
end of the input is executed and answered with `OK` or `ERROR`, in order, unless a line raises an
exception that `do_line` does not catch; that ends the program without `release()`, as does the
end of the input.  After `quit`, `exit` and Ctrl-C, `release()` is called. -/
theorem C56_session {F : Type} [PyNum F] (c : Cfg) (env : Env F) (inputs : List Input)
    (s : MState F) :
    ∃ done rest rs s1, inputs = done.map .line ++ rest ∧ AnswersAll c env done s rs s1 ∧
      (∀ l ∈ done, l ≠ "quit".toList ∧ l ≠ "exit".toList) ∧
      ((rest = [] ∧ mainLoop c env inputs s = ⟨rs, s1, .waiting⟩) ∨
       (∃ more, rest = .eof :: more ∧ mainLoop c env inputs s = ⟨rs, s1, .eof⟩) ∨
       (∃ i more, rest = i :: more ∧
          (i = .interrupt ∨ i = .line "quit".toList ∨ i = .line "exit".toList) ∧
          mainLoop c env inputs s = ⟨rs, (release c s1).2, .released⟩) ∨
       (∃ l more e s2, rest = .line l :: more ∧ Spec.Raises c env l s1 e s2 ∧ ¬ Reported e ∧
          mainLoop c env inputs s = ⟨rs, s2, .escaped e⟩)) := by
  induction inputs generalizing s with
  | nil => exact ⟨[], [], [], s, rfl, .nil, by simp, .inl ⟨rfl, rfl⟩⟩
  | cons i more ih =>
    rcases i with l | _ | _
    · by_cases hq : l = "quit".toList ∨ l = "exit".toList
      · refine ⟨[], _, [], s, rfl, .nil, by simp, .inr (.inr (.inl ⟨_, more, rfl, ?_, ?_⟩))⟩
        · rcases hq with rfl | rfl <;> simp
        · rw [mainLoop, if_pos hq, finishMain_eq]
      · rcases doLine_cases (c := c) (env := env) l s with
          ⟨a, s1, h1, h2⟩ | ⟨e, s1, h1, h3, h2⟩ | ⟨e, s1, h1, h3, h2⟩
        · obtain ⟨done, rest, rs, s2, h4, h5, h6, h7⟩ := ih s1
          have hu : mainLoop c env (.line l :: more) s =
              { mainLoop c env more s1 with
                replies := .ok a :: (mainLoop c env more s1).replies } := by
            rw [mainLoop, if_neg hq, h2]
          refine ⟨l :: done, rest, .ok a :: rs, s2, by rw [h4]; rfl, .ok h1 h5, ?_, ?_⟩
          · intro m hm
            rcases List.mem_cons.1 hm with rfl | hm
            · exact not_or.1 hq
            · exact h6 m hm
          · rw [hu]
            rcases h7 with ⟨h8, h9⟩ | ⟨m, h8, h9⟩ | ⟨i, m, h8, h10, h9⟩ | ⟨l', m, e, s3, h8, h10, h11, h9⟩
            · exact .inl ⟨h8, by rw [h9]⟩
            · exact .inr (.inl ⟨m, h8, by rw [h9]⟩)
            · exact .inr (.inr (.inl ⟨i, m, h8, h10, by rw [h9]⟩))
            · exact .inr (.inr (.inr ⟨l', m, e, s3, h8, h10, h11, by rw [h9]⟩))
        · obtain ⟨done, rest, rs, s2, h4, h5, h6, h7⟩ := ih s1
          have hu : mainLoop c env (.line l :: more) s =
              { mainLoop c env more s1 with
                replies := .error e :: (mainLoop c env more s1).replies } := by
            rw [mainLoop, if_neg hq, h2]
          refine ⟨l :: done, rest, .error e :: rs, s2, by rw [h4]; rfl, .error h1 h3 h5, ?_, ?_⟩
          · intro m hm
            rcases List.mem_cons.1 hm with rfl | hm
            · exact not_or.1 hq
            · exact h6 m hm
          · rw [hu]
            rcases h7 with ⟨h8, h9⟩ | ⟨m, h8, h9⟩ | ⟨i, m, h8, h10, h9⟩ | ⟨l', m, e, s3, h8, h10, h11, h9⟩
            · exact .inl ⟨h8, by rw [h9]⟩
            · exact .inr (.inl ⟨m, h8, by rw [h9]⟩)
            · exact .inr (.inr (.inl ⟨i, m, h8, h10, by rw [h9]⟩))
            · exact .inr (.inr (.inr ⟨l', m, e, s3, h8, h10, h11, by rw [h9]⟩))
        · exact ⟨[], _, [], s, rfl, .nil, by simp, .inr (.inr (.inr ⟨l, more, e, s1, rfl, h1, h3, by
            rw [mainLoop, if_neg hq, h2]⟩))⟩
    · exact ⟨[], _, [], s, rfl, .nil, by simp, .inr (.inl ⟨more, rfl, by rw [mainLoop]⟩)⟩
    · exact ⟨[], _, [], s, rfl, .nil, by simp, .inr (.inr (.inl ⟨_, more, rfl, .inl rfl, by
        rw [mainLoop, finishMain_eq]⟩))⟩

theorem answersAll_reachable {F : Type} [PyNum F] {c : Cfg} {env : Env F} {ls : List (List Char)}
    {s s' : MState F} {rs : List (Reply F)} (h : AnswersAll c env ls s rs s')
    (hs : Reachable c env s) : Reachable c env s' := by
  induction h with
  | nil => exact hs
  | @ok _ _ _ _ _ _ _ h1 _ ih =>
    obtain ⟨g, _, h2⟩ := h1
    have := reachable_doCommand hs g
    rw [h2] at this
    exact ih this
  | @error _ _ _ _ _ _ _ h1 _ _ ih =>
    rcases h1 with ⟨_, rfl⟩ | ⟨g, _, h2⟩
    · exact ih hs
    · have := reachable_doCommand hs g
      rw [h2] at this
      exact ih this

/-- **C56, partial.** Exact arithmetic, realistic configuration, hardware without errors, lines with
decimal numbers, without arcs and E words, then `quit`: each line gets its answer and the session
ends with `release()`.
Missing: exceptions that `do_line` does not catch and the end of the input, see `C56_refuted`. -/
theorem C56_survives_partial [PyRound] {c : Cfg} {env : Env ℝ} (hc : SaneMachine c)
    (henv : GoodEnv env) (lines : List (List Char)) (hl : ∀ l ∈ lines, PlainLine l)
    (hq : ∀ l ∈ lines, l ≠ "quit".toList ∧ l ≠ "exit".toList) :
    ∃ rs s1, AnswersAll c env lines (MState.init c) rs s1 ∧
      mainLoop c env (lines.map .line ++ [.line "quit".toList]) (MState.init c) =
        ⟨rs, (release c s1).2, .released⟩ := by
  have key : ∀ s, Reachable c env s → ∃ rs s1, AnswersAll c env lines s rs s1 ∧
      mainLoop c env (lines.map .line ++ [.line "quit".toList]) s =
        ⟨rs, (release c s1).2, .released⟩ := by
    induction lines with
    | nil =>
      intro s _
      exact ⟨[], s, .nil, by
        rw [List.map_nil, List.nil_append, mainLoop, if_pos (.inl rfl), finishMain_eq]⟩
    | cons l rest ih =>
      intro s hs
      have ih' := ih (fun m hm => hl m (by simp [hm])) (fun m hm => hq m (by simp [hm]))
      have hq' := not_or.2 (hq l (by simp))
      rcases doLine_cases (c := c) (env := env) l s with
        ⟨a, s1, h1, h2⟩ | ⟨e, s1, h1, h3, h2⟩ | ⟨e, s1, h1, h3, h2⟩
      · have h5 : AnswersAll c env [l] s [.ok a] s1 := .ok h1 .nil
        obtain ⟨rs, s2, h3, h4⟩ := ih' s1 (answersAll_reachable h5 hs)
        refine ⟨.ok a :: rs, s2, .ok h1 h3, ?_⟩
        rw [List.map_cons, List.cons_append, mainLoop, if_neg hq', h2]
        simp only [h4]
      · have h5 : AnswersAll c env [l] s [.error e] s1 := .error h1 h3 .nil
        obtain ⟨rs, s2, h6, h4⟩ := ih' s1 (answersAll_reachable h5 hs)
        refine ⟨.error e :: rs, s2, .error h1 h3 h6, ?_⟩
        rw [List.map_cons, List.cons_append, mainLoop, if_neg hq', h2]
        simp only [h4]
      · exact absurd (plain_reported hc henv hs (hl l (by simp)) h1) h3
  exact key _ .init

/-- **C56 is false of the code.** After `M3S1000`, both the line `X1.2.3` (`ValueError`) and the end
of the input (`EOFError`) end the program without `release()`, with the spindle running at 10 %. -/
theorem C56_refuted [PyRound] (env : Env ℝ) : ∃ s' : MState ℝ,
    (∀ more, mainLoop Cfg.default env (.line "M3S1000".toList :: .line "X1.2.3".toList :: more)
      (MState.init Cfg.default) = ⟨[.ok none], s', .escaped .value⟩) ∧
    (∀ more, mainLoop Cfg.default env (.line "M3S1000".toList :: .eof :: more)
      (MState.init Cfg.default) = ⟨[.ok none], s', .eof⟩) ∧
    s'.trace = [.spindle 10, .join, .watchdog, .init] := by
  obtain ⟨s', h1, h2⟩ := spindle_doLine env
  obtain ⟨_, _, _, h3⟩ := C04_refuted Cfg.default env s'
  refine ⟨s', ?_, ?_, h2⟩
  · intro more
    rw [mainLoop, if_neg (by decide), h1]
    simp only
    rw [mainLoop, if_neg (by decide), h3]
  · intro more
    rw [mainLoop, if_neg (by decide), h1]
    simp only [mainLoop]

end Props

end PyCNC
