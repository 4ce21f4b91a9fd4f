import Verif.Props.Interp

/-!
# Property C57: a line that asks for ten thousand kilometres of filament

The bound on the extrusion in `C57_program_partial` cannot be dropped.
-/

namespace PyCNC.Props

open PyCNC Spec

variable [PyRound] [PyText] {env : Env ℝ}

/-- `G1X0.01E10000000000` -/
def hugeLine : GCode := ⟨[('G', ['1']), ('X', "0.01".toList), ('E', "10000000000".toList)]⟩

/-- The coordinates that it names. -/
def hugeWords : Axis → Option ℚ
  | .x => some (1 / 100)
  | .e => some (10 ^ 10)
  | _ => none

omit [PyRound] in
theorem huge_parse : parseLine "G1X0.01E10000000000".toList = .ok (some hugeLine) := by
  refine parse_words (ws := [('G', ['1']), ('X', "0.01".toList), ('E', "10000000000".toList)])
    ⟨by decide, ?_, by decide, by decide⟩ (by decide)
  · intro w hw
    simp only [List.mem_cons, List.not_mem_nil, or_false] at hw
    rcases hw with rfl | rfl | rfl <;> exact ⟨by decide, [], _, rfl, .inl rfl, by decide, by decide⟩

omit [PyRound] [PyText] in
theorem huge_words : Words hugeLine hugeWords := by
  intro ax
  cases ax
  case x => exact ⟨_, rfl, by decide +kernel⟩
  case e => exact ⟨_, rfl, by decide +kernel⟩
  all_goals change List.lookup _ _ = none; decide

omit [PyRound] [PyText] in
theorem huge_says : Says hugeLine ⟨.move hugeWords, none⟩ := by
  refine ⟨?_, ?_, ?_, huge_words⟩
  · unfold NumbersOk; decide +kernel
  · change List.lookup _ _ = none; decide
  · exact .inr (.inl ⟨by decide, by decide⟩)

omit [PyText] in
theorem huge_rounds : roundToSteps Cfg.default hugeE = hugeE := by
  apply V4.ext_get
  intro ax
  have z : ∀ ax, hugeE.get ax = 0 → (roundToSteps Cfg.default hugeE).get ax = hugeE.get ax := by
    intro ax h
    rw [get_roundToSteps, h, zero_div, rnd_zero, Int.cast_zero, zero_mul, round10_zero]
  have hgr : GridV hugeE := hugeE_decimal
  cases ax
  · rw [get_roundToSteps]
    have pe : ((Cfg.default.ppm.get .x : ℚ) : ℝ) = 100 := by norm_num [V4.get, Cfg.default]
    rw [pe, rnd_unique (n := 1) (by norm_num [hugeE, V4.get])]
    have : (((1 : ℤ) : ℝ) * (1 / 100)) = hugeE.get .x := by norm_num [hugeE, V4.get]
    rw [this]
    exact round10_grid (hgr .x)
  · exact z .y rfl
  · exact z .z rfl
  · rw [get_roundToSteps]
    have pe : ((Cfg.default.ppm.get .e : ℚ) : ℝ) = 150 := by norm_num [V4.get, Cfg.default]
    rw [pe, rnd_unique (n := 150 * 10 ^ 10) (by norm_num [hugeE, V4.get])]
    have : (((150 * 10 ^ 10 : ℤ) : ℝ) * (1 / 150)) = hugeE.get .e := by norm_num [hugeE, V4.get]
    rw [this]
    exact round10_grid (hgr .e)

omit [PyText] in
/-- The machine accepts the line. -/
theorem huge_runs (henv : ∀ tr, env.move tr = none) : ∃ lg s,
    doCommand Cfg.default env (some hugeLine) (MState.init Cfg.default) = (.ok none, s) ∧
    s.trace = .move (.linear lg) :: (MState.init Cfg.default : MState ℝ).trace ∧
    ∀ n, (Gen.linear lg).run Cfg.default (n + 1) .init = ([], .raised .zeroDiv) := by
  obtain ⟨lg, hl, h0, h1, hlim⟩ := hugeE_new
  have hpi : (MState.init Cfg.default : MState ℝ).pos = Coord.zero := rfl
  obtain ⟨d, hd, hdv⟩ := plain_delta plain_init (g := hugeLine) huge_words (by
    intro ax q hq
    cases ax <;> simp only [hugeWords, Option.some.injEq, reduceCtorEq] at hq <;> subst hq
    · exact ⟨10 ^ 8, by norm_num [E10]⟩
    · exact ⟨10 ^ 20, by norm_num [E10]⟩)
  have hd' : d = hugeE := by
    apply V4.ext_get
    intro ax
    rw [hdv, hpi]
    cases ax <;> simp only [get_zero] <;> norm_num [hugeWords, hugeE, V4.get]
  subst hd'
  obtain ⟨r, hr', -⟩ := plain_radius (g := hugeLine) plain_init (oi := none) (oj := none) (ok := none)
    rfl rfl rfl
  have hz : Coord.isZero hugeE = false := by
    cases hz : Coord.isZero hugeE
    · rfl
    · have := (isZero_iff _).1 hz .x
      norm_num [hugeE, V4.get] at this
  have hcd : checkDelta Cfg.default (MState.init Cfg.default : MState ℝ).pos hugeE = .ok () := by
    have hz0 : (Coord.zero : V4 ℝ) = ⟨0, 0, 0, 0⟩ := V4.ext_get fun ax => by
      rw [get_zero]; cases ax <;> rfl
    rw [hpi, checkDelta_ok (decimalQ_grid default_tableOk.1.2)
      (decimalQ_grid default_tableOk.2.1.2) (decimalQ_grid default_tableOk.2.2.2)
      ⟨default_tableOk.1.1, default_tableOk.2.1.1, default_tableOk.2.2.1⟩ gridV_zero hugeE_decimal]
    rw [hz0]
    norm_num [Cfg.default, hugeE]
  have hv : checkVelocity Cfg.default (Gen.linear lg).maxVelocity = .ok () :=
    checkVelocity_of_le (default_limits true) hlim
  have hm : ∃ s, moveLinear Cfg.default env hugeE 600 (MState.init Cfg.default) = (.ok (), s) ∧
      s.trace = .move (.linear lg) :: (MState.init Cfg.default : MState ℝ).trace := by
    rcases moveLinear_cases (c := Cfg.default) (env := env) hugeE 600 (MState.init Cfg.default) with
      ⟨k1, _⟩ | ⟨_, e, _, k1⟩ | ⟨_, g, _, k1, _, ⟨e, k2, _⟩ | ⟨_, k2⟩⟩
    · rw [huge_rounds, hz] at k1; cases k1
    · rw [huge_rounds] at k1
      rcases k1 with k1 | k1 | ⟨g, k1, k2⟩
      · rw [hcd] at k1; cases k1
      · rw [hl] at k1; cases k1
      · rw [hl] at k1; cases k1
        rw [hv] at k2; cases k2
    · rw [henv] at k2; cases k2
    · rw [huge_rounds, hl] at k1; cases k1
      exact ⟨_, k2, rfl⟩
  obtain ⟨s, k1, k2⟩ := hm
  have hx : execCmd Cfg.default env (lineCmd hugeLine) hugeLine hugeE r 600 (MState.init Cfg.default) =
      (.ok none, s) := M.bind_ok k1
  exact ⟨lg, _, plain_run_line plain_init hd hr' rfl hx, k2, hugeE_raises h0 h1⟩

/-- **C57 is false of lines with more extrusion.** The line `G1X0.01E10000000000` asks for 0.01 mm and
10 000 km of filament, which is one step of X and 1.5 * 10^12 steps of the extruder for the
interpreter.  The program accepts it as well and hands a move over, whose generator raises
`ZeroDivisionError` before the first pulse: the velocity of X is zero to ten decimals.  So there are
no pulses that would bring the motors where the interpreter is. -/
theorem C57_refuted (henv : ∀ tr, env.move tr = none) : ∃ (s : MState ℝ) (lg : LinearGen ℝ),
    Says hugeLine ⟨.move hugeWords, none⟩ ∧
    machineRun Cfg.default env (MState.init Cfg.default) ["G1X0.01E10000000000".toList] =
      some ([true], s) ∧
    ((Ref.init Cfg.default).run Cfg.default [⟨.move hugeWords, none⟩]).1 = [true] ∧
    s.trace = .move (.linear lg) :: (MState.init Cfg.default : MState ℝ).trace ∧
    (∀ n, (Gen.linear lg).run Cfg.default (n + 1) .init = ([], .raised .zeroDiv)) ∧
    ¬ ∃ r, Matches Cfg.default s r := by
  obtain ⟨lg, s, h1, h2, h3⟩ := huge_runs henv
  refine ⟨s, lg, huge_says, ?_, ?_, h2, h3, ?_⟩
  · have hl : doLine Cfg.default env "G1X0.01E10000000000".toList (MState.init Cfg.default) =
        (.ok (.ok none), s) := by
      unfold doLine
      rw [huge_parse]
      simp only [h1]
    simp only [machineRun, hl, Option.map_some]
  · have d1 : dec (((1 / 100 : ℚ) : ℝ) * 1) = 1 / 100 := by
      rw [dec_eq (k := 10 ^ 8) (by norm_num)]; norm_num
    have d2 : dec (((10 ^ 10 : ℚ) : ℝ) * 1) = 10 ^ 10 := by
      rw [dec_eq (k := 10 ^ 20) (by norm_num)]; norm_num
    have hpe : ((Cfg.default.ppm.get .e : ℚ) : ℝ) = 150 := by norm_num [Cfg.default, V4.get]
    have s1 := ref_move (r := Ref.init Cfg.default) (n := 0) (ne := 0) (q := 1 / 100)
      (w := hugeWords) (f := none) (v := 600) (k := 1) (ke := 150 * 10 ^ 10) rfl rfl rfl
      (by funext ax; cases ax <;> rfl) (by norm_num [lineFeed, Ref.init, Cfg.default]) (by norm_num)
      (by simp only [Ref.init, d1]; norm_num)
      (by
        unfold Ref.target
        simp only [hugeWords, Ref.init, Ref.at, d2, hpe, Bool.false_eq_true, if_false]
        rw [rnd_unique (n := 150 * 10 ^ 10) (by norm_num)])
    rw [if_pos (by norm_num)] at s1
    simp only [Ref.run, s1]
  · rintro ⟨r, hr⟩
    obtain ⟨evs, hev, -⟩ := hr.motors
    rw [h2] at hev
    cases hev with
    | move he _ =>
      obtain ⟨N, hN⟩ := he
      have := hN (N + 1) (by omega)
      rw [h3] at this
      cases this
    | other h _ => exact h _ rfl

/-- The environment of a machine without faults. -/
example : ∀ tr, (⟨fun _ => none, fun _ => none, fun _ => true, fun _ => none⟩ : Env ℝ).move tr = none :=
  fun _ => rfl

end PyCNC.Props
