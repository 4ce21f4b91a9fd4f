import Verif.Props.Rapid

/-!
# Property C89: rapid moves are not refused for their speed

Exact arithmetic, for every nearest-integer rounding (`PyRound`).
-/

namespace PyCNC.Props

open PyCNC Spec

variable [PyRound] {c : Cfg} {env : Env ℝ}

/-- Reading a number does not fail with the message of the velocity check. -/
theorem get_not_speed {g : GCode} {k : Char} {d m : ℝ} :
    g.get k d m ≠ .error (.gmachine "out of maximum speed") := by
  unfold GCode.get
  intro h
  split at h
  · cases h
  · split at h <;> cases h

theorem radius_not_speed {g : GCode} {d : V4 ℝ} {m : ℝ} :
    g.radius d m ≠ .error (.gmachine "out of maximum speed") := by
  unfold GCode.radius
  intro h
  rcases hi : g.get 'I' d.x m with e | x
  · rw [hi] at h; cases h; exact get_not_speed hi
  · rcases hj : g.get 'J' d.y m with e | y
    · rw [hi, hj] at h; cases h; exact get_not_speed hj
    · rcases hk : g.get 'K' d.z m with e | z
      · rw [hi, hj, hk] at h; cases h; exact get_not_speed hk
      · rw [hi, hj, hk] at h; cases h

/-- A `G0` line is not refused when the rounded move passes the check. -/
theorem rapid_accepted {s s' : MState ℝ} {g : GCode} (hg : lineCmd g = .g0) {d : V4 ℝ}
    (hd : readDelta s g = .ok d) {v : ℝ} (hv : rapidVelocity c d = .ok v)
    (henv : ∀ tr, env.move tr ≠ some (.gmachine "out of maximum speed"))
    (hok : Coord.isZero (roundToSteps c d) = false →
      ∃ lg, LinearGen.new c (roundToSteps c d) v = .ok lg ∧
        checkVelocity c (Gen.linear lg).maxVelocity = .ok ()) :
    doCommand c env (some g) s ≠ (.error (.gmachine "out of maximum speed"), s') := by
  intro h
  rcases doCommand_cases (c := c) (env := env) g s with ⟨e, h1, h2 | h2 | h2⟩ |
    ⟨d', f, r, h1, -, -, ⟨-, h4⟩ | ⟨-, ⟨a', s1, h5, h6⟩ | ⟨e, s1, h5, h6⟩⟩⟩
  · rw [hd] at h2; cases h2
  · rw [h] at h1; cases h1; exact get_not_speed h2
  · rw [h] at h1; cases h1; exact radius_not_speed h2
  · rw [h] at h4
    have := congrArg Prod.fst h4
    simp at this
  · rw [h] at h6; cases h6
  · rw [h] at h6
    cases h6
    rw [hd] at h1
    cases h1
    rw [hg] at h5
    simp only [execCmd, hv, M.bind_lift_ok] at h5
    rcases moveLinear_cases (c := c) (env := env) d v s with ⟨k1, k2⟩ | ⟨k0, e, k2, k3⟩ |
      ⟨_, lg, _, k1, _, ⟨e, k3, k2⟩ | ⟨_, k2⟩⟩
    · have := M.bind_ok (f := fun _ => (pure none : M ℝ (Option (Answer ℝ)))) k2
      rw [this] at h5; cases h5
    · have := M.bind_error (f := fun _ => (pure none : M ℝ (Option (Answer ℝ)))) k2
      rw [this] at h5
      cases h5
      obtain ⟨lg, l1, l2⟩ := hok k0
      rcases k3 with k3 | k3 | ⟨lg', k3, k4⟩
      · unfold checkDelta at k3
        split at k3
        · cases k3
        · simp at k3
      · rw [l1] at k3; cases k3
      · rw [l1] at k3; cases k3
        rw [l2] at k4; cases k4
    · have := M.bind_error (f := fun _ => (pure none : M ℝ (Option (Answer ℝ)))) k2
      rw [this] at h5
      cases h5
      exact henv _ k3
    · have := M.bind_ok (f := fun _ => (pure none : M ℝ (Option (Answer ℝ)))) k2
      rw [this] at h5; cases h5

theorem rapid_fits (hc : SaneCfg c) {d : V4 ℝ} {v : ℝ} (hsize : ∀ ax, |d.get ax| ≤ 9999)
    (hp : ∀ ax, 1 ≤ c.ppm.get ax) (hz : Coord.isZero (roundToSteps c d) = false) (hv : 60 ≤ v) :
    OrdinaryMove (roundToSteps c d) v where
  decimal := gridV_roundToSteps d
  some := isZero_false hz
  le := fun ax => by
    have := roundToSteps_abs_le (c := c) d ax (hp ax)
    have := hsize ax
    linarith
  ge := fun ax => roundToSteps_ge hc d ax
  feed := by linarith

/-- **C89** with automatic adjustment: a `G0` line is never refused for its speed.  Missing: machines
without adjustment (`C89_single_partial`, `C89_refuted`). -/
theorem C89_adjusted_partial (hc : SaneCfg c) (hl : DecimalLimits c) (hp : ∀ ax, 1 ≤ c.ppm.get ax)
    (ha : c.autoVel = true)
    (henv : ∀ tr, env.move tr ≠ some (.gmachine "out of maximum speed"))
    {s s' : MState ℝ} (hs : Reachable c env s) {g : GCode} (hg : lineCmd g = .g0) {d : V4 ℝ}
    (hd : readDelta s g = .ok d) (hsize : ∀ ax, |d.get ax| ≤ 9999) :
    doCommand c env (some g) s ≠ (.error (.gmachine "out of maximum speed"), s') := by
  have hgr := (readDelta_ok (tidy_reachable hs) hd).1
  obtain ⟨v, hv, h60⟩ := rapidVelocity_ok hc hgr
  refine rapid_accepted hg hd hv henv fun hz => ?_
  have hm := rapid_fits hc hsize hp hz h60
  obtain ⟨lg, _, _, h1, _⟩ := linear_new hc hm
  exact ⟨lg, h1, checkVelocity_of_le hl (linear_limit hc hl ha hm h1)⟩

/-- **C89** without adjustment, for moves of one axis: a `G0` line is never refused for its speed.
Missing: moves of several axes (`C89_refuted`). -/
theorem C89_single_partial (hc : SaneCfg c) (hl : DecimalLimits c) (hp : ∀ ax, 1 ≤ c.ppm.get ax)
    (ha : c.autoVel = false)
    (henv : ∀ tr, env.move tr ≠ some (.gmachine "out of maximum speed"))
    {s s' : MState ℝ} (hs : Reachable c env s) {g : GCode} (hg : lineCmd g = .g0) {d : V4 ℝ}
    (hd : readDelta s g = .ok d) (hsize : ∀ ax, |d.get ax| ≤ 9999) {ax : Axis}
    (h1 : ∀ ax', ax' ≠ ax → d.get ax' = 0) :
    doCommand c env (some g) s ≠ (.error (.gmachine "out of maximum speed"), s') := by
  have hgr := (readDelta_ok (tidy_reachable hs) hd).1
  obtain ⟨v, hv, h60⟩ := rapidVelocity_ok hc hgr
  refine rapid_accepted hg hd hv henv fun hz => ?_
  have hm := rapid_fits hc hsize hp hz h60
  obtain ⟨lg, _, _, h2, _⟩ := linear_new hc hm
  refine ⟨lg, h2, checkVelocity_of_le hl (linear_limit_manual hc hl ha hm (fun ax' => ?_) h2)⟩
  have hone : ∀ {u : V4 ℝ}, (∀ ax', ax' ≠ ax → u.get ax' = 0) → norm4 u = |u.get ax| := by
    intro u hu
    rw [norm4, ← Real.sqrt_sq_eq_abs]
    congr 1
    have hx := hu .x
    have hy := hu .y
    have hz := hu .z
    have he := hu .e
    cases ax <;> simp_all [V4.get]
  have hr : ∀ ax', ax' ≠ ax → (roundToSteps c d).get ax' = 0 := fun ax' h => by
    rw [get_roundToSteps, h1 ax' h, zero_div, rnd_zero, Int.cast_zero, zero_mul, round10_zero]
  have hM : (0 : ℝ) ≤ c.maxVel.get ax' := by
    have : (60 : ℝ) ≤ c.maxVel.get ax' := by exact_mod_cast hc.maxVel ax'
    linarith
  rw [hone hr]
  by_cases hax : ax' = ax
  · subst hax
    have hne : d.get ax' ≠ 0 := by
      intro h0
      obtain ⟨i, hi⟩ := hm.some
      by_cases hia : i = ax'
      · subst hia
        rw [get_roundToSteps, h0, zero_div, rnd_zero, Int.cast_zero, zero_mul, round10_zero] at hi
        exact hi rfl
      · exact hi (hr i hia)
    have hN : 0 < norm4 d := by rw [hone h1]; exact abs_pos.2 hne
    have hsh := rapid_share hc hgr hN hv ax'
    rw [hone h1, div_self (abs_pos.2 hne).ne',
      show PyNum.round10 (1 : ℝ) = 1 from round10_grid (by simpa using Grid.int 1), mul_one] at hsh
    exact mul_le_mul_of_nonneg_right hsh (abs_nonneg _)
  · rw [hr ax' hax, abs_zero, mul_zero]
    exact mul_nonneg hM (abs_nonneg _)

/-! ### The line `G0X4.0049Z2.9989` -/

/-- `G0X4.0049Z2.9989` -/
def steepLine : GCode := ⟨[('G', ['0']), ('X', "4.0049".toList), ('Z', "2.9989".toList)]⟩

/-- The coordinates that it names. -/
def steepWords : Axis → Option ℚ
  | .x => some (40049 / 10000)
  | .z => some (29989 / 10000)
  | _ => none

/-- The programmed move. -/
noncomputable def steepMove : V4 ℝ := ⟨40049 / 10000, 0, 29989 / 10000, 0⟩

/-- The move in whole steps. -/
noncomputable def steepSteps : V4 ℝ := ⟨4, 0, 3, 0⟩

omit [PyRound] in
theorem steep_parse [PyText] : parseLine "G0X4.0049Z2.9989".toList = .ok (some steepLine) := by
  refine parse_words (ws := [('G', ['0']), ('X', "4.0049".toList), ('Z', "2.9989".toList)])
    ⟨by decide, ?_, by decide, by decide⟩ (by decide)
  · intro w hw
    simp only [List.mem_cons, List.not_mem_nil, or_false] at hw
    rcases hw with rfl | rfl | rfl
    · exact ⟨by decide, [], _, rfl, .inl rfl, by decide, by decide⟩
    · exact ⟨by decide, [], _, rfl, .inl rfl, by decide, by decide⟩
    · exact ⟨by decide, [], _, rfl, .inl rfl, by decide, by decide⟩

omit [PyRound] in
theorem steep_words : Words steepLine steepWords := by
  intro ax
  cases ax
  case x => exact ⟨_, rfl, by decide +kernel⟩
  case z => exact ⟨_, rfl, by decide +kernel⟩
  all_goals change List.lookup _ _ = none; decide

omit [PyRound] in
theorem steep_grid : GridV steepMove := by
  intro ax
  cases ax
  · exact ⟨40049 * 10 ^ 6, by norm_num [steepMove, V4.get, e10_val]⟩
  · simpa [steepMove, V4.get] using Grid.int 0
  · exact ⟨29989 * 10 ^ 6, by norm_num [steepMove, V4.get, e10_val]⟩
  · simpa [steepMove, V4.get] using Grid.int 0

theorem steep_rounds : roundToSteps manualCfg steepMove = steepSteps := by
  apply V4.ext_get
  intro ax
  have z : ∀ ax, steepMove.get ax = 0 → steepSteps.get ax = 0 →
      (roundToSteps manualCfg steepMove).get ax = steepSteps.get ax := by
    intro ax h h'
    rw [get_roundToSteps, h, zero_div, rnd_zero, Int.cast_zero, zero_mul, round10_zero, h']
  cases ax
  · rw [get_roundToSteps]
    have pe : ((manualCfg.ppm.get .x : ℚ) : ℝ) = 100 := by norm_num [V4.get, manualCfg, Cfg.default]
    rw [pe, rnd_unique (n := 400) (by norm_num [steepMove, V4.get, abs_lt])]
    have : (((400 : ℤ) : ℝ) * (1 / 100)) = ((4 : ℤ) : ℝ) := by norm_num
    rw [this]
    exact (round10_grid (Grid.int 4)).trans (by norm_num [steepSteps, V4.get])
  · exact z .y rfl rfl
  · rw [get_roundToSteps]
    have pe : ((manualCfg.ppm.get .z : ℚ) : ℝ) = 400 := by norm_num [V4.get, manualCfg, Cfg.default]
    rw [pe, rnd_unique (n := 1200) (by norm_num [steepMove, V4.get, abs_lt])]
    have : (((1200 : ℤ) : ℝ) * (1 / 400)) = ((3 : ℤ) : ℝ) := by norm_num
    rw [this]
    exact (round10_grid (Grid.int 3)).trans (by norm_num [steepSteps, V4.get])
  · exact z .e rfl rfl

omit [PyRound] in
theorem norm_steep : norm4 steepSteps = 5 := by
  have : (5 : ℝ) = √(5 ^ 2) := by rw [Real.sqrt_sq]; norm_num
  rw [this]
  unfold norm4 steepSteps
  norm_num

/-- The speed is chosen for a direction that is less steep. -/
theorem steep_velocity : ∃ v : ℝ, rapidVelocity manualCfg steepMove = .ok v ∧ 1000.01 < v ∧ v < 1002 := by
  have hc : SaneCfg manualCfg := default_sane false
  obtain ⟨v, hv, -⟩ := rapidVelocity_ok hc steep_grid
  obtain ⟨-, v2, v3, v4⟩ := rapid_spec hc steep_grid hv
  have htop : (maxMaxVel manualCfg : ℝ) = 24000 := by
    rw [maxMaxVel_eq]; norm_num [manualCfg, Cfg.default]
  rw [htop] at v2 v3 v4
  have hsq : norm4 steepMove ^ 2 = 25.03262522 := by
    rw [norm4_sq]; norm_num [steepMove]
  have h0 := norm4_nonneg steepMove
  have hlo : 5.00325 < norm4 steepMove := by
    by_contra h
    push Not at h
    nlinarith
  have hhi : norm4 steepMove < 5.00327 := by
    by_contra h
    push Not at h
    nlinarith
  have h3 := v3 .z
  refine ⟨v, hv, ?_, ?_⟩
  · rcases v4 with rfl | ⟨ax, h1, h2⟩
    · norm_num
    · cases ax
      · norm_num [steepMove, V4.get, manualCfg, Cfg.default] at h2 hlo ⊢
        linarith
      · exact absurd rfl h1
      · norm_num [steepMove, V4.get, manualCfg, Cfg.default] at h2 hlo ⊢
        linarith
      · exact absurd rfl h1
  · norm_num [steepMove, V4.get, manualCfg, Cfg.default] at h3 hhi ⊢
    linarith

/-- **C89 is false** without adjustment: the rapid move `G0X4.0049Z2.9989` from the origin of the
default machine with `AUTO_VELOCITY_ADJUSTMENT = False` is refused with "out of maximum speed".  It is
within the table, and its speed was chosen by the machine itself: for the direction of the programmed
move, which is less steep than that of the move in whole steps, X4 Z3. -/
theorem C89_refuted [PyText] :
    ∃ s, doLine manualCfg env "G0X4.0049Z2.9989".toList (MState.init manualCfg) =
        (.ok (.error (.gmachine "out of maximum speed")), s) ∧
      manualCfg = { Cfg.default with autoVel := false } ∧
      checkDelta manualCfg (MState.init manualCfg : MState ℝ).pos ⟨4, 0, 3, 0⟩ = .ok () := by
  have hpl : Plain (MState.init manualCfg) := by
    have := plain_init
    exact ⟨this.abs, this.conv, this.loc, this.vel, this.plane, this.grid⟩
  have hpi : (MState.init manualCfg : MState ℝ).pos = Coord.zero := rfl
  obtain ⟨d, hd, hdv⟩ := plain_delta hpl (g := steepLine) steep_words (by
    intro ax q hq
    cases ax <;> simp only [steepWords, Option.some.injEq, reduceCtorEq] at hq <;> subst hq
    · exact ⟨40049 * 10 ^ 6, by norm_num [e10_val]⟩
    · exact ⟨29989 * 10 ^ 6, by norm_num [e10_val]⟩)
  have hd' : d = steepMove := by
    apply V4.ext_get
    intro ax
    rw [hdv, hpi]
    cases ax <;> simp only [get_zero] <;> norm_num [steepWords, steepMove, V4.get]
  subst hd'
  obtain ⟨r, hr', -⟩ := plain_radius (g := steepLine) hpl (oi := none) (oj := none) (ok := none)
    rfl rfl rfl
  obtain ⟨v, hv, v1, v2⟩ := steep_velocity
  have hgr : GridV steepSteps := by rw [← steep_rounds]; exact gridV_roundToSteps _
  have hm : OrdinaryMove steepSteps v := by
    refine ⟨hgr, ⟨.x, by norm_num [steepSteps, V4.get]⟩, fun ax => ?_, fun ax h => ?_, by linarith⟩ <;>
      cases ax <;> first | exact absurd rfl h | norm_num [steepSteps, V4.get]
  have hcd : checkDelta manualCfg (MState.init manualCfg : MState ℝ).pos steepSteps = .ok () := by
    have hz0 : (Coord.zero : V4 ℝ) = ⟨0, 0, 0, 0⟩ := V4.ext_get fun ax => by
      rw [get_zero]; cases ax <;> rfl
    rw [hpi, checkDelta_ok (c := manualCfg) (decimalQ_grid default_tableOk.1.2)
      (decimalQ_grid default_tableOk.2.1.2) (decimalQ_grid default_tableOk.2.2.2)
      ⟨default_tableOk.1.1, default_tableOk.2.1.1, default_tableOk.2.2.1⟩ gridV_zero hgr]
    rw [hz0]
    norm_num [manualCfg, Cfg.default, steepSteps]
  obtain ⟨lg, hl, -, -, hrej⟩ := linear_manual (c := manualCfg) (default_sane false)
    (default_limits false) rfl hm (fun ax => by
      rw [norm_steep]
      have ha : ((manualCfg.accel : ℚ) : ℝ) = 3000 := by norm_num [manualCfg, Cfg.default]
      have h4 : |steepSteps.get ax| ≤ 4 := by cases ax <;> norm_num [steepSteps, V4.get]
      have h5 : v / 60 * |steepSteps.get ax| / 5 ≤ 20 := by
        have : v / 60 * |steepSteps.get ax| ≤ 1002 / 60 * 4 := by gcongr
        linarith
      have h6 : 0 ≤ v / 60 * |steepSteps.get ax| / 5 := by
        have := abs_nonneg (steepSteps.get ax)
        have : 0 ≤ v := by linarith
        positivity
      rw [ha]
      generalize v / 60 * |steepSteps.get ax| / 5 = y at *
      norm_num
      nlinarith)
  have hbad := hrej ⟨.z, by
    rw [norm_steep]
    norm_num [manualCfg, Cfg.default, steepSteps, V4.get] at v1 ⊢
    linarith⟩
  have hz : Coord.isZero steepSteps = false := by
    cases hz : Coord.isZero steepSteps
    · rfl
    · have := (isZero_iff _).1 hz .x
      norm_num [steepSteps, V4.get] at this
  have hmv : moveLinear manualCfg env steepMove v (MState.init manualCfg) =
      (.error (.gmachine "out of maximum speed"), MState.init manualCfg) := by
    rcases moveLinear_cases (c := manualCfg) (env := env) steepMove v (MState.init manualCfg) with
      ⟨k1, _⟩ | ⟨_, e, k2, k1⟩ | ⟨_, g, _, k1, k2, _⟩
    · rw [steep_rounds, hz] at k1; cases k1
    · rw [steep_rounds] at k1
      rcases k1 with k1 | k1 | ⟨g, k1, k3⟩
      · rw [hcd] at k1; cases k1
      · rw [hl] at k1; cases k1
      · rw [hl] at k1; cases k1
        rw [hbad] at k3; cases k3
        exact k2
    · rw [steep_rounds, hl] at k1; cases k1
      rw [hbad] at k2; cases k2
  have hx : ∀ f, execCmd manualCfg env (lineCmd steepLine) steepLine steepMove r f
      (MState.init manualCfg) = (.error (.gmachine "out of maximum speed"), MState.init manualCfg) := by
    intro f
    have : lineCmd steepLine = .g0 := by decide
    rw [this]
    simp only [execCmd, hv, M.bind_lift_ok]
    exact M.bind_error hmv
  have hF : steepLine.get 'F' (MState.init manualCfg : MState ℝ).vel (PyNum.ofRat 1) = .ok 600 := by
    have := get_wordIs (g := steepLine) (k := 'F') (o := none) rfl (MState.init manualCfg : MState ℝ).vel
    rw [ofRat_eq, Rat.cast_one, this, hpl.vel]
  have hmin : ((600 : ℝ) <ₚ PyNum.ofRat manualCfg.minVel) = false := by
    rw [lt_false_iff, ofRat_eq]; norm_num [manualCfg, Cfg.default]
  have hdo : doCommand manualCfg env (some steepLine) (MState.init manualCfg) =
      (.error (.gmachine "out of maximum speed"), MState.init manualCfg) := by
    rcases doCommand_cases (c := manualCfg) (env := env) steepLine (MState.init manualCfg) with
      ⟨e, h1, h | h | h⟩ | ⟨d', v', r', h1, h2, h3, ⟨h4, _⟩ | ⟨_, ⟨a', s', h5, h6⟩ | ⟨e, s', h5, h6⟩⟩⟩
    · rw [hd] at h; cases h
    · rw [hF] at h; cases h
    · rw [hr'] at h; cases h
    · rw [hF] at h2; cases h2; rw [hmin] at h4; cases h4
    · rw [hd] at h1; cases h1
      rw [hr'] at h3; cases h3
      rw [hx] at h5; cases h5
    · rw [hd] at h1; cases h1
      rw [hr'] at h3; cases h3
      rw [hx] at h5; cases h5
      exact h6
  refine ⟨MState.init manualCfg, ?_, rfl, hcd⟩
  unfold doLine
  rw [steep_parse]
  simp only [hdo]
  rfl

/-- The default machine and one without adjustment meet the hypotheses. -/
example : SaneCfg Cfg.default ∧ DecimalLimits Cfg.default ∧ Cfg.default.autoVel = true ∧
    (∀ ax, 1 ≤ Cfg.default.ppm.get ax) ∧ SaneCfg manualCfg ∧ DecimalLimits manualCfg ∧
    manualCfg.autoVel = false ∧ (∀ ax, 1 ≤ manualCfg.ppm.get ax) :=
  ⟨default_sane true, default_limits true, rfl, fun ax => by cases ax <;> norm_num [Cfg.default, V4.get],
    default_sane false, default_limits false, rfl,
    fun ax => by cases ax <;> norm_num [manualCfg, Cfg.default, V4.get]⟩

/-- `G0Z5` on the machine without adjustment moves one axis. -/
example : lineCmd ⟨[('G', ['0']), ('Z', ['5'])]⟩ = .g0 ∧
    ∃ d : V4 ℝ, readDelta (MState.init manualCfg) ⟨[('G', ['0']), ('Z', ['5'])]⟩ = .ok d ∧
      d.get .z = 5 ∧ (∀ ax, |d.get ax| ≤ 9999) ∧ ∀ ax', ax' ≠ .z → d.get ax' = 0 := by
  have hpl : Plain (MState.init manualCfg) := by
    have := plain_init
    exact ⟨this.abs, this.conv, this.loc, this.vel, this.plane, this.grid⟩
  obtain ⟨d, hd, hdv⟩ := plain_delta hpl (g := ⟨[('G', ['0']), ('Z', ['5'])]⟩)
    (w := fun | .z => some 5 | _ => none) (by
      intro ax
      cases ax
      case z => exact ⟨_, rfl, by decide +kernel⟩
      all_goals change List.lookup _ _ = none; decide) (by
      intro ax q hq
      cases ax <;> simp only [Option.some.injEq, reduceCtorEq] at hq
      subst hq
      exact Grid.int 5)
  have hpi : (MState.init manualCfg : MState ℝ).pos = Coord.zero := rfl
  have hz : d.get .z = 5 := by rw [hdv, hpi, get_zero]; norm_num
  have h0 : ∀ ax', ax' ≠ .z → d.get ax' = 0 := fun ax' h => by
    rw [hdv]
    cases ax' <;> first | exact absurd rfl h | rfl
  refine ⟨by decide, d, hd, hz, fun ax => ?_, h0⟩
  by_cases h : ax = .z
  · subst h; rw [hz]; norm_num
  · rw [h0 ax h]; norm_num

end PyCNC.Props
