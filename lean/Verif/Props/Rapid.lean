import Verif.Spec.Rapid
import Verif.Lemmas.Rapid
import Verif.Props.Feed
import Verif.Props.InterpHuge

/-!
# Property C83: the speed of rapid moves

Exact arithmetic, for every nearest-integer rounding (`PyRound`).
-/

namespace PyCNC.Props

open PyCNC Spec

variable [PyRound] {c : Cfg} {env : Env ℝ}

/-- **C83.** A `G0` line that is accepted hands over a straight move at a speed at which no axis is
faster than its limit.  Either one mm/min more is too fast for some axis, or the speed is the limit of
the fastest axis.  The speed is chosen for the programmed move `d`; the move itself is `d` rounded to
steps.  (That every rapid move is as fast as its axes allow is false, see `C83_refuted`.) -/
theorem C83_rapid_partial (hc : SaneCfg c) {s s' : MState ℝ} (hs : Reachable c env s) {g : GCode}
    (hg : lineCmd g = .g0) {d : V4 ℝ} (hd : readDelta s g = .ok d) {a : Option (Answer ℝ)}
    (h : doCommand c env (some g) s = (.ok a, s')) :
    (s'.trace = s.trace ∧ s'.pos = s.pos ∧ ∀ ax, (roundToSteps c d).get ax = 0) ∨
    ∃ (lg : LinearGen ℝ) (v top : ℝ), FastestAxis c top ∧
      LinearGen.new c (roundToSteps c d) v = .ok lg ∧ s'.trace = .move (.linear lg) :: s.trace ∧
      60 ≤ v ∧ v ≤ top ∧ WithinLimits c d v (top / 10 ^ 10) ∧
      (v = top ∨ AtLimit c d v ((top + 1) / 10 ^ 10)) := by
  have hgr := (readDelta_ok (tidy_reachable hs) hd).1
  obtain ⟨v, hv, -⟩ := rapidVelocity_ok hc hgr
  obtain ⟨v1, v2, v3, v4⟩ := rapid_spec hc hgr hv
  have htop : FastestAxis c (maxMaxVel c) := by
    rw [maxMaxVel_eq]
    constructor
    · rcases max_choice (max (max (c.maxVel.x : ℝ) c.maxVel.y) c.maxVel.z) c.maxVel.e with e | e <;>
        rw [e]
      · rcases max_choice (max (c.maxVel.x : ℝ) c.maxVel.y) c.maxVel.z with e | e <;> rw [e]
        · rcases max_choice (c.maxVel.x : ℝ) c.maxVel.y with e | e <;> rw [e]
          · exact ⟨.x, rfl⟩
          · exact ⟨.y, rfl⟩
        · exact ⟨.z, rfl⟩
      · exact ⟨.e, rfl⟩
    · intro ax
      cases ax <;> simp [V4.get]
  rcases doCommand_cases (c := c) (env := env) g s with ⟨e, h1, -⟩ |
    ⟨d', f, r, h1, -, -, ⟨-, h4⟩ | ⟨-, ⟨a', s1, h5, h6⟩ | ⟨e, s1, -, h6⟩⟩⟩
  · rw [h] at h1; cases h1
  · rw [h] at h4; cases h4
  · rw [hd] at h1
    cases h1
    rw [h] at h6
    cases h6
    rw [hg] at h5
    simp only [execCmd, hv, M.bind_lift_ok] at h5
    rcases moveLinear_cases (c := c) (env := env) d v s with ⟨k1, k2⟩ | ⟨_, e, k2, -⟩ |
      ⟨_, lg, _, k1, _, ⟨e, _, k2⟩ | ⟨_, k2⟩⟩
    · have := M.bind_ok (f := fun _ => (pure none : M ℝ (Option (Answer ℝ)))) k2
      rw [this] at h5
      cases h5
      exact .inl ⟨rfl, rfl, (isZero_iff _).1 k1⟩
    · have := M.bind_error (f := fun _ => (pure none : M ℝ (Option (Answer ℝ)))) k2
      rw [this] at h5; cases h5
    · have := M.bind_error (f := fun _ => (pure none : M ℝ (Option (Answer ℝ)))) k2
      rw [this] at h5; cases h5
    · have := M.bind_ok (f := fun _ => (pure none : M ℝ (Option (Answer ℝ)))) k2
      rw [this] at h5
      cases h5
      exact .inr ⟨lg, v, _, htop, k1, rfl, v1, v2, v3, v4⟩
  · rw [h] at h6; cases h6

/-! ### The line `G0X100Y50` -/

/-- `G0X100Y50` -/
def rapidLine : GCode := ⟨[('G', ['0']), ('X', "100".toList), ('Y', "50".toList)]⟩

/-- The coordinates that it names. -/
def rapidWords : Axis → Option ℚ
  | .x => some 100
  | .y => some 50
  | _ => none

/-- The move. -/
def rapidMove : V4 ℝ := ⟨100, 50, 0, 0⟩

omit [PyRound] in
theorem rapid_parse [PyText] : parseLine "G0X100Y50".toList = .ok (some rapidLine) := by
  refine parse_words (ws := [('G', ['0']), ('X', "100".toList), ('Y', "50".toList)])
    ⟨by decide, ?_, by decide, by decide⟩ (by decide)
  · intro w hw
    simp only [List.mem_cons, List.not_mem_nil, or_false] at hw
    rcases hw with rfl | rfl | rfl <;> exact ⟨by decide, [], _, rfl, .inl rfl, by decide, by decide⟩

omit [PyRound] in
theorem rapid_words : Words rapidLine rapidWords := by
  intro ax
  cases ax
  case x => exact ⟨_, rfl, by decide +kernel⟩
  case y => exact ⟨_, rfl, by decide +kernel⟩
  all_goals change List.lookup _ _ = none; decide

omit [PyRound] in
theorem rapid_grid : GridV rapidMove := by
  intro ax
  cases ax
  · exact Grid.int 100
  · exact Grid.int 50
  · simpa [rapidMove, V4.get] using Grid.int 0
  · simpa [rapidMove, V4.get] using Grid.int 0

omit [PyRound] in
theorem rapid_ordinary : OrdinaryMove rapidMove 24000 where
  decimal := rapid_grid
  some := ⟨.x, by norm_num [rapidMove, V4.get]⟩
  le := fun ax => by cases ax <;> norm_num [rapidMove, V4.get]
  ge := fun ax h => by cases ax <;> first | exact absurd rfl h | norm_num [rapidMove, V4.get]
  feed := by norm_num

theorem rapid_wide : (111.8 : ℝ) < norm4 rapidMove := by
  have h : norm4 rapidMove ^ 2 = 12500 := by rw [norm4_sq]; norm_num [rapidMove]
  have h0 := norm4_nonneg rapidMove
  nlinarith

theorem rapid_rounds : roundToSteps Cfg.default rapidMove = rapidMove := by
  apply V4.ext_get
  intro ax
  have z : ∀ ax, rapidMove.get ax = 0 → (roundToSteps Cfg.default rapidMove).get ax = rapidMove.get ax := by
    intro ax h
    rw [get_roundToSteps, h, zero_div, rnd_zero, Int.cast_zero, zero_mul, round10_zero]
  cases ax
  · rw [get_roundToSteps]
    have pe : ((Cfg.default.ppm.get .x : ℚ) : ℝ) = 100 := by norm_num [V4.get, Cfg.default]
    rw [pe, rnd_unique (n := 10000) (by norm_num [rapidMove, V4.get])]
    have : (((10000 : ℤ) : ℝ) * (1 / 100)) = rapidMove.get .x := by norm_num [rapidMove, V4.get]
    rw [this]
    exact round10_grid (rapid_grid .x)
  · rw [get_roundToSteps]
    have pe : ((Cfg.default.ppm.get .y : ℚ) : ℝ) = 100 := by norm_num [V4.get, Cfg.default]
    rw [pe, rnd_unique (n := 5000) (by norm_num [rapidMove, V4.get])]
    have : (((5000 : ℤ) : ℝ) * (1 / 100)) = rapidMove.get .y := by norm_num [rapidMove, V4.get]
    rw [this]
    exact round10_grid (rapid_grid .y)
  · exact z .z rfl
  · exact z .e rfl

theorem rapid_velocity : rapidVelocity Cfg.default rapidMove = .ok (24000 : ℝ) := by
  obtain ⟨v, hv, -⟩ := rapidVelocity_ok sane_cfg rapid_grid
  obtain ⟨v1, v2, -, v4⟩ := rapid_spec sane_cfg rapid_grid hv
  have htop : (maxMaxVel Cfg.default : ℝ) = 24000 := by
    rw [maxMaxVel_eq]; norm_num [Cfg.default]
  rw [htop] at v2 v4
  have hw := rapid_wide
  rcases v4 with rfl | ⟨ax, h1, h2⟩
  · exact hv
  · exfalso
    cases ax
    · norm_num [rapidMove, V4.get, Cfg.default] at h2 hw
      nlinarith
    · norm_num [rapidMove, V4.get, Cfg.default] at h2 hw
      nlinarith
    · exact h1 rfl
    · exact h1 rfl

/-- The machine accepts the line. -/
theorem rapid_runs (henv : ∀ tr, env.move tr = none) : ∃ lg s,
    LinearGen.new Cfg.default rapidMove 24000 = .ok lg ∧
    readDelta (MState.init Cfg.default) rapidLine = .ok rapidMove ∧
    doCommand Cfg.default env (some rapidLine) (MState.init Cfg.default) = (.ok none, s) ∧
    s.trace = .move (.linear lg) :: (MState.init Cfg.default : MState ℝ).trace := by
  obtain ⟨lg, _, _, hl, -⟩ := linear_new (c := Cfg.default) sane_cfg rapid_ordinary
  have hpi : (MState.init Cfg.default : MState ℝ).pos = Coord.zero := rfl
  obtain ⟨d, hd, hdv⟩ := plain_delta plain_init (g := rapidLine) rapid_words (by
    intro ax q hq
    cases ax <;> simp only [rapidWords, Option.some.injEq, reduceCtorEq] at hq <;> subst hq
    · exact Grid.int 100
    · exact Grid.int 50)
  have hd' : d = rapidMove := by
    apply V4.ext_get
    intro ax
    rw [hdv, hpi]
    cases ax <;> simp only [get_zero] <;> norm_num [rapidWords, rapidMove, V4.get]
  subst hd'
  obtain ⟨r, hr', -⟩ := plain_radius (g := rapidLine) plain_init (oi := none) (oj := none) (ok := none)
    rfl rfl rfl
  have hz : Coord.isZero rapidMove = false := by
    cases hz : Coord.isZero rapidMove
    · rfl
    · have := (isZero_iff _).1 hz .x
      norm_num [rapidMove, V4.get] at this
  have hcd : checkDelta Cfg.default (MState.init Cfg.default : MState ℝ).pos rapidMove = .ok () := by
    have hz0 : (Coord.zero : V4 ℝ) = ⟨0, 0, 0, 0⟩ := V4.ext_get fun ax => by
      rw [get_zero]; cases ax <;> rfl
    rw [hpi, checkDelta_ok (decimalQ_grid default_tableOk.1.2)
      (decimalQ_grid default_tableOk.2.1.2) (decimalQ_grid default_tableOk.2.2.2)
      ⟨default_tableOk.1.1, default_tableOk.2.1.1, default_tableOk.2.2.1⟩ gridV_zero rapid_grid]
    rw [hz0]
    norm_num [Cfg.default, rapidMove]
  have hv : checkVelocity Cfg.default (Gen.linear lg).maxVelocity = .ok () :=
    checkVelocity_of_le (default_limits true)
      (linear_limit sane_cfg (default_limits true) auto_default rapid_ordinary hl)
  have hm : ∃ s, moveLinear Cfg.default env rapidMove 24000 (MState.init Cfg.default) = (.ok (), s) ∧
      s.trace = .move (.linear lg) :: (MState.init Cfg.default : MState ℝ).trace := by
    rcases moveLinear_cases (c := Cfg.default) (env := env) rapidMove 24000 (MState.init Cfg.default) with
      ⟨k1, _⟩ | ⟨_, e, _, k1⟩ | ⟨_, g, _, k1, _, ⟨e, k2, _⟩ | ⟨_, k2⟩⟩
    · rw [rapid_rounds, hz] at k1; cases k1
    · rw [rapid_rounds] at k1
      rcases k1 with k1 | k1 | ⟨g, k1, k2⟩
      · rw [hcd] at k1; cases k1
      · rw [hl] at k1; cases k1
      · rw [hl] at k1; cases k1
        rw [hv] at k2; cases k2
    · rw [henv] at k2; cases k2
    · rw [rapid_rounds, hl] at k1; cases k1
      exact ⟨_, k2, rfl⟩
  obtain ⟨s, k1, k2⟩ := hm
  have hx : execCmd Cfg.default env (lineCmd rapidLine) rapidLine rapidMove r 600
      (MState.init Cfg.default) = (.ok none, s) := by
    have : lineCmd rapidLine = .g0 := by decide
    rw [this]
    simp only [execCmd, rapid_velocity, M.bind_lift_ok]
    exact M.bind_ok k1
  exact ⟨lg, _, hl, hd, plain_run_line plain_init hd hr' rfl hx, k2⟩

/-- **C83 is false**: the rapid move `G0X100Y50` of the default machine runs at 24000 mm/min, the limit
of X alone.  At 26000 mm/min no axis would be faster than its limit.  The motors have speeds `w` of at
most nine tenths of their limits, and the move is long enough to reach them (see C80). -/
theorem C83_refuted [PyText] (henv : ∀ tr, env.move tr = none) :
    ∃ (lg : LinearGen ℝ) (s : MState ℝ) (w : V4 ℝ),
      machineRun Cfg.default env (MState.init Cfg.default) ["G0X100Y50".toList] = some ([true], s) ∧
      s.trace = .move (.linear lg) :: (MState.init Cfg.default : MState ℝ).trace ∧
      LinearGen.new Cfg.default ⟨100, 50, 0, 0⟩ 24000 = .ok lg ∧
      WithinLimits Cfg.default ⟨100, 50, 0, 0⟩ 26000 0 ∧
      FeedVelocity Cfg.default ⟨100, 50, 0, 0⟩ 24000 w ∧
      (∀ ax, w.get ax ≤ 9 / 10 * (Cfg.default.maxVel.get ax / 60)) ∧
      2 * (norm4 w / Cfg.default.accel) < (Gen.linear lg).totalTime := by
  obtain ⟨lg, s, h1, -, h2, h3⟩ := rapid_runs henv
  obtain ⟨w, w1, w2, -, w4, -⟩ := linear_feed (c := Cfg.default) sane_cfg rapid_ordinary h1
  have hw := rapid_wide
  obtain ⟨q, q0, q1, hq⟩ : ∃ q : ℝ, 0 < q ∧ q ≤ 400 ∧
      ∀ ax, |w.get ax - |rapidMove.get ax| / norm4 rapidMove * q| ≤ 1 / 10 ^ 10 := by
    rcases w1 with h | ⟨-, ⟨q, q0, q1, h⟩, -⟩
    · exact ⟨24000 / 60, by norm_num, by norm_num, h⟩
    · exact ⟨q, q0, by linarith, h⟩
  have hlow : ∀ ax, -1 ≤ w.get ax := fun ax => by
    have h4 := (abs_le.1 (hq ax)).1
    have h5 : 0 ≤ |rapidMove.get ax| / norm4 rapidMove * q :=
      mul_nonneg (div_nonneg (abs_nonneg _) (norm4_nonneg _)) q0.le
    norm_num at h4
    linarith
  have hz : ∀ ax, rapidMove.get ax = 0 → |w.get ax| ≤ 1 / 10 ^ 10 := fun ax h => by
    have := hq ax
    rwa [h, abs_zero, zero_div, zero_mul, sub_zero] at this
  have hb : ∀ ax, w.get ax ≤ 9 / 10 * (Cfg.default.maxVel.get ax / 60) := by
    intro ax
    have h4 := (abs_le.1 (hq ax)).2
    have h5 : |rapidMove.get ax| / norm4 rapidMove * q ≤ |rapidMove.get ax| / 111.8 * 400 := by
      gcongr
    cases ax <;> norm_num [rapidMove, V4.get, Cfg.default] at h4 h5 ⊢ <;> linarith
  refine ⟨lg, s, w, ?_, h3, h1, ?_, w1, ?_, ?_⟩
  · have hl : doLine Cfg.default env "G0X100Y50".toList (MState.init Cfg.default) =
        (.ok (.ok none), s) := by
      unfold doLine
      rw [rapid_parse]
      simp only [h2]
    simp only [machineRun, hl, Option.map_some]
  · unfold rapidMove at hw
    intro ax
    cases ax <;> norm_num [V4.get, Cfg.default] at hw ⊢ <;> linarith
  · exact hb
  · have e : ∀ ax, |w.get ax| ≤ 9 / 10 * (Cfg.default.maxVel.get ax / 60) := fun ax =>
      abs_le.2 ⟨by have := hlow ax; have : (0 : ℝ) ≤ Cfg.default.maxVel.get ax - 600 := by
                     cases ax <;> norm_num [Cfg.default, V4.get]
                   linarith, hb ax⟩
    have ex := e .x
    have ey := e .y
    have ez := hz .z rfl
    have ee := hz .e rfl
    have hn := norm4_sq w
    norm_num [V4.get, Cfg.default] at ex ey ez ee
    have q1 : w.x ^ 2 ≤ 360 ^ 2 := sq_le_sq' (by linarith [(abs_le.1 ex).1]) (abs_le.1 ex).2
    have q2 : w.y ^ 2 ≤ 180 ^ 2 := sq_le_sq' (by linarith [(abs_le.1 ey).1]) (abs_le.1 ey).2
    have q3 : w.z ^ 2 ≤ 1 ^ 2 := sq_le_sq' (by linarith [(abs_le.1 ez).1]) (by linarith [(abs_le.1 ez).2])
    have q4 : w.e ^ 2 ≤ 1 ^ 2 := sq_le_sq' (by linarith [(abs_le.1 ee).1]) (by linarith [(abs_le.1 ee).2])
    have hw4 : norm4 w ≤ 403 := by
      by_contra hcon
      push Not at hcon
      nlinarith
    have h5 : 111.8 / 403 ≤ norm4 rapidMove / norm4 w := by
      rw [div_le_div_iff₀ (by norm_num) w2]
      nlinarith
    have h6 : ((Cfg.default.accel : ℚ) : ℝ) = 3000 := by norm_num [Cfg.default]
    rw [h6]
    have h7 := h5.trans w4
    norm_num at h7
    linarith

/-- The environment of a machine without faults. -/
example : ∀ tr, (⟨fun _ => none, fun _ => none, fun _ => true, fun _ => none⟩ : Env ℝ).move tr = none :=
  fun _ => rfl

/-- That line meets the hypotheses of C83. -/
example (henv : ∀ tr, env.move tr = none) : ∃ s, SaneCfg Cfg.default ∧
    Reachable Cfg.default env (MState.init Cfg.default) ∧ lineCmd rapidLine = .g0 ∧
    readDelta (MState.init Cfg.default : MState ℝ) rapidLine = .ok rapidMove ∧
    doCommand Cfg.default env (some rapidLine) (MState.init Cfg.default) = (.ok none, s) := by
  obtain ⟨lg, s, -, h1, h2, -⟩ := rapid_runs henv
  exact ⟨s, sane_cfg, .init, by decide, h1, h2⟩

end PyCNC.Props
