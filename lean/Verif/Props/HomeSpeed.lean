import Verif.Props.RapidSpeed
import Verif.Lemmas.Raises

/-!
# Property C100: homing is not refused for its speed

Exact arithmetic, for every nearest-integer rounding (`PyRound`).
-/

namespace PyCNC.Props

open PyCNC Spec

variable [PyRound] {c : Cfg} {env : Env ℝ}

/-- Any exception but that of the velocity check. -/
def NotSpeed (e : PyErr) : Prop := e ≠ .gmachine "out of maximum speed"

omit [PyRound] in
theorem abs_le_norm4 (d : V4 ℝ) (ax : Axis) : |d.get ax| ≤ norm4 d := by
  rw [← Real.sqrt_sq_eq_abs]
  refine Real.sqrt_le_sqrt ?_
  cases ax <;> simp only [V4.get] <;>
    nlinarith [sq_nonneg d.x, sq_nonneg d.y, sq_nonneg d.z, sq_nonneg d.e]

/-- A move whose velocity is adjusted, or within the limits of all axes that it moves, is not refused for it. -/
theorem moveLinear_notSpeed (hc : SaneMachine c) (hl : DecimalLimits c)
    (henv : ∀ tr, env.move tr ≠ some (.gmachine "out of maximum speed")) {d : V4 ℝ} {v : ℝ}
    (he : |(roundToSteps c d).e| ≤ 10 ^ 4) (hv : 1 ≤ v)
    (h : c.autoVel = true ∨ ∀ ax, d.get ax = 0 ∨ v ≤ c.maxVel.get ax) :
    M.Raises (Fit c) NotSpeed (moveLinear c env d v) := by
  intro s hs
  rcases moveLinear_cases (c := c) (env := env) d v s with ⟨_, k⟩ | ⟨hz, e, k, hr⟩ |
    ⟨_, g, hck, _, _, ⟨e, hm, k⟩ | ⟨_, k⟩⟩
  · rw [k]
    refine ⟨fun a s' h' => ?_, fun e s' h' => by simp at h'⟩
    simp only [Prod.mk.injEq, true_and] at h'
    exact h' ▸ hs
  · rw [k]
    refine ⟨fun a s' h' => by simp at h', fun e' s' h' => ?_⟩
    simp only [Prod.mk.injEq, Except.error.injEq] at h'
    obtain ⟨rfl, rfl⟩ := h'
    have hno : ∀ e', checkDelta c s.pos (roundToSteps c d) = .error e' → NotSpeed e' := by
      intro e' h
      unfold checkDelta at h
      split at h
      · cases h
      · cases h; simp [NotSpeed]
    rcases hck : checkDelta c s.pos (roundToSteps c d) with e' | _
    · have h2 : moveLinear c env d v s = (.error e', s) := by
        simp only [moveLinear, hz, Bool.false_eq_true, if_false, M.bind_get, hck,
          M.bind_lift_error]
      rw [k] at h2
      simp only [Prod.mk.injEq, Except.error.injEq, and_true] at h2
      exact h2 ▸ hno _ hck
    · have hm := ordinary_of_check hc hs hz hck he hv
      obtain ⟨g, _, _, h1, _⟩ := linear_new hc.cfg hm
      have hlim : ∀ ax, g.maxV.get ax ≤ (c.maxVel.get ax : ℝ) / 60 := by
        rcases h2 : c.autoVel with _ | _
        · refine linear_limit_manual hc.cfg hl h2 hm (fun ax => ?_) h1
          have hM : (60 : ℝ) ≤ c.maxVel.get ax := by exact_mod_cast hc.cfg.maxVel ax
          have hN := abs_le_norm4 (roundToSteps c d) ax
          rcases h with h | h
          · rw [h2] at h; cases h
          · rcases h ax with h | h
            · rw [get_roundToSteps, h, zero_div, rnd_zero, Int.cast_zero, zero_mul, round10_zero, abs_zero,
                mul_zero]
              have := norm4_nonneg (roundToSteps c d)
              positivity
            · exact mul_le_mul h hN (abs_nonneg _) (by linarith)
        · exact linear_limit hc.cfg hl h2 hm h1
      rcases hr with hr | hr | ⟨g', h3, hr⟩
      · exact hno _ hr
      · rw [h1] at hr; cases hr
      · rw [h1] at h3; cases h3
        rw [checkVelocity_of_le hl hlim] at hr; cases hr
  · rw [k]
    refine ⟨fun a s' h' => by simp at h', fun e' s' h' => ?_⟩
    simp only [Prod.mk.injEq, Except.error.injEq] at h'
    obtain ⟨rfl, -⟩ := h'
    rintro rfl
    exact henv _ hm
  · rw [k]
    refine ⟨fun a s' h' => ?_, fun e s' h' => by simp at h'⟩
    simp only [Prod.mk.injEq, true_and] at h'
    subst h'
    exact checkDelta_inTable hc.table hs.grid hck

/-- `safe_zero` is not refused for its speed, unless it moves Y alone. -/
theorem safeZero_notSpeed (hc : SaneMachine c) (hl : DecimalLimits c)
    (henv : ∀ tr, env.move tr ≠ some (.gmachine "out of maximum speed")) {x y z : Bool}
    (h : c.autoVel = true ∨ c.maxVel.x ≤ c.maxVel.y ∨ x = true ∨ y = false) :
    M.Raises (Fit c) NotSpeed (safeZero c env x y z) := by
  have m60 : ∀ ax, (1 : ℝ) ≤ (c.maxVel.get ax : ℝ) := fun ax => by
    have : (60 : ℝ) ≤ c.maxVel.get ax := by exact_mod_cast hc.cfg.maxVel ax
    linarith
  have mx := m60 .x
  have my := m60 .y
  have mz := m60 .z
  simp only [V4.get] at mx my mz
  have zr : (PyNum.round10 (zeroF : ℝ) : ℝ) = 0 := by rw [zeroF_eq, round10_zero]
  have hmv : ∀ (a b e : ℝ) {v : ℝ}, 1 ≤ v → (c.autoVel = true ∨ ∀ ax,
      (Coord.new a b e zeroF : V4 ℝ).get ax = 0 ∨ v ≤ c.maxVel.get ax) →
      M.Raises (Fit c) NotSpeed (moveLinear c env (Coord.new a b e zeroF) v) := by
    intro a b e v hv h
    refine moveLinear_notSpeed hc hl henv (roundToSteps_e_le hc ?_) hv h
    have : (Coord.new a b e zeroF : V4 ℝ).e = 0 := zr
    rw [this]; norm_num
  have ex : (PyNum.ofRat c.maxVel.x : ℝ) = c.maxVel.x := by simp
  have ez : (PyNum.ofRat c.maxVel.z : ℝ) = c.maxVel.z := by simp
  have exy : (pmin (PyNum.ofRat c.maxVel.x) (PyNum.ofRat c.maxVel.y) : ℝ) =
      min (c.maxVel.x : ℝ) c.maxVel.y := by rw [pmin_eq]; simp
  have hX : ∀ a : ℝ, M.Raises (Fit c) NotSpeed
      (moveLinear c env (Coord.new a zeroF zeroF zeroF) (PyNum.ofRat c.maxVel.x)) := fun a => by
    rw [ex]
    refine hmv _ _ _ mx (.inr fun ax => ?_)
    cases ax
    · exact .inr (le_refl _)
    all_goals exact .inl zr
  have hZ : ∀ a : ℝ, M.Raises (Fit c) NotSpeed
      (moveLinear c env (Coord.new zeroF zeroF a zeroF) (PyNum.ofRat c.maxVel.z)) := fun a => by
    rw [ez]
    refine hmv _ _ _ mz (.inr fun ax => ?_)
    cases ax
    case z => exact .inr (le_refl _)
    all_goals exact .inl zr
  have hXY : ∀ a b : ℝ, M.Raises (Fit c) NotSpeed (moveLinear c env (Coord.new a b zeroF zeroF)
      (pmin (PyNum.ofRat c.maxVel.x) (PyNum.ofRat c.maxVel.y))) := fun a b => by
    rw [exy]
    refine hmv _ _ _ (le_min mx my) (.inr fun ax => ?_)
    cases ax
    · exact .inr (min_le_left _ _)
    · exact .inr (min_le_right _ _)
    all_goals exact .inl zr
  have hY : (c.autoVel = true ∨ c.maxVel.x ≤ c.maxVel.y) → ∀ a : ℝ, M.Raises (Fit c) NotSpeed
      (moveLinear c env (Coord.new zeroF a zeroF zeroF) (PyNum.ofRat c.maxVel.x)) := fun h a => by
    rw [ex]
    refine hmv _ _ _ mx (h.imp_right fun h ax => ?_)
    cases ax
    case y => exact .inr (by exact_mod_cast h)
    all_goals exact .inl zr
  unfold safeZero
  refine M.Raises.bind .get fun s => ?_
  cases x <;> cases y <;> cases z <;>
    simp only [Bool.not_true, Bool.not_false, Bool.and_true, Bool.false_eq_true,
      if_false, if_true, Bool.and_self]
  · exact .pure _
  · exact .bind .get fun s => hZ _
  · exact .bind (hY (by simpa using h) _) fun _ => .pure _
  · exact .bind (hY (by simpa using h) _) fun _ => .bind .get fun s => hZ _
  · exact .bind (hX _) fun _ => .pure _
  · exact .bind (hX _) fun _ => .bind .get fun s => hZ _
  · exact .bind (hXY _ _) fun _ => .pure _
  · exact .bind (hXY _ _) fun _ => .bind .get fun s => hZ _

/-- **C100.** A `G28` line is never refused for its speed: not with automatic adjustment, not if X is not
faster than Y, and not if it homes X or does not home Y.  Missing: machines without adjustment whose X is
faster than their Y, when Y is homed and X is not (`C100_refuted`). -/
theorem C100_homing_partial (hc : SaneMachine c) (hl : DecimalLimits c)
    (henv : ∀ tr, env.move tr ≠ some (.gmachine "out of maximum speed"))
    {s s' : MState ℝ} (hs : Reachable c env s) {g : GCode} (hg : Is g 'G' "28")
    (h : c.autoVel = true ∨ c.maxVel.x ≤ c.maxVel.y ∨ Homes g .x ∨ ¬ Homes g .y) :
    doCommand c env (some g) s ≠ (.error (.gmachine "out of maximum speed"), s') := by
  have hl' : lineCmd g = .g28 := is_lineCmd (cmd := .g28) ⟨_, by simp [Cmd.words]; rfl, hg⟩
  intro hd
  rcases doCommand_cases (c := c) (env := env) g s with ⟨e, h1, h2 | h2 | h2⟩ |
    ⟨d', f, r, h1, -, -, ⟨-, h4⟩ | ⟨-, ⟨a', s1, h5, h6⟩ | ⟨e, s1, h5, h6⟩⟩⟩
  · rw [hd] at h1; cases h1
    obtain ⟨k, -⟩ := readDelta_error h2
    cases k
  · rw [hd] at h1; cases h1; exact get_not_speed h2
  · rw [hd] at h1; cases h1; exact radius_not_speed h2
  · rw [hd] at h4
    have := congrArg Prod.fst h4
    simp at this
  · rw [hd] at h6; cases h6
  · rw [hd] at h6
    cases h6
    rw [hl'] at h5
    simp only [execCmd] at h5
    obtain ⟨x, y, z, s2, hrun, hx, hy, -⟩ := home_run (c := c) (env := env) g s
    have hno := (safeZero_notSpeed (env := env) (x := x) (y := y) (z := z) hc hl henv (by
      rcases h with h | h | h | h
      · exact .inl h
      · exact .inr (.inl h)
      · exact .inr (.inr (.inl (hx.2 h)))
      · refine .inr (.inr (.inr ?_))
        rcases hb : y with _ | _
        · rfl
        · exact absurd (hy.1 hb) h)) s (reachable_inTable hc.table hs)
    rcases hrun with ⟨e, n1, n2⟩ | ⟨-, ⟨-, n3⟩ | ⟨-, n3⟩⟩
    · rw [M.bind_error n2] at h5
      cases h5
      exact hno.2 _ _ n1 rfl
    · rw [M.bind_error n3] at h5
      have := congrArg Prod.fst h5
      simp at this
    · rw [M.bind_ok n3] at h5; cases h5

/-- The hypotheses are met by the default machine, which adjusts velocities, and by the same machine without
adjustment and the lines `G28` and `G28X0`. -/
example : SaneMachine Cfg.default ∧ DecimalLimits Cfg.default ∧ Cfg.default.autoVel = true ∧
    Homes ⟨[('G', "28".toList)]⟩ .x ∧ ¬ Homes ⟨[('G', "28".toList), ('X', "0".toList)]⟩ .y := by
  refine ⟨default_plain.sane, default_limits true, rfl, ⟨by decide, .inr ?_⟩, ?_⟩
  · intro ax _
    cases ax <;> decide
  · rintro ⟨-, h | h⟩
    · exact h (by decide)
    · exact absurd (h .x (by decide)) (by decide)

/-! ### The lines `G1Y100` and `G28Y0` -/

/-- Out along Y, or back. -/
noncomputable def alongY (y : ℝ) : V4 ℝ := ⟨0, y, 0, 0⟩

theorem alongY_rounds {y : ℤ} : roundToSteps manualCfg (alongY y) = alongY y := by
  apply V4.ext_get
  intro ax
  have z : ∀ ax, (alongY y).get ax = 0 → (roundToSteps manualCfg (alongY y)).get ax = (alongY y).get ax := by
    intro ax h
    rw [get_roundToSteps, h, zero_div, rnd_zero, Int.cast_zero, zero_mul, round10_zero]
  cases ax
  case y =>
    rw [get_roundToSteps]
    have pe : ((manualCfg.ppm.get .y : ℚ) : ℝ) = 100 := by norm_num [V4.get, manualCfg, Cfg.default]
    have e : (alongY y).get .y / (1 / 100) = ((100 * y : ℤ) : ℝ) := by
      simp only [alongY, V4.get]; push_cast; ring
    rw [pe, e, rnd_int]
    have : (((100 * y : ℤ) : ℝ) * (1 / 100)) = (y : ℝ) := by push_cast; ring
    rw [this]
    exact round10_grid (Grid.int y)
  all_goals exact z _ rfl

omit [PyRound] in
theorem alongY_grid {y : ℤ} : GridV (alongY y) := by
  intro ax
  cases ax
  case y => exact Grid.int y
  all_goals simpa [alongY, V4.get] using Grid.int 0

omit [PyRound] in
theorem norm_alongY (y : ℝ) : norm4 (alongY y) = |y| := by
  rw [norm4, ← Real.sqrt_sq_eq_abs]
  simp [alongY]

/-- A move of 100 mm along Y, at some velocity. -/
theorem alongY_move {y : ℤ} (hy : |y| = 100) {s : MState ℝ} {v : ℝ} (hv : 1 ≤ v) (hv2 : v ≤ 24000)
    (hck : checkDelta manualCfg s.pos (alongY y) = .ok ()) :
    (v ≤ 12000 → (∀ tr, env.move tr = none) → ∃ tr, moveLinear manualCfg env (alongY y) v s =
      (.ok (), { s with pos := Coord.add s.pos (alongY y), trace := tr })) ∧
    (12001 ≤ v → moveLinear manualCfg env (alongY y) v s =
      (.error (.gmachine "out of maximum speed"), s)) := by
  have hyr : |(y : ℝ)| = 100 := by exact_mod_cast hy
  have hm : OrdinaryMove (alongY y) v := by
    refine ⟨alongY_grid, ⟨.y, fun h => ?_⟩, fun ax => ?_, fun ax h => ?_, hv⟩
    · simp only [alongY, V4.get] at h
      rw [h] at hyr; norm_num at hyr
    · cases ax <;> simp [alongY, V4.get, hyr]
      norm_num
    · cases ax <;> simp [alongY, V4.get] at h ⊢
      rw [hyr]; norm_num
  have hz : Coord.isZero (alongY y) = false := by
    cases hz : Coord.isZero (alongY y)
    · rfl
    · obtain ⟨ax, h⟩ := hm.some
      exact absurd ((isZero_iff _).1 hz ax) h
  obtain ⟨lg, h1, -, hacc, hrej⟩ := linear_manual (c := manualCfg) (default_sane false)
    (default_limits false) rfl hm (fun ax => by
      rw [norm_alongY, hyr]
      have ha : ((manualCfg.accel : ℚ) : ℝ) = 3000 := by norm_num [manualCfg, Cfg.default]
      have h4 : |(alongY y).get ax| ≤ 100 := by
        cases ax <;> simp [alongY, V4.get, hyr]
      have h0 := abs_nonneg ((alongY y).get ax)
      have h5 : v / 60 * |(alongY y).get ax| / 100 ≤ 400 := by
        have : v / 60 * |(alongY y).get ax| ≤ 24000 / 60 * 100 := by gcongr
        linarith
      have h6 : 0 ≤ v / 60 * |(alongY y).get ax| / 100 := by
        have : 0 ≤ v := by linarith
        positivity
      rw [ha]
      generalize v / 60 * |(alongY y).get ax| / 100 = w at *
      norm_num
      nlinarith)
  refine ⟨fun hv3 henv => ?_, fun hv3 => ?_⟩
  · have hok := hacc fun ax => by
      rw [norm_alongY, hyr]
      cases ax <;> simp only [alongY, V4.get, hyr] <;> norm_num [manualCfg, Cfg.default]
      linarith
    rcases moveLinear_cases (c := manualCfg) (env := env) (alongY y) v s with
      ⟨k1, _⟩ | ⟨_, e, k2, k1⟩ | ⟨_, g, _, k1, k2, ⟨e, k3, -⟩ | ⟨-, k3⟩⟩
    · rw [alongY_rounds, hz] at k1; cases k1
    · rw [alongY_rounds] at k1
      rcases k1 with k1 | k1 | ⟨g, k1, k3⟩
      · rw [hck] at k1; cases k1
      · rw [h1] at k1; cases k1
      · rw [h1] at k1; cases k1
        rw [hok] at k3; cases k3
    · rw [henv] at k3; cases k3
    · rw [alongY_rounds] at k3
      exact ⟨_, k3⟩
  · have hbad := hrej ⟨.y, by
      rw [norm_alongY, hyr]
      simp only [alongY, V4.get, hyr]
      norm_num [manualCfg, Cfg.default]
      linarith⟩
    rcases moveLinear_cases (c := manualCfg) (env := env) (alongY y) v s with
      ⟨k1, _⟩ | ⟨_, e, k2, k1⟩ | ⟨_, g, _, k1, k2, _⟩
    · rw [alongY_rounds, hz] at k1; cases k1
    · rw [alongY_rounds] at k1
      rcases k1 with k1 | k1 | ⟨g, k1, k3⟩
      · rw [hck] at k1; cases k1
      · rw [h1] at k1; cases k1
      · rw [h1] at k1; cases k1
        rw [hbad] at k3; cases k3
        exact k2
    · rw [alongY_rounds, h1] at k1; cases k1
      rw [hbad] at k2; cases k2

/-- `G1Y100` and `G28Y0`. -/
def outLine : GCode := ⟨[('G', ['1']), ('Y', "100".toList)]⟩
def backLine : GCode := ⟨[('G', "28".toList), ('Y', ['0'])]⟩

omit [PyRound] in
theorem outLine_parse [PyText] : parseLine "G1Y100".toList = .ok (some outLine) := by
  refine parse_words (ws := [('G', ['1']), ('Y', "100".toList)]) ⟨by decide, ?_, by decide, by decide⟩
    (by decide)
  intro w hw
  simp only [List.mem_cons, List.not_mem_nil, or_false] at hw
  rcases hw with rfl | rfl
  · exact ⟨by decide, [], _, rfl, .inl rfl, by decide, by decide⟩
  · exact ⟨by decide, [], _, rfl, .inl rfl, by decide, by decide⟩

omit [PyRound] in
theorem backLine_parse [PyText] : parseLine "G28Y0".toList = .ok (some backLine) := by
  refine parse_words (ws := [('G', "28".toList), ('Y', ['0'])]) ⟨by decide, ?_, by decide, by decide⟩
    (by decide)
  intro w hw
  simp only [List.mem_cons, List.not_mem_nil, or_false] at hw
  rcases hw with rfl | rfl
  · exact ⟨by decide, [], _, rfl, .inl rfl, by decide, by decide⟩
  · exact ⟨by decide, [], _, rfl, .inl rfl, by decide, by decide⟩

/-- A line that is read, and whose command does this. -/
theorem line_runs {s : MState ℝ} (hpl : Plain s) {g : GCode} {w : Axis → Option ℚ} (hw : Words g w)
    (hgr : ∀ ax q, w ax = some q → Grid (q : ℝ)) (hI : g.params.lookup 'I' = none)
    (hJ : g.params.lookup 'J' = none) (hK : g.params.lookup 'K' = none) (hF : g.params.lookup 'F' = none) :
    ∃ d r, (∀ ax, d.get ax = match w ax with
      | none => 0
      | some q => q - s.pos.get ax) ∧
      (∀ e s', execCmd manualCfg env (lineCmd g) g d r 600 s = (.error e, s') →
        doCommand manualCfg env (some g) s = (.error e, s')) ∧
      (∀ a s', execCmd manualCfg env (lineCmd g) g d r 600 s = (.ok a, s') →
        doCommand manualCfg env (some g) s = (.ok a, { s' with vel := 600 })) := by
  obtain ⟨d, hd, hdv⟩ := plain_delta hpl hw hgr
  obtain ⟨r, hr', -⟩ := plain_radius (g := g) hpl (oi := none) (oj := none) (ok := none) hI hJ hK
  have hF : g.get 'F' s.vel (PyNum.ofRat 1) = .ok 600 := by
    have := get_wordIs (g := g) (k := 'F') (o := none) hF s.vel
    rw [ofRat_eq, Rat.cast_one, this, hpl.vel]
  have hmin : ((600 : ℝ) <ₚ PyNum.ofRat manualCfg.minVel) = false := by
    rw [lt_false_iff, ofRat_eq]; norm_num [manualCfg, Cfg.default]
  refine ⟨d, r, hdv, fun e s1 hx => ?_, fun a s1 hx => ?_⟩ <;>
  · rcases doCommand_cases (c := manualCfg) (env := env) g s with
      ⟨e, h1, h | h | h⟩ | ⟨d', v', r', h1, h2, h3, ⟨h4, _⟩ | ⟨_, ⟨a', s', h5, h6⟩ | ⟨e, s', h5, h6⟩⟩⟩
    · rw [hd] at h; cases h
    · rw [hF] at h; cases h
    · rw [hr'] at h; cases h
    · rw [hF] at h2; cases h2; rw [hmin] at h4; cases h4
    · rw [hd] at h1; cases h1
      rw [hr'] at h3; cases h3
      rw [hF] at h2; cases h2
      rw [hx] at h5; cases h5
      all_goals exact h6
    · rw [hd] at h1; cases h1
      rw [hr'] at h3; cases h3
      rw [hF] at h2; cases h2
      rw [hx] at h5; cases h5
      all_goals exact h6

/-- **C100 is false** without adjustment: on the default machine with `AUTO_VELOCITY_ADJUSTMENT = False`,
after `G1Y100` the line `G28Y0` is refused with "out of maximum speed": homing of Y alone runs with the
maximum velocity of X, which is twice that of Y.  The head stays where it is. -/
theorem C100_refuted [PyText] (henv : ∀ tr, env.move tr = none) :
    manualCfg = { Cfg.default with autoVel := false } ∧
    ∃ s, doLine manualCfg env "G1Y100".toList (MState.init manualCfg) = (.ok (.ok none), s) ∧
      s.pos = ⟨0, 100, 0, 0⟩ ∧
      doLine manualCfg env "G28Y0".toList s = (.ok (.error (.gmachine "out of maximum speed")), s) := by
  have hz0 : (Coord.zero : V4 ℝ) = ⟨0, 0, 0, 0⟩ := V4.ext_get fun ax => by
    rw [get_zero]; cases ax <;> rfl
  have hpl : Plain (MState.init manualCfg) := by
    have := plain_init
    exact ⟨this.abs, this.conv, this.loc, this.vel, this.plane, this.grid⟩
  have hpi : (MState.init manualCfg : MState ℝ).pos = Coord.zero := rfl
  have hck : ∀ {p d : V4 ℝ}, GridV p → GridV d → p.x + d.x = 0 → 0 ≤ p.y + d.y → p.y + d.y ≤ 100 →
      p.z + d.z = 0 → checkDelta manualCfg p d = .ok () := by
    intro p d hp hd h1 h2 h3 h4
    rw [checkDelta_ok (c := manualCfg) (decimalQ_grid default_tableOk.1.2)
      (decimalQ_grid default_tableOk.2.1.2) (decimalQ_grid default_tableOk.2.2.2)
      ⟨default_tableOk.1.1, default_tableOk.2.1.1, default_tableOk.2.2.1⟩ hp hd, h1, h4]
    norm_num [manualCfg, Cfg.default]
    exact ⟨h2, by linarith⟩
  -- the way out
  obtain ⟨d, r, hdv, -, hrun⟩ := line_runs (env := env) hpl (g := outLine)
    (w := fun | .y => some 100 | _ => none) (by
      intro ax
      cases ax
      case y => exact ⟨_, rfl, by decide +kernel⟩
      all_goals change List.lookup _ _ = none; decide) (by
      intro ax q hq
      cases ax <;> simp only [Option.some.injEq, reduceCtorEq] at hq
      subst hq
      exact Grid.int 100) (by decide) (by decide) (by decide) (by decide)
  have hd' : d = alongY (100 : ℤ) := by
    apply V4.ext_get
    intro ax
    rw [hdv, hpi]
    cases ax <;> simp only [get_zero] <;> norm_num [alongY, V4.get]
  subst hd'
  obtain ⟨tr, hmv⟩ := (alongY_move (env := env) (y := 100) (s := MState.init manualCfg) (v := 600) (by norm_num)
    (by norm_num) (by norm_num) (hck gridV_zero alongY_grid (by rw [hpi, hz0]; norm_num [alongY])
      (by rw [hpi, hz0]; norm_num [alongY]) (by rw [hpi, hz0]; norm_num [alongY])
      (by rw [hpi, hz0]; norm_num [alongY]))).1 (by norm_num) henv
  have hadd : Coord.add (MState.init manualCfg : MState ℝ).pos (alongY (100 : ℤ)) = ⟨0, 100, 0, 0⟩ := by
    apply V4.ext_get
    intro ax
    rw [hpi, get_add_grid gridV_zero alongY_grid, get_zero]
    cases ax <;> norm_num [alongY, V4.get]
  rw [hadd] at hmv
  have hout := hrun none _ (by
    have : lineCmd outLine = .g1 := by decide
    rw [this]
    exact M.bind_ok (f := fun _ => (pure none : M ℝ (Option (Answer ℝ)))) hmv)
  refine ⟨rfl, _, by unfold doLine; rw [outLine_parse]; simp only [hout]; rfl, rfl, ?_⟩
  -- the way back
  generalize hs : ({ { MState.init manualCfg with pos := ⟨0, 100, 0, 0⟩, trace := tr } with vel := 600 } :
    MState ℝ) = s
  have hpos : s.pos = ⟨0, 100, 0, 0⟩ := by rw [← hs]
  have hpg : GridV s.pos := by
    rw [hpos]
    have := alongY_grid (y := 100)
    simpa [alongY] using this
  have hpl' : Plain s := by
    subst hs
    exact ⟨hpl.abs, hpl.conv, hpl.loc, rfl, hpl.plane, hpg⟩
  obtain ⟨d, r, -, hrun, -⟩ := line_runs (env := env) hpl' (g := backLine)
    (w := fun | .y => some 0 | _ => none) (by
      intro ax
      cases ax
      case y => exact ⟨_, rfl, by decide +kernel⟩
      all_goals change List.lookup _ _ = none; decide) (by
      intro ax q hq
      cases ax <;> simp only [Option.some.injEq, reduceCtorEq] at hq
      subst hq
      exact Grid.int 0) (by decide) (by decide) (by decide) (by decide)
  have hd' : (Coord.new zeroF (PyNum.neg s.pos.y) zeroF zeroF : V4 ℝ) = alongY (-100 : ℤ) := by
    rw [hpos]
    apply V4.ext_get
    intro ax
    have zr : (PyNum.round10 (zeroF : ℝ) : ℝ) = 0 := by rw [zeroF_eq, round10_zero]
    have yr : (PyNum.round10 (PyNum.neg (100 : ℝ)) : ℝ) = -100 := by
      have := round10_grid (Grid.int (-100))
      push_cast at this
      exact this
    cases ax
    case y => exact yr.trans (by norm_num [alongY, V4.get])
    all_goals exact zr
  have hmv := (alongY_move (env := env) (y := -100) (s := s) (v := 24000) (by norm_num)
    (by norm_num) (by norm_num) (hck hpg alongY_grid (by rw [hpos]; norm_num [alongY])
      (by rw [hpos]; norm_num [alongY]) (by rw [hpos]; norm_num [alongY])
      (by rw [hpos]; norm_num [alongY]))).2 (by norm_num)
  have hv : (PyNum.ofRat manualCfg.maxVel.x : ℝ) = 24000 := by
    rw [ofRat_eq]; norm_num [manualCfg, Cfg.default]
  have hsz : safeZero manualCfg env false true false s = (.error (.gmachine "out of maximum speed"), s) := by
    unfold safeZero
    rw [M.bind_get]
    simp only [Bool.not_true, Bool.not_false, Bool.and_true, Bool.false_eq_true,
      if_false, if_true, Bool.and_self]
    rw [hd', hv]
    exact M.bind_error hmv
  have hback := hrun (.gmachine "out of maximum speed") s (by
    have : lineCmd backLine = .g28 := by decide
    rw [this]
    have hh : home manualCfg env backLine s = (.error (.gmachine "out of maximum speed"), s) :=
      M.bind_error hsz
    exact M.bind_error hh)
  unfold doLine
  rw [backLine_parse]
  simp only [hback]
  rfl

end PyCNC.Props
