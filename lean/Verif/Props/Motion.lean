import Verif.Lemmas.Units

/-!
# Properties C09, C12–C16, C25: positions

All theorems of this file are about exact arithmetic, for every nearest-integer rounding
(`PyRound`) and every behaviour of the hardware.
-/

namespace PyCNC.Props

open PyCNC Spec

variable [PyRound] (c : Cfg) (env : Env ℝ)

/-! ## C09 -/

/-- **C09.** After every history of calls the position is inside the table. -/
theorem C09_position_in_table (ht : TableOk c) (s : MState ℝ) (hs : Reachable c env s) :
    (0 ≤ s.pos.x ∧ s.pos.x ≤ c.tableX) ∧ (0 ≤ s.pos.y ∧ s.pos.y ≤ c.tableY) ∧
    (0 ≤ s.pos.z ∧ s.pos.z ≤ c.tableZ) := by
  obtain ⟨⟨hx0, hx⟩, ⟨hy0, hy⟩, ⟨hz0, hz⟩⟩ := ht
  refine reachable_pos (Q := fun p => (0 ≤ p.x ∧ p.x ≤ c.tableX) ∧ (0 ≤ p.y ∧ p.y ≤ c.tableY) ∧
    (0 ≤ p.z ∧ p.z ≤ c.tableZ)) ?_ ?_ hs
  · have zx := get_zero .x
    have zy := get_zero .y
    have zz := get_zero .z
    simp only [V4.get] at zx zy zz
    rw [zx, zy, zz]
    exact ⟨⟨le_refl 0, by exact_mod_cast hx0⟩, ⟨le_refl 0, by exact_mod_cast hy0⟩,
      ⟨le_refl 0, by exact_mod_cast hz0⟩⟩
  · intro p d hg _ hc
    have := (checkDelta_ok (decimalQ_grid hx) (decimalQ_grid hy) (decimalQ_grid hz)
      ⟨hx0, hy0, hz0⟩ hg (gridV_roundToSteps _)).1 hc
    have gx := get_add_grid hg (gridV_roundToSteps (c := c) d) .x
    have gy := get_add_grid hg (gridV_roundToSteps (c := c) d) .y
    have gz := get_add_grid hg (gridV_roundToSteps (c := c) d) .z
    simp only [V4.get] at gx gy gz
    rw [gx, gy, gz]
    exact this

/-- **C09.** What `position()` returns. -/
theorem C09_position_call (ht : TableOk c) (s s' : MState ℝ) (p : V4 ℝ) (hs : Reachable c env s)
    (h : position s = (.ok p, s')) :
    (0 ≤ p.x ∧ p.x ≤ c.tableX) ∧ (0 ≤ p.y ∧ p.y ≤ c.tableY) ∧ (0 ≤ p.z ∧ p.z ≤ c.tableZ) := by
  cases h
  exact C09_position_in_table c env ht s hs

omit [PyRound] in
/-- The default configuration meets the hypotheses. -/
theorem default_tableOk : TableOk Cfg.default := by
  refine ⟨⟨?_, 200 * 10 ^ 10, ?_⟩, ⟨?_, 200 * 10 ^ 10, ?_⟩, ⟨?_, 220 * 10 ^ 10, ?_⟩⟩ <;>
    norm_num [Cfg.default]

example : ∃ s : MState ℝ, Reachable Cfg.default env s :=
  ⟨_, .step (.safeZero true true true) (.step (.cmd (some ⟨[('X', "1.5".toList)]⟩)) .init)⟩

/-! ## C12, C13, C14 -/

omit [PyRound] in
/-- In the default configuration the steps of X, Y and Z are decimal numbers. -/
theorem default_decimalStep : DecimalStep Cfg.default .x ∧ DecimalStep Cfg.default .y ∧
    DecimalStep Cfg.default .z := by
  refine ⟨⟨10 ^ 8, ?_⟩, ⟨10 ^ 8, ?_⟩, ⟨25 * 10 ^ 6, ?_⟩⟩ <;> norm_num [Cfg.default, V4.get]

/-- The head is always on a step. -/
theorem C12_position_on_step (s : MState ℝ) (hs : Reachable c env s) (ax : Axis)
    (h : DecimalStep c ax) : ∃ n : ℤ, s.pos.get ax = n / (c.ppm.get ax : ℝ) :=
  reachable_onStep hs h

/-- **C12, C14.** A successful move in absolute mode leaves every axis that is not named where
it was. -/
theorem C12_unnamed_axis_stays (g : GCode) (s s' : MState ℝ) (a : Option (Answer ℝ))
    (hs : Reachable c env s) (hg : IsLinearMove g ∨ IsArc g)
    (h : doCommand c env (some g) s = (.ok a, s')) (ax : Axis)
    (hn : g.params.lookup (axisWord ax) = none) : s'.pos.get ax = s.pos.get ax := by
  obtain ⟨d, hd, hp, _⟩ := move_ok (tidy_reachable hs) hg h
  rcases (readDelta_ok (tidy_reachable hs) hd).2 ax with ⟨q, ⟨t, ht, _⟩, _⟩ | ⟨_, h0⟩
  · rw [hn] at ht; cases ht
  · rw [hp, roundToSteps_zero h0, add_zero]

/-- **C12, C14.** A successful move in absolute mode puts each named axis at a step nearest to
the programmed point `value * unit + offset` (up to the tenth digit, to which the code rounds
the product). -/
theorem C12_absolute_move (g : GCode) (s s' : MState ℝ) (a : Option (Answer ℝ))
    (hs : Reachable c env s) (habs : s.absMode = true) (hg : IsLinearMove g ∨ IsArc g)
    (h : doCommand c env (some g) s = (.ok a, s')) (ax : Axis) (hst : DecimalStep c ax)
    (hp : 0 < c.ppm.get ax) (q : ℚ) (hq : HasNum g (axisWord ax) q) :
    (∃ n : ℤ, s'.pos.get ax = n / (c.ppm.get ax : ℝ)) ∧
    ∀ n : ℤ, |s'.pos.get ax - (q * s.conv + s.loc.get ax)| ≤
      |(n : ℝ) / (c.ppm.get ax : ℝ) - (q * s.conv + s.loc.get ax)| + 1 / 10 ^ 10 := by
  obtain ⟨d, hd, hpos, _⟩ := move_ok (tidy_reachable hs) hg h
  obtain ⟨m, hm⟩ := reachable_onStep hs hst
  have hp' : (0 : ℝ) < (c.ppm.get ax : ℝ) := by exact_mod_cast hp
  rcases (readDelta_ok (tidy_reachable hs) hd).2 ax with ⟨q', hq', h0⟩ | ⟨h0, _⟩
  · obtain rfl := hasNum_unique hq hq'
    rw [if_pos habs] at h0
    have hr := roundToSteps_decimal hst d
    refine ⟨⟨m + PyRound.rnd (d.get ax * (c.ppm.get ax : ℝ)), ?_⟩, fun n => ?_⟩
    · rw [hpos, hm, hr]; push_cast; ring
    · have hn := nearest_step (x := d.get ax) hp' (n - m)
      have h10 := round10_near ((q : ℝ) * s.conv)
      have e1 : (PyRound.rnd (d.get ax * (c.ppm.get ax : ℝ)) : ℝ) / (c.ppm.get ax : ℝ) - d.get ax =
          s'.pos.get ax - (PyNum.round10 ((q : ℝ) * s.conv) + s.loc.get ax) := by
        rw [hpos, hr, h0]; ring
      have e2 : ((n - m : ℤ) : ℝ) / (c.ppm.get ax : ℝ) - d.get ax =
          (n : ℝ) / (c.ppm.get ax : ℝ) - (PyNum.round10 ((q : ℝ) * s.conv) + s.loc.get ax) := by
        rw [h0, hm]; push_cast; ring
      rw [e1, e2] at hn
      have t1 := abs_sub_le (s'.pos.get ax) (PyNum.round10 ((q : ℝ) * s.conv) + s.loc.get ax)
        (q * s.conv + s.loc.get ax)
      have t2 := abs_sub_le ((n : ℝ) / (c.ppm.get ax : ℝ)) (q * s.conv + s.loc.get ax)
        (PyNum.round10 ((q : ℝ) * s.conv) + s.loc.get ax)
      have e3 : PyNum.round10 ((q : ℝ) * s.conv) + s.loc.get ax - (q * s.conv + s.loc.get ax) =
        PyNum.round10 ((q : ℝ) * s.conv) - q * s.conv := by ring
      rw [e3] at t1
      rw [abs_sub_comm (q * s.conv + s.loc.get ax), e3] at t2
      have e4 : (1 : ℝ) / 10 ^ 10 = 1 / 2 / E10 + 1 / 2 / E10 := by unfold E10; ring
      rw [e4]
      linarith
  · obtain ⟨t, ht, _⟩ := hq
    rw [h0] at ht; cases ht

/-- **C12, C14.** Any axis (also E, whose step is not a decimal number): a successful move in
absolute mode ends within half a step of the programmed point. -/
theorem C12_absolute_move_distance (g : GCode) (s s' : MState ℝ) (a : Option (Answer ℝ))
    (hs : Reachable c env s) (habs : s.absMode = true) (hg : IsLinearMove g ∨ IsArc g)
    (h : doCommand c env (some g) s = (.ok a, s')) (ax : Axis)
    (hp : 0 < c.ppm.get ax) (q : ℚ) (hq : HasNum g (axisWord ax) q) :
    |s'.pos.get ax - (q * s.conv + s.loc.get ax)| ≤ 1 / 2 / (c.ppm.get ax : ℝ) + 1 / 10 ^ 10 := by
  obtain ⟨d, hd, hpos, _⟩ := move_ok (tidy_reachable hs) hg h
  rcases (readDelta_ok (tidy_reachable hs) hd).2 ax with ⟨q', hq', h0⟩ | ⟨h0, _⟩
  · obtain rfl := hasNum_unique hq hq'
    rw [if_pos habs] at h0
    have hn := roundToSteps_near hp d
    have h10 := round10_near ((q : ℝ) * s.conv)
    have e1 : s'.pos.get ax - (q * s.conv + s.loc.get ax) =
        ((roundToSteps c d).get ax - d.get ax) + (PyNum.round10 ((q : ℝ) * s.conv) - q * s.conv) := by
      rw [hpos, h0]; ring
    rw [e1]
    have := abs_add_le ((roundToSteps c d).get ax - d.get ax)
      (PyNum.round10 ((q : ℝ) * s.conv) - q * s.conv)
    have e4 : (1 : ℝ) / 10 ^ 10 = 1 / 2 / E10 + 1 / 2 / E10 := by unfold E10; ring
    rw [e4]
    linarith
  · obtain ⟨t, ht, _⟩ := hq
    rw [h0] at ht; cases ht

/-- **C13, C14.** A successful move in relative mode changes each named axis by a step multiple
nearest to `value * unit`, whatever the local coordinate system is. -/
theorem C13_relative_move (g : GCode) (s s' : MState ℝ) (a : Option (Answer ℝ))
    (hs : Reachable c env s) (habs : s.absMode = false) (hg : IsLinearMove g ∨ IsArc g)
    (h : doCommand c env (some g) s = (.ok a, s')) (ax : Axis) (hst : DecimalStep c ax)
    (hp : 0 < c.ppm.get ax) (q : ℚ) (hq : HasNum g (axisWord ax) q) :
    (∃ n : ℤ, s'.pos.get ax - s.pos.get ax = n / (c.ppm.get ax : ℝ)) ∧
    ∀ n : ℤ, |(s'.pos.get ax - s.pos.get ax) - q * s.conv| ≤
      |(n : ℝ) / (c.ppm.get ax : ℝ) - q * s.conv| + 1 / 10 ^ 10 := by
  obtain ⟨d, hd, hpos, _⟩ := move_ok (tidy_reachable hs) hg h
  have hp' : (0 : ℝ) < (c.ppm.get ax : ℝ) := by exact_mod_cast hp
  rcases (readDelta_ok (tidy_reachable hs) hd).2 ax with ⟨q', hq', h0⟩ | ⟨h0, _⟩
  · obtain rfl := hasNum_unique hq hq'
    rw [if_neg (by simp [habs]), add_zero] at h0
    have hr := roundToSteps_decimal hst d
    have hd : s'.pos.get ax - s.pos.get ax =
        PyRound.rnd (d.get ax * (c.ppm.get ax : ℝ)) / (c.ppm.get ax : ℝ) := by
      rw [hpos, hr]; ring
    refine ⟨⟨_, hd⟩, fun n => ?_⟩
    have hn := nearest_step (x := d.get ax) hp' n
    have h10 := round10_near ((q : ℝ) * s.conv)
    rw [← hd, h0] at hn
    have t1 := abs_sub_le (s'.pos.get ax - s.pos.get ax) (PyNum.round10 ((q : ℝ) * s.conv))
      (q * s.conv)
    have t2 := abs_sub_le ((n : ℝ) / (c.ppm.get ax : ℝ)) (q * s.conv)
      (PyNum.round10 ((q : ℝ) * s.conv))
    rw [abs_sub_comm (q * s.conv)] at t2
    have e4 : (1 : ℝ) / 10 ^ 10 = 1 / 2 / E10 + 1 / 2 / E10 := by unfold E10; ring
    rw [e4]
    linarith
  · obtain ⟨t, ht, _⟩ := hq
    rw [h0] at ht; cases ht

/-- **C13, C14.** Any axis: the change is within half a step of the programmed distance. -/
theorem C13_relative_move_distance (g : GCode) (s s' : MState ℝ) (a : Option (Answer ℝ))
    (hs : Reachable c env s) (habs : s.absMode = false) (hg : IsLinearMove g ∨ IsArc g)
    (h : doCommand c env (some g) s = (.ok a, s')) (ax : Axis)
    (hp : 0 < c.ppm.get ax) (q : ℚ) (hq : HasNum g (axisWord ax) q) :
    |(s'.pos.get ax - s.pos.get ax) - q * s.conv| ≤ 1 / 2 / (c.ppm.get ax : ℝ) + 1 / 10 ^ 10 := by
  obtain ⟨d, hd, hpos, _⟩ := move_ok (tidy_reachable hs) hg h
  rcases (readDelta_ok (tidy_reachable hs) hd).2 ax with ⟨q', hq', h0⟩ | ⟨h0, _⟩
  · obtain rfl := hasNum_unique hq hq'
    rw [if_neg (by simp [habs]), add_zero] at h0
    have hn := roundToSteps_near hp d
    have h10 := round10_near ((q : ℝ) * s.conv)
    have e1 : (s'.pos.get ax - s.pos.get ax) - q * s.conv =
        ((roundToSteps c d).get ax - d.get ax) + (PyNum.round10 ((q : ℝ) * s.conv) - q * s.conv) := by
      rw [hpos, h0]; ring
    rw [e1]
    have := abs_add_le ((roundToSteps c d).get ax - d.get ax)
      (PyNum.round10 ((q : ℝ) * s.conv) - q * s.conv)
    have e4 : (1 : ℝ) / 10 ^ 10 = 1 / 2 / E10 + 1 / 2 / E10 := by unfold E10; ring
    rw [e4]
    linarith
  · obtain ⟨t, ht, _⟩ := hq
    rw [h0] at ht; cases ht

/-- **C13.** An axis that is not named does not move in relative mode either. -/
theorem C13_unnamed_axis_stays (g : GCode) (s s' : MState ℝ) (a : Option (Answer ℝ))
    (hs : Reachable c env s) (hg : IsLinearMove g ∨ IsArc g)
    (h : doCommand c env (some g) s = (.ok a, s')) (ax : Axis)
    (hn : g.params.lookup (axisWord ax) = none) : s'.pos.get ax = s.pos.get ax :=
  C12_unnamed_axis_stays c env g s s' a hs hg h ax hn

/-- **C14.** A successful arc ends exactly where a successful straight move with the same
coordinate words (whatever the other words are) ends. -/
theorem C14_arc_ends_like_line (env' : Env ℝ) (g g' : GCode) (s s1 s2 : MState ℝ)
    (a1 a2 : Option (Answer ℝ)) (hs : Reachable c env s) (hg : IsArc g) (hg' : IsLinearMove g')
    (hw : ∀ ax, g.params.lookup (axisWord ax) = g'.params.lookup (axisWord ax))
    (h1 : doCommand c env (some g) s = (.ok a1, s1))
    (h2 : doCommand c env' (some g') s = (.ok a2, s2)) : s1.pos = s2.pos := by
  have ht := tidy_reachable hs
  obtain ⟨d1, hd1, hp1, _⟩ := move_ok ht (.inr hg) h1
  obtain ⟨d2, hd2, hp2, _⟩ := move_ok ht (.inl hg') h2
  have hd : d1 = d2 := by
    refine V4.ext_get fun ax => ?_
    rcases (readDelta_ok ht hd1).2 ax with ⟨q1, ⟨t1, ht1, hq1⟩, e1⟩ | ⟨n1, e1⟩ <;>
      rcases (readDelta_ok ht hd2).2 ax with ⟨q2, ⟨t2, ht2, hq2⟩, e2⟩ | ⟨n2, e2⟩
    · rw [hw, ht2] at ht1
      cases ht1
      rw [hq1] at hq2
      cases hq2
      rw [e1, e2]
    · rw [hw, n2] at ht1; cases ht1
    · rw [hw, ht2] at n1; cases n1
    · rw [e1, e2]
  exact V4.ext_get fun ax => by rw [hp1, hp2, hd]

/-- The lines `G1 X10 Y-2.5` and `G2 X10 Y-2.5 I5` meet the hypotheses about lines. -/
example : IsLinearMove ⟨[('G', ['1']), ('X', "10".toList), ('Y', "-2.5".toList)]⟩ ∧
    IsArc ⟨[('G', ['2']), ('X', "10".toList), ('Y', "-2.5".toList), ('I', ['5'])]⟩ ∧
    HasNum ⟨[('G', ['1']), ('X', "10".toList), ('Y', "-2.5".toList)]⟩ 'Y' (-2.5) := by
  refine ⟨.inr (.inl ⟨by decide, by decide⟩), .inl ⟨by decide, by decide⟩, "-2.5".toList, by decide,
    by decide +kernel⟩

/-! ## C15 -/

/-- **C15.** A successful `G92` changes nothing but the offset (and the feed, if given). -/
theorem C15_moves_nothing (g : GCode) (s s' : MState ℝ) (a : Option (Answer ℝ))
    (hg : Is g 'G' "92") (h : doCommand c env (some g) s = (.ok a, s')) :
    s' = { s with loc := s'.loc, vel := s'.vel } := by
  obtain ⟨d, r, v, s2, hx, rfl⟩ := ok_exec (cmd := .g92) ⟨_, by simp [Cmd.words]; rfl, hg⟩ h
  obtain ⟨⟨_, hx⟩, _⟩ := ret_ok hx
  unfold setLocal at hx
  rw [M.bind_get] at hx
  split at hx
  · obtain ⟨w, _, hx⟩ := lift_ok hx
    cases hx; rfl
  · cases hx; rfl

/-- **C15.** After a successful `G92` the logical coordinates of the current point are the
values of the line (rounded to ten digits), unchanged for axes that are not named, and zero
when no axis is named. -/
theorem C15_renames_current_point (g : GCode) (s s' : MState ℝ) (a : Option (Answer ℝ))
    (hs : Reachable c env s) (hg : Is g 'G' "92")
    (h : doCommand c env (some g) s = (.ok a, s')) (ax : Axis) :
    (∀ q, HasNum g (axisWord ax) q →
      |(s'.pos.get ax - s'.loc.get ax) - q * s.conv| ≤ 1 / 2 / 10 ^ 10 ∧
      ((∃ k : ℤ, q * s.conv = k / 10 ^ 10) → s'.pos.get ax - s'.loc.get ax = q * s.conv)) ∧
    (NamesCoordinate g → g.params.lookup (axisWord ax) = none →
      s'.pos.get ax - s'.loc.get ax = s.pos.get ax - s.loc.get ax) ∧
    (¬ NamesCoordinate g → s'.pos.get ax - s'.loc.get ax = 0) := by
  have ht := tidy_reachable hs
  obtain ⟨d, r, v, s2, hx, rfl⟩ := ok_exec (cmd := .g92) ⟨_, by simp [Cmd.words]; rfl, hg⟩ h
  obtain ⟨⟨_, hx⟩, _⟩ := ret_ok hx
  unfold setLocal at hx
  rw [M.bind_get] at hx
  split at hx
  · rename_i hc
    rw [hasCoordinates_iff] at hc
    obtain ⟨w, hw, hx⟩ := lift_ok hx
    cases hx
    have hwg : GridV w := by
      intro ax
      rcases coordinates_ok hw ax with ⟨q, _, h⟩ | ⟨_, h⟩ <;> rw [h] <;> exact grid_round10 _
    have key : s.pos.get ax - (Coord.sub s.pos w).get ax = w.get ax := by
      rw [get_sub_grid ht.pos hwg]; ring
    dsimp only
    rw [key]
    refine ⟨fun q hq => ?_, fun _ hn => ?_, fun hc' => absurd hc hc'⟩
    · rcases coordinates_ok hw ax with ⟨q', hq', h⟩ | ⟨h, _⟩
      · obtain rfl := hasNum_unique hq hq'
        rw [h]
        exact ⟨round10_near _, fun hk => round10_grid hk⟩
      · obtain ⟨t, ht, _⟩ := hq
        rw [h] at ht; cases ht
    · rcases coordinates_ok hw ax with ⟨q', ⟨t, ht, _⟩, h⟩ | ⟨_, h⟩
      · rw [hn] at ht; cases ht
      · rw [h]
        have : (⟨s.pos.x - s.loc.x, s.pos.y - s.loc.y, s.pos.z - s.loc.z, s.pos.e - s.loc.e⟩ :
          V4 ℝ).get ax = s.pos.get ax - s.loc.get ax := by cases ax <;> rfl
        have h2 := get_new (s.pos.x - s.loc.x) (s.pos.y - s.loc.y) (s.pos.z - s.loc.z)
          (s.pos.e - s.loc.e) ax
        simp only [sub_eq]
        rw [h2, this, round10_grid (grid_round10 _), round10_grid ((ht.pos ax).sub (ht.loc ax))]
  · rename_i hc
    rw [Bool.not_eq_true, ← Bool.not_eq_true, hasCoordinates_iff] at hc
    cases hx
    refine ⟨fun q hq => ?_, fun h => absurd h hc, fun _ => sub_self _⟩
    obtain ⟨t, ht, _⟩ := hq
    exact absurd ⟨axisWord ax, by cases ax <;> simp [axisWord], by rw [ht]; simp⟩ hc

/-- **C15.** After `G53` logical and machine coordinates are equal. -/
theorem C15_G53 (g : GCode) (s s' : MState ℝ) (a : Option (Answer ℝ)) (hg : Is g 'G' "53")
    (h : doCommand c env (some g) s = (.ok a, s')) :
    (∀ ax, s'.loc.get ax = 0) ∧ s' = { s with loc := s'.loc, vel := s'.vel } := by
  obtain ⟨d, r, v, s2, hx, rfl⟩ := ok_exec (cmd := .g53) ⟨_, by simp [Cmd.words]; rfl, hg⟩ h
  cases hx
  exact ⟨fun ax => get_zero ax, rfl⟩

/-- The lines `G92 X10` (named and unnamed axes) and `G92` meet the hypotheses. -/
example : Is ⟨[('G', "92".toList), ('X', "10".toList)]⟩ 'G' "92" ∧
    HasNum ⟨[('G', "92".toList), ('X', "10".toList)]⟩ (axisWord .x) 10 ∧
    NamesCoordinate ⟨[('G', "92".toList), ('X', "10".toList)]⟩ ∧
    ¬ NamesCoordinate ⟨[('G', "92".toList)]⟩ := by
  refine ⟨⟨by decide, by decide⟩, ⟨"10".toList, by decide, by decide +kernel⟩,
    ⟨'X', by simp, by decide⟩, ?_⟩
  rintro ⟨k, hk, h⟩
  simp only [List.mem_cons, List.not_mem_nil, or_false] at hk
  rcases hk with rfl | rfl | rfl | rfl <;> exact h (by decide)

/-! ## C16 -/

/-- **C16.** A line executed in inch mode has exactly the effect of the same line with each
coordinate and radius word multiplied by 25.4 executed in millimetre mode: same answer or
exception, same HAL calls, same state (apart from the unit itself).  F, S, P and the command
words are the same in both lines. -/
theorem C16_inch_is_unit_change (g g' : GCode) (s s' : MState ℝ)
    (hin : s.conv = 25.4) (hmm : s'.conv = 1) (heq : { s' with conv := s.conv } = s)
    (hwords : ∀ k ∈ ['X', 'Y', 'Z', 'E', 'I', 'J', 'K'],
      (g.params.lookup k = none ∧ g'.params.lookup k = none) ∨
      ∃ q, HasNum g k q ∧ HasNum g' k (q * 25.4))
    (hother : ∀ k, k ∉ ['X', 'Y', 'Z', 'E', 'I', 'J', 'K'] →
      g.params.lookup k = g'.params.lookup k) :
    (doCommand c env (some g) s).1 = (doCommand c env (some g') s').1 ∧
    { (doCommand c env (some g') s').2 with conv := (doCommand c env (some g) s).2.conv } =
      (doCommand c env (some g) s).2 := by
  have hget : ∀ k ∈ ['X', 'Y', 'Z', 'E', 'I', 'J', 'K'], ∀ d : ℝ,
      g.get k d s.conv = g'.get k d s'.conv := by
    intro k hk d
    rcases hwords k hk with ⟨h1, h2⟩ | ⟨q, h1, h2⟩
    · rw [get_noWord h1, get_noWord h2]
    · rw [get_word h1, get_word h2, hin, hmm]
      congr 1
      simp
  exact doCommand_units (c := c) (env := env) hget hother
    (fun k hk => by
      rcases hwords k hk with ⟨h1, h2⟩ | ⟨q, ⟨_, h1, _⟩, ⟨_, h2, _⟩⟩
      · simp [GCode.has, GCode.lookup, h1, h2]
      · simp [GCode.has, GCode.lookup, h1, h2]) heq.symm

/-- The lines `G1 X1.5 Y-2 F300` and `G1 X38.1 Y-50.8 F300` meet the hypotheses. -/
example : (∀ k ∈ ['X', 'Y', 'Z', 'E', 'I', 'J', 'K'],
    let g : GCode := ⟨[('G', ['1']), ('X', "1.5".toList), ('Y', "-2".toList), ('F', "300".toList)]⟩
    let g' : GCode :=
      ⟨[('G', ['1']), ('X', "38.1".toList), ('Y', "-50.8".toList), ('F', "300".toList)]⟩
    (g.params.lookup k = none ∧ g'.params.lookup k = none) ∨
      ∃ q, HasNum g k q ∧ HasNum g' k (q * 25.4)) := by
  intro k hk
  simp only [List.mem_cons, List.not_mem_nil, or_false] at hk
  rcases hk with rfl | rfl | rfl | rfl | rfl | rfl | rfl
  · exact .inr ⟨1.5, ⟨_, rfl, by decide +kernel⟩, ⟨_, rfl, by decide +kernel⟩⟩
  · exact .inr ⟨-2, ⟨_, rfl, by decide +kernel⟩, ⟨_, rfl, by decide +kernel⟩⟩
  all_goals exact .inl ⟨by decide, by decide⟩

/-! ## C25 -/

/-- **C25.** A successful `G28` has moved the requested axes to 0 and no other, has then waited
for the motors, has then calibrated exactly the requested axes, successfully, and changed nothing
else (except the feed, if given). -/
theorem C25_homing (g : GCode) (s s' : MState ℝ) (a : Option (Answer ℝ))
    (hst : DecimalStep c .x ∧ DecimalStep c .y ∧ DecimalStep c .z)
    (hs : Reachable c env s) (hg : Is g 'G' "28")
    (h : doCommand c env (some g) s = (.ok a, s')) :
    (∀ ax, (Homes g ax → s'.pos.get ax = 0) ∧ (¬ Homes g ax → s'.pos.get ax = s.pos.get ax)) ∧
    (∃ x y z moves, Calls s s' (.calibrate x y z :: .join :: moves) ∧
      (∀ call ∈ moves, ∃ gen, call = .move gen) ∧
      (x = true ↔ Homes g .x) ∧ (y = true ↔ Homes g .y) ∧ (z = true ↔ Homes g .z)) ∧
    env.calibrate s'.trace = true ∧
    s' = { s with pos := s'.pos, trace := s'.trace, vel := s'.vel } := by
  obtain ⟨d, r, v, s2, hx, rfl⟩ := ok_exec (cmd := .g28) ⟨_, by simp [Cmd.words]; rfl, hg⟩ h
  obtain ⟨⟨_, hx⟩, _⟩ := ret_ok hx
  obtain ⟨x, y, z, s3, hz, h1, h2, h3, h4⟩ := home_run (c := c) (env := env) g s
  rcases hz with ⟨e, _, hz⟩ | ⟨hz, ⟨_, h5⟩ | ⟨hc, h5⟩⟩
  · rw [hx] at hz; cases hz
  · rw [hx] at h5; cases h5
  · rw [hx] at h5
    cases h5
    obtain ⟨h6, ⟨moves, h7, h8⟩, h9⟩ := safeZero_ok (tidy_reachable hs)
      (fun ax hax => reachable_onStep hs (by
        cases ax
        · exact hst.1
        · exact hst.2.1
        · exact hst.2.2
        · exact absurd rfl hax)) hst hz
    refine ⟨fun ax => ?_, ⟨x, y, z, moves, ?_, h8, h1, h2, h3⟩, hc, ?_⟩
    · have := h6 ax
      cases ax
      · exact ⟨fun h => by simpa [pick3, h1.2 h] using this, fun h => by
          simpa [pick3, show x = false by rw [← Bool.not_eq_true]; exact fun h' => h (h1.1 h')] using this⟩
      · exact ⟨fun h => by simpa [pick3, h2.2 h] using this, fun h => by
          simpa [pick3, show y = false by rw [← Bool.not_eq_true]; exact fun h' => h (h2.1 h')] using this⟩
      · exact ⟨fun h => by simpa [pick3, h3.2 h] using this, fun h => by
          simpa [pick3, show z = false by rw [← Bool.not_eq_true]; exact fun h' => h (h3.1 h')] using this⟩
      · exact ⟨fun h => absurd rfl h.1, fun _ => by simpa [pick3] using this⟩
    · show _ = _
      simp [h7]
    · rw [h9]

omit [PyRound] in
/-- **C25.** A failed calibration is reported. -/
theorem C25_failure_reported {F : Type} [PyNum F] (c : Cfg) (env : Env F)
    (hcal : ∀ tr, env.calibrate tr = false) (g : GCode) (s : MState F)
    (hg : Is g 'G' "28") : ∃ e s', doCommand c env (some g) s = (.error e, s') := by
  rcases h : doCommand c env (some g) s with ⟨e | a, s'⟩
  · exact ⟨e, s', rfl⟩
  · obtain ⟨d, r, v, s2, hx, rfl⟩ := ok_exec (cmd := .g28) ⟨_, by simp [Cmd.words]; rfl, hg⟩ h
    obtain ⟨⟨_, hx⟩, _⟩ := ret_ok hx
    obtain ⟨x, y, z, s3, hz, _⟩ := home_run (c := c) (env := env) g s
    rcases hz with ⟨e, _, hz⟩ | ⟨hz, ⟨_, h5⟩ | ⟨hc, h5⟩⟩
    · rw [hx] at hz; cases hz
    · rw [hx] at h5; cases h5
    · rw [hcal] at hc; cases hc

/-- The lines `G28 X0` and `G28`. -/
example : Homes ⟨[('G', "28".toList), ('X', "0".toList)]⟩ .x ∧
    ¬ Homes ⟨[('G', "28".toList), ('X', "0".toList)]⟩ .y ∧ Homes ⟨[('G', "28".toList)]⟩ .y := by
  refine ⟨⟨by decide, .inl (by decide)⟩, ?_, ⟨by decide, .inr ?_⟩⟩
  · rintro ⟨_, h | h⟩
    · exact h (by decide)
    · exact absurd (h .x (by decide)) (by decide)
  · intro ax h
    cases ax <;> first | contradiction | decide

end PyCNC.Props
