import Verif.Lemmas.Home64
import Verif.Props.Interp64

/-!
# Property C96: the machine can be sent home in floating point

Binary64 arithmetic, for every nearest-integer rounding (`PyRound`).
-/

namespace PyCNC.Props

open PyCNC Spec

variable [PyRound] {c : Cfg} {env : Env F64}

/-- **C96** -/
theorem C96_home_partial (hc : FloatMachine c) (henv : ∀ tr, env.move tr = none) {s : MState F64} {r : Ref}
    (hm : Matches64 c s r) (ho : StepsOnTable c r.steps) (hx : ∃ k : ℤ, r.extruded = k / 10 ^ 10)
    (hx2 : |r.extruded| ≤ 3 * 10 ^ 4) {g : GCode} (hg : Is g 'G' "28") (hn : NumbersOk g)
    (hF : g.params.lookup 'F' = none) (hfeed : fl c.minVel ≤ s.vel.1) :
    ∃ s' moves x y z,
      doCommand c env (some g) s = (if env.calibrate s'.trace then .ok none
        else .error (.gmachine "failed to calibrate"), s') ∧
      Matches64 c s' (r.zeroed (Homes g)) ∧
      Calls s s' (.calibrate x y z :: .join :: moves) ∧
      (∀ call ∈ moves, ∃ lg, call = .move (.linear lg)) ∧
      (x = true ↔ Homes g .x) ∧ (y = true ↔ Homes g .y) ∧ (z = true ↔ Homes g .z) ∧
      s' = { s with pos := s'.pos, trace := s'.trace } := by
  obtain ⟨s', moves, x, y, z, h1, h2, h3, h4, h5⟩ := home64 hc henv hm ho hx hx2 hg hn hF hfeed
  refine ⟨s', moves, x, y, z, h1, h2, h3, fun call h => ?_, h5⟩
  obtain ⟨lg, -, -, -, h, -⟩ := h4 call h
  exact ⟨lg, h⟩

/-- **C96, after a program**: after any program of straight moves, modes, units and offsets `G28` is not
refused; the axes are at zero, and so are their motors. -/
theorem C96_program_partial [PyText] (hc : FloatMachine c) (henv : ∀ tr, env.move tr = none)
    (hcal : ∀ tr, env.calibrate tr = true) (prog : List (List Char × Line))
    (hp : ∀ p ∈ prog, ∃ g, parseLine p.1 = .ok (some g) ∧ Says g p.2)
    (hx : TameRun c (Ref.init c) (prog.map (·.2)))
    (he : |((Ref.init c).run c (prog.map (·.2))).2.extruded| ≤ 3 * 10 ^ 4)
    (hfeed : (c.minVel : ℝ) ≤ ((Ref.init c).run c (prog.map (·.2))).2.feed)
    {g : GCode} (hg : Is g 'G' "28") (hn : NumbersOk g) (hF : g.params.lookup 'F' = none) :
    ∃ s s' evs evs', machineRun c env (MState.init c) (prog.map (·.1)) =
        some (((Ref.init c).run c (prog.map (·.2))).1, s) ∧
      doCommand c env (some g) s = (.ok none, s') ∧ Sends c s.trace evs ∧ Sends c s'.trace evs' ∧
      ∀ ax, (Homes g ax → (s'.pos.get ax).1 = 0 ∧ netSteps c ax evs' = 0) ∧
        (¬ Homes g ax → s'.pos.get ax = s.pos.get ax ∧ netSteps c ax evs' = netSteps c ax evs) := by
  obtain ⟨s, h1, h2, h3, -⟩ := program_matches64 hc (carries_of henv) prog hp (Q := fun _ => True)
    (fun _ _ _ _ => trivial) (refOk_init hc) matches_init64 hx (tame_extrudes hx) trivial
  obtain ⟨evs, e1, e2⟩ := h2.motors
  obtain ⟨s', moves, x, y, z, k1, k2, -⟩ := C96_home_partial hc henv h2 h3.table (by
    obtain ⟨k, hk⟩ := h3.extruded
    exact ⟨k, by rw [hk, e10_val]⟩) he hg hn hF (by
    rw [h2.vel, val_of]; exact fl_mono hfeed)
  rw [hcal, if_pos rfl] at k1
  obtain ⟨evs', e3, e4⟩ := k2.motors
  refine ⟨s, s', evs, evs', h1, k1, e1, e3, fun ax => ⟨fun h => ?_, fun h => ?_⟩⟩
  · rw [k2.pos, e4, at_steps h.1]
    simp [Ref.zeroed, h, val_of, fl_zero]
  · rw [k2.pos, e4, h2.pos, e2]
    refine ⟨?_, by simp [Ref.zeroed, h]⟩
    congr 1
    cases ax <;> simp [Ref.zeroed, h, Ref.at]

/-- The line `G28`. -/
def homeLine : GCode := ⟨[('G', "28".toList)]⟩

omit [PyRound] in
theorem home_line : Is homeLine 'G' "28" ∧ NumbersOk homeLine ∧ homeLine.params.lookup 'F' = none ∧
    ∀ ax, ax ≠ .e → Homes homeLine ax := by
  refine ⟨⟨by decide, by decide⟩, by unfold NumbersOk; decide +kernel, by decide, fun ax hax => ⟨hax, .inr ?_⟩⟩
  intro ax' hax'
  cases ax' <;> first | exact absurd rfl hax' | decide

/-! ## Other steps -/

/-- The default machine, but with 300 steps per mm in X. -/
def thirdsCfg : Cfg := { Cfg.default with ppm := ⟨300, 100, 400, 150⟩ }

/-- The line `G91`. -/
def relLine : GCode := ⟨[('G', "91".toList)]⟩

/-- The line `G1X0.0033`. -/
def stepLine : GCode := ⟨[('G', "1".toList), ('X', "0.0033".toList)]⟩

omit [PyRound] in
theorem thirds_sane : SaneMachine thirdsCfg := by
  refine ⟨?_, ?_, ?_, ?_, ?_, ?_, ?_⟩
  · constructor <;> first
      | (intro ax; cases ax <;> norm_num [thirdsCfg, Cfg.default, V4.get])
      | norm_num [thirdsCfg, Cfg.default]
  · exact sane_default.table
  all_goals norm_num [thirdsCfg, Cfg.default]

/-- One step of X, as the machine writes it. -/
noncomputable def third : ℝ := 33333333 / 10 ^ 10

theorem grid_third (k : ℤ) : Grid (k * third) := ⟨k * 33333333, by rw [e10_val]; unfold third; push_cast; ring⟩

/-- A position of X, and zero elsewhere. -/
noncomputable def onX (x : ℝ) : Axis → ℝ
  | .x => x
  | _ => 0

/-- What a line that asks for one step does. -/
theorem third_step (henv : ∀ tr, env.move tr = none) {s : MState F64} {k : ℤ} (hk : 0 ≤ k ∧ k ≤ 1)
    (hpos : ∀ ax, s.pos.get ax = F64.of (onX (k * third) ax)) (habs : s.absMode = false)
    (hconv : s.conv = PyNum.ofRat 1) (hvel : 1 ≤ s.vel.1) :
    ∃ s', doCommand thirdsCfg env (some stepLine) s = (.ok none, s') ∧
      (∀ ax, s'.pos.get ax = F64.of (onX ((k + 1 : ℤ) * third) ax)) ∧ s'.absMode = false ∧
      s'.conv = PyNum.ofRat 1 ∧ 1 ≤ s'.vel.1 := by
  have hn : NumbersOk stepLine := by unfold NumbersOk; decide +kernel
  have h0 : |(0 : ℝ)| ≤ 10 ^ 5 := by norm_num
  have hP : ∀ ax, (0 : ℝ) < thirdsCfg.ppm.get ax := fun ax => by
    exact_mod_cast thirds_sane.cfg.ppm_pos ax
  have hpx : ((thirdsCfg.ppm.x : ℚ) : ℝ) = 300 := by norm_num [thirdsCfg]
  have g1 : Grid third := by simpa using grid_third 1
  rcases doCommand_cases (c := thirdsCfg) (env := env) stepLine s with ⟨e, m1, m2 | m2 | m2⟩ |
    ⟨d, v, rad, hd, m2, -, ⟨m3, -⟩ | ⟨-, m4⟩⟩
  · obtain ⟨_, k, t, m3, m4⟩ := readDelta_error m2
    exact absurd m4 (hn _ (mem_of_lookup m3))
  · cases m2
  · obtain ⟨_, k, t, m3, m4⟩ := radius_error m2
    exact absurd m4 (hn _ (mem_of_lookup m3))
  · cases m2
    rw [lt64_iff, val_ofRat, show thirdsCfg.minVel = 1 from rfl, Rat.cast_one, fl_one] at m3
    linarith
  cases m2
  unfold readDelta at hd
  rw [habs] at hd
  simp only [Bool.false_eq_true, if_false, hconv] at hd
  have hdx : d.get .x = F64.of (33 / 10 ^ 4) := by
    rcases coordinates_okF hd .x with ⟨q, ⟨t, h1, h2⟩, h⟩ | ⟨h1, h⟩
    · cases (show t = "0.0033".toList from (Option.some.inj h1).symm)
      cases (show q = 33 / 10 ^ 4 by
        have : parseFloat "0.0033".toList = some (33 / 10 ^ 4) := by decide +kernel
        rw [this] at h2; exact (Option.some.inj h2).symm)
      have := (word64 (q := 33 / 10 ^ 4) ⟨33 * 10 ^ 5, by norm_num⟩ (u := 1) (.inl rfl)
        (by norm_num [abs_le])).2
      rw [h, of_ofRat 1, Rat.cast_one, this]
      norm_num
    · cases h1
  have hd0 : ∀ ax, ax ≠ .x → d.get ax = F64.of 0 := by
    intro ax hax
    have hl : stepLine.params.lookup (axisWord ax) = none := by
      cases ax <;> first | exact absurd rfl hax | decide
    rcases coordinates_okF hd ax with ⟨q, ⟨t, h1, h2⟩, h⟩ | ⟨h1, h⟩
    · rw [hl] at h1; cases h1
    · rw [h]
      have : (Coord.zero : V4 F64).get ax = F64.of 0 := by cases ax <;> exact of_round10_zero
      rw [this, round10_of64 grid_zero h0]
  have hw : ∀ ax, (roundToSteps thirdsCfg d).get ax = F64.of (onX third ax) := by
    intro ax
    rw [get_roundToSteps64]
    by_cases hax : ax = .x
    · subst hax
      rw [hdx]
      refine roundTo_exact64 (n := 1) (thirds_sane.cfg.ppm_pos _) (thirds_sane.cfg.ppm_le _)
        (by norm_num [abs_le]) ?_ g1 ?_
      · simp only [V4.get, hpx]; norm_num [abs_le]
      · simp only [V4.get, hpx]
        unfold third onX
        norm_num [abs_of_neg, abs_of_pos]
    · rw [hd0 ax hax, show onX third ax = 0 by cases ax <;> first | exact absurd rfl hax | rfl]
      refine roundTo_exact64 (n := 0) (thirds_sane.cfg.ppm_pos _) (thirds_sane.cfg.ppm_le _)
        h0 (by norm_num) grid_zero (by norm_num)
  have hS : Steps64 thirdsCfg ⟨1, 0, 0, 0⟩ (roundToSteps thirdsCfg d) := by
    refine ⟨fun ax => ?_, fun ax h => ?_, fun ax => ?_⟩
    · rw [hw]
      cases ax
      · have := of_near (x := third) (by unfold third; norm_num [abs_le])
        simp only [V4.get, hpx, onX]
        have h2 : |third - ((1 : ℤ) : ℝ) / 300| ≤ 1 / 10 ^ 10 := by unfold third; norm_num [abs_le]
        refine (abs_sub_le _ third _).trans ((add_le_add this h2).trans (by norm_num))
      all_goals norm_num [onX, V4.get, val_of, fl_zero]
    · rw [hw]
      cases ax
      · cases h
      all_goals simp [onX, val_of, fl_zero]
    · cases ax <;> norm_num [V4.get, thirdsCfg, Cfg.default]
  have gk : ∀ ax, Grid (onX (k * third) ax) ∧ |onX (k * third) ax| ≤ 10 ^ 4 := by
    intro ax
    cases ax
    · refine ⟨grid_third k, ?_⟩
      have a1 : (0 : ℝ) ≤ k := by exact_mod_cast hk.1
      have a2 : (k : ℝ) ≤ 1 := by exact_mod_cast hk.2
      unfold onX third
      rw [abs_le]
      norm_num
      constructor <;> nlinarith
    all_goals exact ⟨grid_zero, by norm_num [onX]⟩
  have go : ∀ ax, Grid (onX third ax) ∧ |onX third ax| ≤ 10 ^ 4 := by
    intro ax
    cases ax
    · exact ⟨g1, by unfold onX third; norm_num [abs_le]⟩
    all_goals exact ⟨grid_zero, by norm_num [onX]⟩
  obtain ⟨hck, -⟩ := checkDelta64 thirds_sane hpos hw (fun ax _ => gk ax)
    (fun ax _ => ⟨(go ax).1, (go ax).2.trans (by norm_num)⟩)
  obtain ⟨lg, evs, h1, -, -, -⟩ := move_by64 (s := s) thirds_sane.cfg (c := thirdsCfg) (default_limits true)
    (fun ax => by cases ax <;> norm_num [thirdsCfg, Cfg.default, V4.get]) rfl henv hvel hS
    ⟨.x, by simp [V4.get]⟩ (hck.2 fun ax hax => by
      have a1 : (0 : ℝ) ≤ k := by exact_mod_cast hk.1
      have a2 : (k : ℝ) ≤ 1 := by exact_mod_cast hk.2
      cases ax
      · unfold onX third
        norm_num [tableSize, thirdsCfg, Cfg.default]
        constructor <;> nlinarith
      all_goals norm_num [onX, tableSize, thirdsCfg, Cfg.default])
  rw [show lineCmd stepLine = .g1 by decide] at m4
  simp only [execCmd] at m4
  rw [M.bind_ok h1] at m4
  rcases m4 with ⟨a, s4, m4, m5⟩ | ⟨e, s4, m4, -⟩
  · cases m4
    refine ⟨_, m5, fun ax => ?_, habs, hconv, hvel⟩
    dsimp only
    rw [get_addF, hpos, hw, add64 (gk ax).1 (go ax).1 ((gk ax).2.trans (by norm_num))
      ((go ax).2.trans (by norm_num))]
    congr 1
    cases ax
    · unfold onX; push_cast; ring
    all_goals simp [onX]
  · cases m4

/-- **C96 is false for steps that are not decimal numbers**: with 300 steps per mm, after `G91` and two
lines `G1X0.0033`, each of which makes one step, the machine holds X0.0066666666.  The way back is
computed as 0.0066666667, and `G28` is refused as out of the effective area, without a move. -/
theorem C96_refuted (henv : ∀ tr, env.move tr = none) : ∃ s1 s2 s3 : MState F64,
    doCommand thirdsCfg env (some relLine) (MState.init thirdsCfg) = (.ok none, s1) ∧
    doCommand thirdsCfg env (some stepLine) s1 = (.ok none, s2) ∧
    doCommand thirdsCfg env (some stepLine) s2 = (.ok none, s3) ∧
    doCommand thirdsCfg env (some homeLine) s3 = (.error (.gmachine "out of effective area"), s3) := by
  have hmin : ∀ a b : F64, 1 ≤ a.1 → 1 ≤ b.1 → 1 ≤ (pmin a b).1 := by
    intro a b ha hb
    unfold pmin
    split
    · exact hb
    · exact ha
  have one : ∀ q : ℚ, 1 ≤ q → 1 ≤ (PyNum.ofRat q : F64).1 := by
    intro q hq
    rw [val_ofRat]
    have h1 : (1 : ℝ) ≤ q := by exact_mod_cast hq
    have h2 := fl_mono h1
    rwa [fl_one] at h2
  have hv0 : 1 ≤ (minMaxVel thirdsCfg : F64).1 := by
    unfold minMaxVel
    refine hmin _ _ (hmin _ _ (hmin _ _ (one _ ?_) (one _ ?_)) (one _ ?_)) (one _ ?_) <;>
      norm_num [thirdsCfg, Cfg.default]
  have notlow : ∀ v : F64, 1 ≤ v.1 → (v <ₚ PyNum.ofRat thirdsCfg.minVel) = false := fun v hv => by
    rcases h : v <ₚ PyNum.ofRat thirdsCfg.minVel with _ | _
    · rfl
    · rw [lt64_iff, val_ofRat, show thirdsCfg.minVel = 1 from rfl, Rat.cast_one, fl_one] at h
      linarith
  let s0 : MState F64 := MState.init thirdsCfg
  let s1 : MState F64 := { s0 with absMode := false }
  have r1 : doCommand thirdsCfg env (some relLine) s0 = (.ok none, s1) := by
    have hn : NumbersOk relLine := by unfold NumbersOk; decide +kernel
    rcases doCommand_cases (c := thirdsCfg) (env := env) relLine s0 with ⟨e, m1, m2 | m2 | m2⟩ |
      ⟨d, v, rad, hd, m2, -, ⟨m3, -⟩ | ⟨-, m4⟩⟩
    · obtain ⟨_, k, t, m3, m4⟩ := readDelta_error m2
      exact absurd m4 (hn _ (mem_of_lookup m3))
    · cases m2
    · obtain ⟨_, k, t, m3, m4⟩ := radius_error m2
      exact absurd m4 (hn _ (mem_of_lookup m3))
    · cases m2
      rw [notlow s0.vel hv0] at m3; cases m3
    · cases m2
      rw [show lineCmd relLine = .g91 by decide] at m4
      rcases m4 with ⟨a, s4, m4, m5⟩ | ⟨e, s4, m4, -⟩
      · cases m4
        exact m5
      · cases m4
  obtain ⟨s2, r2, p2, a2, c2, v2⟩ := third_step (s := s1) (k := 0) henv (by norm_num)
    (fun ax => by
      have : s1.pos.get ax = F64.of 0 := by cases ax <;> exact of_round10_zero
      rw [this]
      congr 1
      cases ax <;> simp [onX]) rfl rfl hv0
  obtain ⟨s3, r3, p3, a3, c3, v3⟩ := third_step (s := s2) (k := 1) henv (by norm_num)
    (fun ax => by rw [p2]; norm_num) a2 c2 v2
  refine ⟨s1, s2, s3, r1, r2, r3, ?_⟩
  -- the way back
  have g2 : Grid (-(2 * third)) := by
    have := grid_third (-2)
    push_cast at this
    rwa [neg_mul] at this
  have b2 : |-(2 * third)| ≤ 10 ^ 5 := by unfold third; norm_num [abs_le]
  have hx : s3.pos.x = F64.of (2 * third) := by
    have := p3 .x
    norm_num [onX, V4.get] at this
    exact this
  have hpx : ((thirdsCfg.ppm.x : ℚ) : ℝ) = 300 := by norm_num [thirdsCfg]
  let d : V4 F64 := Coord.new (PyNum.neg s3.pos.x) (PyNum.neg s3.pos.y) zeroF zeroF
  have hdx : d.get .x = F64.of (-(2 * third)) := by
    show PyNum.round10 (PyNum.neg s3.pos.x) = _
    rw [hx]
    have e : (PyNum.neg (F64.of (2 * third)) : F64) = F64.of (-(2 * third)) := by
      apply ext64
      rw [val_neg, val_of, val_of, fl_neg]
    rw [e, round10_of64 g2 b2]
  have hd0 : ∀ ax, ax ≠ .x → d.get ax = F64.of 0 := by
    intro ax hax
    cases ax
    · exact absurd rfl hax
    · show PyNum.round10 (PyNum.neg s3.pos.y) = _
      have hy : s3.pos.y = F64.of 0 := p3 .y
      have e : (PyNum.neg (F64.of 0) : F64) = F64.of 0 := by
        apply ext64
        rw [val_neg, val_of, fl_zero, neg_zero]
      rw [hy, e, round10_of64 grid_zero (by norm_num)]
    · exact of_round10_zero
    · exact of_round10_zero
  let back : ℝ := -66666667 / 10 ^ 10
  have gb : Grid back := ⟨-66666667, by rw [e10_val]; push_cast; rfl⟩
  have hw : ∀ ax, (roundToSteps thirdsCfg d).get ax = F64.of (onX back ax) := by
    intro ax
    rw [get_roundToSteps64]
    by_cases hax : ax = .x
    · subst hax
      rw [hdx]
      refine roundTo_exact64 (n := -2) (thirds_sane.cfg.ppm_pos _) (thirds_sane.cfg.ppm_le _) b2 ?_ gb ?_
      · simp only [V4.get, hpx]; unfold third; norm_num [abs_le]
      · simp only [V4.get, hpx]
        have e1 : |onX back .x - ((-2 : ℤ) : ℝ) / 300| ≤ 4 / 10 ^ 11 := by
          simp only [onX, back]; norm_num [abs_le]
        have e2 : |((-2 : ℤ) : ℝ) / 300| ≤ 1 := by norm_num [abs_le]
        have e3 := mul_le_mul_of_nonneg_right e2 (by norm_num : (0 : ℝ) ≤ 35 / 10 ^ 17)
        refine lt_of_le_of_lt (add_le_add e1 e3) (by norm_num)
    · rw [hd0 ax hax, show onX back ax = 0 by cases ax <;> first | exact absurd rfl hax | rfl]
      refine roundTo_exact64 (n := 0) (thirds_sane.cfg.ppm_pos _) (thirds_sane.cfg.ppm_le _)
        (by norm_num) (by norm_num) grid_zero (by norm_num)
  have hz : Coord.isZero (roundToSteps thirdsCfg d) = false := by
    rcases h : Coord.isZero (roundToSteps thirdsCfg d) with _ | _
    · rfl
    exfalso
    have h1 := (isZero64 _).1 h .x
    rw [hw] at h1
    have h2 := eq_zero64.1 ((eq64_iff _ _).2 (congrArg Subtype.val h1))
    simp only [onX, back] at h2
    norm_num at h2
  have hpos3 : ∀ ax, s3.pos.get ax = F64.of (onX (2 * third) ax) := fun ax => by
    rw [p3]; norm_num
  obtain ⟨hck, -⟩ := checkDelta64 thirds_sane hpos3 hw (fun ax _ => by
      cases ax
      · exact ⟨by simpa [onX] using grid_third 2, by unfold onX third; norm_num [abs_le]⟩
      all_goals exact ⟨grid_zero, by norm_num [onX]⟩)
    (fun ax _ => by
      cases ax
      · exact ⟨gb, by simp only [onX, back]; norm_num [abs_le]⟩
      all_goals exact ⟨grid_zero, by norm_num [onX]⟩)
  have hbad : checkDelta thirdsCfg s3.pos (roundToSteps thirdsCfg d) =
      .error (.gmachine "out of effective area") := by
    rcases h : checkDelta thirdsCfg s3.pos (roundToSteps thirdsCfg d) with e | ⟨⟩
    · have := (checkDelta_any64 (c := thirdsCfg) (fun ax => by
        cases ax <;> norm_num [tableSize, thirdsCfg, Cfg.default]) s3.pos (roundToSteps thirdsCfg d)).2 e h
      rw [this]
    · have := ((hck.1 h) .x (by decide)).1
      simp only [onX, back] at this
      unfold third at this
      norm_num at this
  have hmove : ∀ v, moveLinear thirdsCfg env d v s3 = (.error (.gmachine "out of effective area"), s3) :=
    fun v => moveLinear_refused hz hbad
  have hhome : home thirdsCfg env homeLine s3 = (.error (.gmachine "out of effective area"), s3) := by
    have : safeZero thirdsCfg env true true true s3 = (.error (.gmachine "out of effective area"), s3) :=
      M.bind_error (m := moveLinear thirdsCfg env d
        (pmin (PyNum.ofRat thirdsCfg.maxVel.x) (PyNum.ofRat thirdsCfg.maxVel.y))) (hmove _)
    exact M.bind_error this
  rcases doCommand_cases (c := thirdsCfg) (env := env) homeLine s3 with ⟨e, m1, m2 | m2 | m2⟩ |
    ⟨d, v, rad, hd, m2, -, ⟨m3, -⟩ | ⟨-, m4⟩⟩
  · obtain ⟨_, k, t, m3, m4⟩ := readDelta_error m2
    exact absurd m4 (home_line.2.1 _ (mem_of_lookup m3))
  · cases m2
  · obtain ⟨_, k, t, m3, m4⟩ := radius_error m2
    exact absurd m4 (home_line.2.1 _ (mem_of_lookup m3))
  · cases m2
    rw [notlow _ v3] at m3; cases m3
  · cases m2
    rw [show lineCmd homeLine = .g28 by decide] at m4
    simp only [execCmd] at m4
    rw [M.bind_error hhome] at m4
    rcases m4 with ⟨a, s4, m4, m5⟩ | ⟨e, s4, m4, m5⟩
    · cases m4
    · cases m4
      exact m5

/-- The program `G1X10F600` in the interpreter. -/
theorem ten_run : ((Ref.init Cfg.default).run Cfg.default ((refProgram.take 1).map (·.2))).1 = [true] ∧
    ((Ref.init Cfg.default).run Cfg.default ((refProgram.take 1).map (·.2))).2.steps .x = 1000 ∧
    ((Ref.init Cfg.default).run Cfg.default ((refProgram.take 1).map (·.2))).2.extruded = 0 ∧
    ((Ref.init Cfg.default).run Cfg.default ((refProgram.take 1).map (·.2))).2.feed = 600 := by
  have d1 : dec (((10 : ℚ) : ℝ) * 1) = 10 := by
    rw [dec_eq (k := 10 ^ 11) (by norm_num)]; norm_num
  have s1 := ref_move (r := Ref.init Cfg.default) (n := 0) (ne := 0) (q := 10)
    (w := fun | .x => some 10 | _ => none) (f := some 600) (v := 600) (k := 1000) (ke := 0) rfl rfl rfl
    (by funext ax; cases ax <;> rfl) (by norm_num [lineFeed]) (by norm_num)
    (by simp only [Ref.init, d1]; norm_num) rfl
  rw [if_pos (by norm_num)] at s1
  obtain ⟨l, hl⟩ : ∃ l, (refProgram.take 1).map (·.2) = [l] := ⟨_, rfl⟩
  have hl' : l = ((refProgram.take 1).map (·.2)).headD ⟨.other, none⟩ := by rw [hl]; rfl
  obtain ⟨r1, s1, p1, x1, f1⟩ : ∃ r1, (Ref.init Cfg.default).step Cfg.default l = some r1 ∧
      r1.steps .x = 1000 ∧ r1.extruded = 0 ∧ r1.feed = 600 :=
    ⟨_, by rw [hl']; exact s1, rfl, by simp [Ref.init, dec, rnd_zero], rfl⟩
  rw [hl]
  simp only [Ref.run, s1]
  exact ⟨trivial, p1, x1, f1⟩

/-- The default machine after `G1X10F600` meets the hypotheses; `G28` brings it back by 1000 steps. -/
theorem C96_example [PyText] (henv : ∀ tr, env.move tr = none) (hcal : ∀ tr, env.calibrate tr = true) :
    ∃ s s' evs evs', machineRun Cfg.default env (MState.init Cfg.default) ["G1X10F600".toList] =
        some ([true], s) ∧ Sends Cfg.default s.trace evs ∧
      doCommand Cfg.default env (some homeLine) s = (.ok none, s') ∧ s'.pos.x.1 = 0 ∧
      Sends Cfg.default s'.trace evs' ∧ netSteps Cfg.default .x evs' = 0 := by
  obtain ⟨e1, e2, e3, e4⟩ := ten_run
  obtain ⟨l1, l2, l3, l4⟩ := home_line
  obtain ⟨s, s', evs, evs', h1, h2, h3, h4, h5⟩ := C96_program_partial default_float henv hcal (refProgram.take 1)
    (fun p hp => refProgram_says p (List.mem_of_mem_take hp)) ⟨refProgram_tame.1, trivial⟩
    (by rw [e3]; norm_num) (by rw [e4]; norm_num [Cfg.default]) l1 l2 l3
  rw [e1] at h1
  have := (h5 .x).1 (l4 .x (by decide))
  exact ⟨s, s', evs, evs', h1, h3, h2, this.1, h4, this.2⟩

/-- The hypotheses of C96 hold of the default machine as it starts. -/
example : FloatMachine Cfg.default ∧ Matches64 Cfg.default (MState.init Cfg.default) (Ref.init Cfg.default) ∧
    StepsOnTable Cfg.default (Ref.init Cfg.default).steps ∧ Is homeLine 'G' "28" ∧ NumbersOk homeLine ∧
    homeLine.params.lookup 'F' = none :=
  ⟨default_float, matches_init64, (refOk_init default_float).table, home_line.1, home_line.2.1, home_line.2.2.1⟩

end PyCNC.Props
