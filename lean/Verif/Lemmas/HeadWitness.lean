import Verif.Lemmas.BackCircle
import Verif.Lemmas.Drive
import Verif.Lemmas.HeadHistory
import Verif.Lemmas.HeadDrift
import Verif.Props.Linear

/-!
# Short histories that are followed pulse by pulse
-/

namespace PyCNC

open Spec

variable [PyRound] {env : Env ℝ}

/-- `G1 X.. Y..` -/
def lineTo (x y : String) : GCode := ⟨[('G', ['1']), ('X', x.toList), ('Y', y.toList)]⟩

/-- `G2 X.. Y90 J-5` -/
def halfLine (x : String) : GCode :=
  ⟨[('G', ['2']), ('X', x.toList), ('Y', "90".toList), ('J', "-5".toList)]⟩

/-- `G3 X100 Y107.07 I-5 J-5` -/
def backLine : GCode :=
  ⟨[('G', ['3']), ('X', "100".toList), ('Y', "107.07".toList), ('I', "-5".toList), ('J', "-5".toList)]⟩

omit [PyRound] in
theorem parse_10707 : parseFloat "107.07".toList = some (10707 / 100) := by
  have h : "107.07".toList = ['1', '0', '7', '.', '0', '7'] := by decide
  rw [h]
  change some (((digitsVal ['1', '0', '7', '0', '7'] 0 : ℕ) : ℚ) / 10 ^ 2) = _
  rw [show digitsVal ['1', '0', '7', '0', '7'] 0 = 10707 by decide]
  norm_num

/-- Going to a point, with the pulses. -/
theorem drive_pulses (henv : ∀ tr, env.move tr = none) {m n : ℤ} (hm : 0 < m ∧ m ≤ 20000)
    (hn : 0 < n ∧ n ≤ 20000) {x y : String} (hx : parseFloat x.toList = some (m / 100 : ℚ))
    (hy : parseFloat y.toList = some (n / 100 : ℚ)) :
    ∃ (s : MState ℝ) (lg : LinearGen ℝ) (evs : List (Event ℝ)),
      doCommand Cfg.default env (some (lineTo x y)) (MState.init Cfg.default) = (.ok none, s) ∧
      Plain s ∧ s.pos = ⟨m / 100, n / 100, 0, 0⟩ ∧
      s.trace = [.move (.linear lg), .watchdog, .init] ∧ Sends Cfg.default s.trace evs ∧
      netSteps Cfg.default .x evs = m ∧ netSteps Cfg.default .y evs = n := by
  obtain ⟨s, lg, ho, hl, hcmd, hpl, hpos, htr⟩ := drive_to (g := lineTo x y) henv hm hn (by rfl)
    ⟨_, rfl, hx⟩ ⟨_, rfl, hy⟩ rfl rfl rfl rfl rfl rfl
  obtain ⟨g, evs, hg, he, -, hst, hnet⟩ := Props.C28_linear_pulses sane_cfg ho
  rw [hl] at hg
  cases hg
  have hm' : (0 : ℝ) < m := by exact_mod_cast hm.1
  have hn' : (0 : ℝ) < n := by exact_mod_cast hn.1
  refine ⟨s, lg, evs, hcmd, hpl, hpos, htr, ?_, ?_, ?_⟩
  · rw [htr, ← List.nil_append evs]
    exact .move he (.other (by simp) (.other (by simp) .nil))
  · have h1 := hnet .x
    have h2 := hst .x
    have e : |(⟨m / 100, n / 100, 0, 0⟩ : V4 ℝ).get .x| * ((Cfg.default.ppm.get .x : ℚ) : ℝ) = (m : ℤ) := by
      norm_num [V4.get, Cfg.default]
      rw [abs_of_pos (by positivity)]; ring
    rw [e, rnd_int] at h2
    rw [h1, if_neg (by simp only [V4.get]; push Not; positivity), h2]
  · have h1 := hnet .y
    have h2 := hst .y
    have e : |(⟨m / 100, n / 100, 0, 0⟩ : V4 ℝ).get .y| * ((Cfg.default.ppm.get .y : ℚ) : ℝ) = (n : ℤ) := by
      norm_num [V4.get, Cfg.default]
      rw [abs_of_pos (by positivity)]; ring
    rw [e, rnd_int] at h2
    rw [h1, if_neg (by simp only [V4.get]; push Not; positivity), h2]

/-- `G1 X.. Y100` and `G2 X.. Y90 J-5`. -/
theorem half_history (henv : ∀ tr, env.move tr = none) {m : ℤ} (hm : 0 < m ∧ m ≤ 20000)
    {x : String} (hx : parseFloat x.toList = some (m / 100 : ℚ)) :
    ∃ (s1 s2 : MState ℝ) (lg : LinearGen ℝ) (g : CircGen ℝ) (e1 e2 pre : List (Event ℝ)),
      doCommand Cfg.default env (some (lineTo x "100")) (MState.init Cfg.default) = (.ok none, s1) ∧
      doCommand Cfg.default env (some (halfLine x)) s1 = (.ok none, s2) ∧
      s1.trace = [.move (.linear lg), .watchdog, .init] ∧
      s2.trace = .move (.circular g) :: s1.trace ∧
      CircGen.new Cfg.default ⟨0, -10, 0, 0⟩ ⟨0, -5, 0, 0⟩ .xy .cw 600 = .ok g ∧
      Sends Cfg.default s1.trace e1 ∧ Sends Cfg.default s2.trace (e1 ++ e2) ∧
      Emits Cfg.default (.circular g) e2 ∧
      netSteps Cfg.default .x e1 = m ∧ netSteps Cfg.default .y e1 = 10000 ∧
      pre <+: e2 ∧ netSteps Cfg.default .x pre = 500 := by
  obtain ⟨s1, lg, e1, hcmd, hpl, hpos, htr, hsend, hnx, hny⟩ :=
    drive_pulses (y := "100") (n := 10000) henv hm (by norm_num) hx
      (by norm_num; decide)
  have g1 := hpl.grid
  obtain ⟨d, hd, hdv⟩ := plain_delta hpl (g := halfLine x)
    (w := fun | .x => some (m / 100 : ℚ) | .y => some 90 | .z => none | .e => none)
    (by
      intro ax; cases ax
      exacts [⟨_, rfl, hx⟩, ⟨_, rfl, by decide⟩, rfl, rfl])
    (by
      intro ax q hq
      cases ax <;> simp only [Option.some.injEq, reduceCtorEq] at hq <;> subst hq
      · have := g1 .x; rw [hpos] at this; simp only [V4.get] at this; push_cast; exact this
      · have := gridV_hundredth 0 9000 0 .y; norm_num [V4.get] at this ⊢; exact this)
  have hd' : d = ⟨0, -10, 0, 0⟩ := by
    apply V4.ext_get
    intro ax
    rw [hdv, hpos]
    cases ax <;> norm_num [V4.get]
  obtain ⟨r, hr, r1, r2, r3, r4⟩ := plain_radius hpl (g := halfLine x) (oi := none) (oj := some (-5))
    (ok := none) rfl ⟨_, rfl, by decide⟩ rfl
  have hr' : r = ⟨0, -5, 0, 0⟩ := by
    have g5 := gridV_hundredth 0 (-500) 0
    apply V4.ext_get
    intro ax
    cases ax
    · rw [r1]; simp [V4.get]
    · rw [r2]
      have := round10_grid (g5 .y)
      norm_num only [V4.get] at this
      norm_num only [V4.get, Option.getD_some]
      exact this
    · rw [r3]; simp [V4.get]
    · rw [r4]; rfl
  rw [hd'] at hd
  rw [hr'] at hr
  obtain ⟨g, hg, p, hmv⟩ := half_moves henv (m := m) (n := 10000) (by omega) (by omega) hpos hpl.plane
  obtain ⟨e2, he2, pre, hpre, hnet⟩ := half_train hg
  have hcmd2 := drive_arc (rot := .cw) hpl (g := halfLine x) rfl hd rfl hr hmv
  refine ⟨s1, _, lg, g, e1, e2, pre, hcmd, hcmd2, htr, rfl, hg, hsend, ?_, he2, hnx, hny, hpre, hnet⟩
  exact .move he2 hsend

/-- `G1 X105 Y105` and `G3 X100 Y107.07 I-5 J-5`. -/
theorem back_history (henv : ∀ tr, env.move tr = none) :
    ∃ (s1 s2 : MState ℝ) (evs : List (Event ℝ)),
      doCommand Cfg.default env (some (lineTo "105" "105")) (MState.init Cfg.default) =
        (.ok none, s1) ∧
      doCommand Cfg.default env (some backLine) s1 = (.ok none, s2) ∧
      s2.pos = ⟨100, 10707 / 100, 0, 0⟩ ∧ Sends Cfg.default s2.trace evs ∧
      netSteps Cfg.default .x evs = 10500 ∧ netSteps Cfg.default .y evs = 10500 := by
  obtain ⟨s1, lg, e1, hcmd, hpl, hpos, htr, hsend, hnx, hny⟩ :=
    drive_pulses (x := "105") (y := "105") (m := 10500) (n := 10500) henv (by norm_num) (by norm_num)
      (by norm_num; decide) (by norm_num; decide)
  norm_num at hpos
  obtain ⟨d, hd, hdv⟩ := plain_delta hpl (g := backLine)
    (w := fun | .x => some 100 | .y => some (10707 / 100) | .z => none | .e => none)
    (by
      intro ax; cases ax
      exacts [⟨_, rfl, by decide⟩, ⟨_, rfl, parse_10707⟩, rfl, rfl])
    (by
      have g7 := gridV_hundredth 10000 10707 0
      intro ax q hq
      cases ax <;> simp only [Option.some.injEq, reduceCtorEq] at hq <;> subst hq
      · have := g7 .x; norm_num [V4.get] at this ⊢; exact this
      · have := g7 .y; norm_num [V4.get] at this ⊢; exact this)
  have hd' : d = ⟨-5, 207 / 100, 0, 0⟩ := by
    apply V4.ext_get
    intro ax
    rw [hdv, hpos]
    cases ax <;> norm_num [V4.get]
  obtain ⟨r, hr, r1, r2, r3, r4⟩ := plain_radius hpl (g := backLine) (oi := some (-5))
    (oj := some (-5)) (ok := none) ⟨_, rfl, by decide⟩ ⟨_, rfl, by decide⟩ rfl
  have hr' : r = ⟨-5, -5, 0, 0⟩ := by
    have g5 := round10_grid (gridV_hundredth 0 (-500) 0 .y)
    norm_num only [V4.get] at g5
    apply V4.ext_get
    intro ax
    cases ax
    · rw [r1]; norm_num only [V4.get, Option.getD_some]; exact g5
    · rw [r2]; norm_num only [V4.get, Option.getD_some]; exact g5
    · rw [r3]; simp [V4.get]
    · rw [r4]; rfl
  rw [hd'] at hd
  rw [hr'] at hr
  obtain ⟨g, hg, hmv⟩ := back_moves henv hpos hpl.plane
  obtain ⟨e2, he2, n1, n2⟩ := back_train hg
  have hcmd2 := drive_arc (rot := .ccw) hpl (g := backLine) rfl hd rfl hr hmv
  refine ⟨s1, _, e1 ++ e2, hcmd, hcmd2, rfl, .move he2 hsend, ?_, ?_⟩
  · rw [netSteps_append (emits_announced he2 List.prefix_rfl), hnx, n1]; rfl
  · rw [netSteps_append (emits_announced he2 List.prefix_rfl), hny, n2]; rfl

/-- `G1 E0.007` -/
def extrudeLine : GCode := ⟨[('G', ['1']), ('E', "0.007".toList)]⟩

omit [PyRound] in
theorem parse_0007 : parseFloat "0.007".toList = some (7 / 1000) := by
  have h : "0.007".toList = ['0', '.', '0', '0', '7'] := by decide
  rw [h]
  change some (((digitsVal ['0', '0', '0', '7'] 0 : ℕ) : ℚ) / 10 ^ 3) = _
  rw [show digitsVal ['0', '0', '0', '7'] 0 = 7 by decide]
  norm_num

theorem extrude_rounds :
    roundToSteps Cfg.default (⟨0, 0, 0, 7 / 1000⟩ : V4 ℝ) = ⟨0, 0, 0, 66666667 / 10 ^ 10⟩ := by
  have z : ∀ ax, (⟨0, 0, 0, 7 / 1000⟩ : V4 ℝ).get ax = 0 →
      (roundToSteps Cfg.default (⟨0, 0, 0, 7 / 1000⟩ : V4 ℝ)).get ax = 0 := by
    intro ax h
    rw [get_roundToSteps, h, zero_div, rnd_zero, Int.cast_zero, zero_mul, round10_zero]
  apply V4.ext_get
  intro ax
  cases ax
  · exact z .x rfl
  · exact z .y rfl
  · exact z .z rfl
  · rw [get_roundToSteps]
    have pe : ((Cfg.default.ppm.get .e : ℚ) : ℝ) = 150 := by norm_num [V4.get, Cfg.default]
    simp only [V4.get] at pe ⊢
    rw [pe, rnd_unique (n := 1) (by norm_num), round10_eq, rnd_unique (n := 66666667) (by norm_num [E10])]
    norm_num [E10]

/-- The machine after `G1 E0.007`. -/
theorem extrude_history (henv : ∀ tr, env.move tr = none) :
    ∃ (s : MState ℝ) (evs : List (Event ℝ)),
      doCommand Cfg.default env (some extrudeLine) (MState.init Cfg.default) = (.ok none, s) ∧
      Sends Cfg.default s.trace evs ∧ s.pos.e = 66666667 / 10 ^ 10 ∧
      netSteps Cfg.default .e evs = 1 ∧ moveCount s.trace = 1 ∧
      ∀ g, HalCall.move (.circular g) ∉ s.trace := by
  obtain ⟨d, hd, hdv⟩ := plain_delta plain_init (g := extrudeLine)
    (w := fun | .x => none | .y => none | .z => none | .e => some (7 / 1000))
    (by
      intro ax; cases ax
      exacts [rfl, rfl, rfl, ⟨_, rfl, parse_0007⟩])
    (by
      intro ax q hq
      cases ax <;> simp only [Option.some.injEq, reduceCtorEq] at hq <;> subst hq
      exact ⟨7 * 10 ^ 7, by norm_num [E10]⟩)
  have hp0 : (MState.init Cfg.default : MState ℝ).pos = Coord.zero := rfl
  have hd' : d = ⟨0, 0, 0, 7 / 1000⟩ := by
    apply V4.ext_get
    intro ax
    rw [hdv, hp0]
    cases ax
    · rfl
    · rfl
    · rfl
    · simp only [get_zero]; norm_num [V4.get]
  rw [hd'] at hd
  have hgr : GridV (⟨0, 0, 0, 66666667 / 10 ^ 10⟩ : V4 ℝ) := by
    rw [← extrude_rounds]; exact gridV_roundToSteps _
  have ho : OrdinaryMove (⟨0, 0, 0, 66666667 / 10 ^ 10⟩ : V4 ℝ) 600 := by
    refine ⟨hgr, ⟨.e, by norm_num [V4.get]⟩, fun ax => ?_, fun ax hax => ?_, by norm_num⟩
    · cases ax <;> norm_num [V4.get, abs_of_pos]
    · cases ax
      · exact absurd rfl hax
      · exact absurd rfl hax
      · exact absurd rfl hax
      · norm_num [V4.get, abs_of_pos]
  have hz : (Coord.zero : V4 ℝ) = ⟨0, 0, 0, 0⟩ := V4.ext_get fun ax => by
    rw [get_zero]; cases ax <;> rfl
  have hcd : checkDelta Cfg.default (MState.init Cfg.default : MState ℝ).pos
      ⟨0, 0, 0, 66666667 / 10 ^ 10⟩ = .ok () := by
    rw [hp0, checkDelta_ok (decimalQ_grid Props.default_tableOk.1.2)
      (decimalQ_grid Props.default_tableOk.2.1.2) (decimalQ_grid Props.default_tableOk.2.2.2)
      ⟨Props.default_tableOk.1.1, Props.default_tableOk.2.1.1, Props.default_tableOk.2.2.1⟩ gridV_zero hgr]
    rw [hz]
    norm_num [Cfg.default]
  obtain ⟨lg, hl, hrun⟩ := drive_linear henv plain_init (g := extrudeLine) rfl hd rfl rfl rfl rfl
    extrude_rounds ho hcd
  obtain ⟨g, evs, hg, he, -, hst, hnet⟩ := Props.C28_linear_pulses sane_cfg ho
  rw [hl] at hg
  cases hg
  refine ⟨_, evs, hrun, ?_, ?_, ?_, rfl, ?_⟩
  · rw [← List.nil_append evs]
    exact .move he (.other (by simp) (.other (by simp) .nil))
  · dsimp only
    rw [hp0]
    have := get_add_grid gridV_zero hgr .e
    rw [get_zero, zero_add] at this
    exact this
  · have h2 := hst .e
    have pe : ((Cfg.default.ppm.get .e : ℚ) : ℝ) = 150 := by norm_num [V4.get, Cfg.default]
    rw [pe] at h2
    simp only [V4.get] at h2
    rw [abs_of_pos (by norm_num), rnd_unique (n := 1) (by norm_num)] at h2
    rw [hnet .e, if_neg (by norm_num [V4.get]), h2]
  · intro g
    simp [MState.init]

end PyCNC
