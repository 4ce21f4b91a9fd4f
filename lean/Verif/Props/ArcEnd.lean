import Verif.Lemmas.ArcMachineWitness
import Verif.Props.Arc

/-!
# Properties C35, C36 and C32 for the circular moves of the machine

Exact arithmetic, for every nearest-integer rounding (`PyRound`).
-/

set_option linter.unusedSectionVars false

namespace PyCNC.Props

open PyCNC Spec

variable [PyRound]

/-! ## C35 -/

/-- **C35.** When the end of an arc (in steps) lies on its circle and is straight above, below,
beside or diagonally from the centre, or is its start, the arc ends there and there is no
additional straight move.  Missing: all other points of the circle (`C35_refuted`). -/
theorem C35_end_partial {c : Cfg} {env : Env ℝ} {delta radius : V4 ℝ} {v : ℝ} {rot : Rot}
    {s s' : MState ℝ} (hc : SaneCfg c)
    (hon : endDist s.plane (roundToSteps c delta) (roundToSteps c radius) =
      startDist s.plane (roundToSteps c radius))
    (hs : endA s.plane (roundToSteps c delta) (roundToSteps c radius) = 0 ∨
      endB s.plane (roundToSteps c delta) (roundToSteps c radius) = 0 ∨
      |endA s.plane (roundToSteps c delta) (roundToSteps c radius)| =
        |endB s.plane (roundToSteps c delta) (roundToSteps c radius)| ∨
      ((roundToSteps c delta).get (axisA s.plane) = 0 ∧
        (roundToSteps c delta).get (axisB s.plane) = 0))
    (h : moveCircular c env delta radius v rot s = (.ok (), s')) :
    ∃ g, CircGen.new c (roundToSteps c delta) (roundToSteps c radius) s.plane rot v = .ok g ∧
      s'.trace = .move (.circular g) :: s.trace := by
  rcases moveCircular_cases (c := c) (env := env) delta radius v rot s with ⟨e, h0, _⟩ |
    ⟨ce, g, lg, _, k2, k3, _, k5, h0⟩
  · rw [h] at h0; cases h0
  · have hce := circleEnd_good k2 hon hs
    rw [hce, roundToSteps_idem hc] at k3 k5 h0
    rw [extra_none] at k5
    cases k5
    refine ⟨g, k3, ?_⟩
    rw [h] at h0
    exact circ_trace h0.symm

/-- For every arc: before it is rounded to steps, the end of the arc lies on the circle. -/
theorem C35_on_circle {c : Cfg} {env : Env ℝ} {delta radius : V4 ℝ} {v : ℝ} {rot : Rot}
    {s s' : MState ℝ} (h : moveCircular c env delta radius v rot s = (.ok (), s')) :
    ∃ (ce : V4 ℝ) (g : CircGen ℝ),
      endDist s.plane ce (roundToSteps c radius) = startDist s.plane (roundToSteps c radius) ∧
      CircGen.new c (roundToSteps c ce) (roundToSteps c radius) s.plane rot v = .ok g ∧
      ∃ rest, s'.trace = rest ++ .move (.circular g) :: s.trace ∧
        (rest = [] ∨ ∃ lg, rest = [.move (.linear lg)] ∧
          LinearGen.new c (Coord.sub (roundToSteps c delta) (roundToSteps c ce)) v = .ok lg) := by
  rcases moveCircular_cases (c := c) (env := env) delta radius v rot s with ⟨e, h0, _⟩ |
    ⟨ce, g, lg, _, k2, k3, _, k5, h0⟩
  · rw [h] at h0; cases h0
  · refine ⟨ce, g, circleEnd_on k2, k3, ?_⟩
    rw [h] at h0
    rcases lg with _ | lg
    · refine ⟨[], ?_, .inl rfl⟩
      exact circ_trace h0.symm
    · have hl : LinearGen.new c (Coord.sub (roundToSteps c delta) (roundToSteps c ce)) v = .ok lg := by
        unfold extraLinear at k5
        split at k5
        · obtain ⟨g', hg', k6⟩ := bindE_ok k5
          obtain ⟨_, _, k7⟩ := bindE_ok k6
          cases k7
          exact hg'
        · cases k5
      refine ⟨[.move (.linear lg)], ?_, .inr ⟨lg, rfl, hl⟩⟩
      exact circ_trace h0.symm

/-- A half circle: its end is beside its centre. -/
example : endDist .xy (roundToSteps Cfg.default ⟨2, 0, 0, 0⟩) (roundToSteps Cfg.default ⟨1, 0, 0, 0⟩) =
      startDist .xy (roundToSteps Cfg.default ⟨1, 0, 0, 0⟩) ∧
    endB .xy (roundToSteps Cfg.default ⟨2, 0, 0, 0⟩) (roundToSteps Cfg.default ⟨1, 0, 0, 0⟩) = 0 := by
  rw [rts_vec (x := 2) (y := 0) (z := 0) 200 0 0 (by norm_num) (by norm_num) (by norm_num),
    rts_vec (x := 1) (y := 0) (z := 0) 100 0 0 (by norm_num) (by norm_num) (by norm_num)]
  obtain ⟨s1, s2⟩ := arc_sizes (da := 2) (db := 0) (ra := 1) (rb := 0) (d3 := 0) (e := 0)
  rw [s1, s2]
  constructor
  · norm_num
  · simp [endB, axisB, V4.get]

/-- **C35 is false**: `G2 X100 Y92 I-3 J-4` at (100, 100).  Start and end are both 5 mm from the
centre (97, 96), but the program makes an arc to (100.27, 92.22) and a straight move from there. -/
theorem C35_refuted {env : Env ℝ} (henv : ∀ tr, env.move tr = none) {s : MState ℝ}
    (hs : s.pos = ⟨100, 100, 0, 0⟩) (hpl : s.plane = .xy) :
    endDist .xy ⟨0, -8, 0, 0⟩ ⟨-3, -4, 0, 0⟩ = startDist .xy ⟨-3, -4, 0, 0⟩ ∧
    ∃ g lg, CircGen.new Cfg.default ⟨27 / 100, -778 / 100, 0, 0⟩ ⟨-3, -4, 0, 0⟩ .xy .cw 600 = .ok g ∧
      LinearGen.new Cfg.default ⟨-27 / 100, -22 / 100, 0, 0⟩ 600 = .ok lg ∧
      (moveCircular Cfg.default env ⟨0, -8, 0, 0⟩ ⟨-3, -4, 0, 0⟩ 600 .cw s).1 = .ok () ∧
      (moveCircular Cfg.default env ⟨0, -8, 0, 0⟩ ⟨-3, -4, 0, 0⟩ 600 .cw s).2.trace =
        .move (.linear lg) :: .move (.circular g) :: s.trace := by
  constructor
  · obtain ⟨s1, s2⟩ := arc_sizes (da := 0) (db := -8) (ra := -3) (rb := -4) (d3 := 0) (e := 0)
    rw [s1, s2]; norm_num
  · obtain ⟨g, lg, h1, h2, h3⟩ := miss_moves henv (m := 10000) (n := 10000) (by omega) (by omega)
      (s := s) (by rw [hs]; norm_num) hpl
    exact ⟨g, lg, h1, h2, by rw [h3], by rw [h3]⟩

/-! ## C36 -/

/-- **C36 is false**: `G2 X108.54 Y103.54 I5` at (100, 100), an arc of radius 5 mm whose end is half
a step from the circle.  The end is put on the circle and rounded back to where it was, 5.0063 mm
or 501 steps from the centre, and the assertion about the end point fails. -/
theorem C36_end_refuted {env : Env ℝ} {s : MState ℝ} (hs : s.pos = ⟨100, 100, 0, 0⟩)
    (hpl : s.plane = .xy) (v : ℝ) :
    moveCircular Cfg.default env ⟨854 / 100, 354 / 100, 0, 0⟩ ⟨5, 0, 0, 0⟩ v .cw s =
      (.error (.assertion "Wrong end point"), s) := assert_fails hs hpl

/-! ## C32 -/

/-- **C32** for arcs with automatic adjustment: the generator of an arc that moves only the two axes
of its plane, or is long enough to reach its speed, passes the velocity check, and no axis is faster
than its limit.  Missing: short arcs that move a third axis (`C32_circular_refuted`). -/
theorem C32_circular_partial {c : Cfg} {delta radius : V4 ℝ} {plane : Plane} {v : ℝ} (hc : SaneCfg c)
    (hd : DecimalLimits c) (ha : c.autoVel = true) (h : OrdinaryArc c delta radius plane v) (rot : Rot)
    (hlong : (delta.get (axis3 plane) = 0 ∧ delta.e = 0) ∨
      ∃ T, Sweep plane delta radius rot T ∧ (v / 60 + 1 / 10 ^ 10) ^ 2 ≤
        c.accel * (T * (startDist plane radius - 1 / 2 / coarse c plane))) :
    ∃ g, CircGen.new c delta radius plane rot v = .ok g ∧
      (∀ ax, g.maxV.get ax ≤ (c.maxVel.get ax : ℝ) / 60) ∧
      checkVelocity c (Gen.circular g).maxVelocity = .ok () := by
  obtain ⟨g, φs, φe, hg, -, -⟩ := arc_new hc (ordinary_sized hc h) rot
  have hlim := arc_limit hc hd ha (ordinary_sized hc h) hg hlong
  exact ⟨g, hg, hlim, checkVelocity_gen hd (g := .circular g) hlim⟩

/-- A quarter of a circle, in the plane; and a slow helix: half a turn of radius 1 mm at 10 mm/s. -/
example : ((⟨10, 10, 0, 0⟩ : V4 ℝ).get (axis3 .xy) = 0 ∧ (⟨10, 10, 0, 0⟩ : V4 ℝ).e = 0) ∧
    ∃ T, Sweep .xy ⟨2, 0, 1 / 100, 0⟩ ⟨1, 0, 0, 0⟩ .cw T ∧ ((600 : ℝ) / 60 + 1 / 10 ^ 10) ^ 2 ≤
      Cfg.default.accel * (T * (startDist .xy ⟨1, 0, 0, 0⟩ - 1 / 2 / coarse Cfg.default .xy)) := by
  refine ⟨⟨rfl, rfl⟩, Real.pi, helix_sweep, ?_⟩
  obtain ⟨s1, -⟩ := arc_sizes (da := 2) (db := 0) (ra := 1) (rb := 0) (d3 := 0) (e := 0)
  have hacc : ((Cfg.default.accel : ℚ) : ℝ) = 3000 := by norm_num [Cfg.default]
  rw [s1, coarse_xy, hacc]
  have := Real.pi_gt_three
  norm_num
  nlinarith

/-- **C32 is false** for arcs: `G2 X102 Z0.01 I1 F24000` at (100, 100, 0), half a turn with a small
lift.  The velocities are adjusted, but because the arc is short all of them, also that of the Z
axis, are replaced by 97 mm/s, and the move is rejected. -/
theorem C32_circular_refuted {env : Env ℝ} {s : MState ℝ} (hs : s.pos = ⟨100, 100, 0, 0⟩)
    (hpl : s.plane = .xy) : Cfg.default.autoVel = true ∧
    moveCircular Cfg.default env ⟨2, 0, 1 / 100, 0⟩ ⟨1, 0, 0, 0⟩ 24000 .cw s =
      (.error (.gmachine "out of maximum speed"), s) := ⟨rfl, helix_rejected hs hpl⟩

end PyCNC.Props
