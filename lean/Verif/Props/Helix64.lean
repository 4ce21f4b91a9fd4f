import Verif.Props.Arc64

/-!
# Property C91: helices and arcs with extrusion in binary64

The arcs of C90, when the axis across the plane or the extruder moves, too, and no part of the motion
is a tiny part of the whole (`Balanced`), so that no velocity is rounded to zero by `Coordinates` at
the smallest feed of `OrdinaryArc`.
-/

set_option linter.unusedSectionVars false

namespace PyCNC.Props

open PyCNC Spec

variable [PyRound] {c : Cfg} {delta radius : V4 ℝ} {plane : Plane} {v : ℝ}

/-- **C91.** In binary64 the generator of a helix or of an arc with extrusion is built and iterated to
its end without exception.  The axes of the plane move exactly by the distance to the end of the arc;
the axis across the plane and the extruder move in the right direction, by their distance rounded up
to steps, and exactly by their distance when it is a number of steps that does not grow on conversion
to mm and back.

Missing: numbers of steps that are changed by the conversion (`C91_refuted`, `C90_refuted`), planes of
axes with different steps, tiny parts. -/
theorem C91_helix_partial (hc : SaneCfg c) (h : OrdinaryArc c delta radius plane v)
    (hpq : c.ppm.get (axisA plane) = c.ppm.get (axisB plane))
    (hfp : ∀ ax, fl (c.ppm.get ax) = c.ppm.get ax)
    (hsz : startDist plane radius * c.ppm.get (axisA plane) ≤ 10000)
    (hbal : Balanced plane delta radius)
    (hR : Survives (c.ppm.get (axisA plane))
      (PyRound.rnd (startDist plane radius * c.ppm.get (axisA plane))))
    (hS : ∀ ax, ax = axisA plane ∨ ax = axisB plane →
      ∀ n : ℤ, radius.get ax * c.ppm.get ax = n → Survives (c.ppm.get ax) n)
    (hb : ¬ BackInQuarter plane delta radius) (rot : Rot) :
    ∃ g evs, CircGen.new c (delta.map F64.of) (radius.map F64.of) plane rot (F64.of v) = .ok g ∧
      Emits c (.circular g) evs ∧ ∀ ax,
        (ax = axisA plane ∨ ax = axisB plane → (netSteps c ax evs : ℝ) = delta.get ax * c.ppm.get ax) ∧
        (ax = axis3 plane ∨ ax = .e →
          |delta.get ax| * c.ppm.get ax - 1 / 10 ^ 6 ≤ steps ax evs ∧
          (steps ax evs : ℝ) < |delta.get ax| * c.ppm.get ax + 1 + 1 / 10 ^ 6 ∧
          netSteps c ax evs = (if delta.get ax < 0 then -(steps ax evs : ℤ) else (steps ax evs : ℤ)) ∧
          ∀ n : ℤ, delta.get ax * c.ppm.get ax = n → Fits (c.ppm.get ax) n → netSteps c ax evs = n) := by
  obtain ⟨-, g', evs, -, hnew', he, -, hax⟩ := arc64_net hc h hpq (hfp _) hsz (.inr hbal) hR rot
  refine ⟨g', evs, hnew', he, fun ax => ⟨fun hx => ?_, fun hx => ?_⟩⟩
  · have := ((hax ax).1 hx).2 (hS ax hx)
    rwa [if_neg hb] at this
  · exact other_steps hc h hfp hx ((hax ax).2 hx)

/-- **C91**, the arcs that end before their start in the same quarter: a full circle, as in exact
arithmetic (`C34_back_in_quarter`). -/
theorem C91_back_partial (hc : SaneCfg c) (h : OrdinaryArc c delta radius plane v)
    (hpq : c.ppm.get (axisA plane) = c.ppm.get (axisB plane))
    (hfp : ∀ ax, fl (c.ppm.get ax) = c.ppm.get ax)
    (hsz : startDist plane radius * c.ppm.get (axisA plane) ≤ 10000)
    (hbal : Balanced plane delta radius)
    (hR : Survives (c.ppm.get (axisA plane))
      (PyRound.rnd (startDist plane radius * c.ppm.get (axisA plane))))
    (hS : ∀ ax, ax = axisA plane ∨ ax = axisB plane →
      ∀ n : ℤ, radius.get ax * c.ppm.get ax = n → Survives (c.ppm.get ax) n)
    (hb : BackInQuarter plane delta radius) (rot : Rot) :
    ∃ g evs, CircGen.new c (delta.map F64.of) (radius.map F64.of) plane rot (F64.of v) = .ok g ∧
      Emits c (.circular g) evs ∧ ∀ ax,
        (ax = axisA plane ∨ ax = axisB plane → netSteps c ax evs = 0) ∧
        (ax = axis3 plane ∨ ax = .e →
          |delta.get ax| * c.ppm.get ax - 1 / 10 ^ 6 ≤ steps ax evs ∧
          (steps ax evs : ℝ) < |delta.get ax| * c.ppm.get ax + 1 + 1 / 10 ^ 6 ∧
          netSteps c ax evs = (if delta.get ax < 0 then -(steps ax evs : ℤ) else (steps ax evs : ℤ)) ∧
          ∀ n : ℤ, delta.get ax * c.ppm.get ax = n → Fits (c.ppm.get ax) n → netSteps c ax evs = n) := by
  obtain ⟨-, g', evs, -, hnew', he, -, hax⟩ := arc64_net hc h hpq (hfp _) hsz (.inr hbal) hR rot
  refine ⟨g', evs, hnew', he, fun ax => ⟨fun hx => ?_, fun hx => ?_⟩⟩
  · have := ((hax ax).1 hx).2 (hS ax hx)
    rw [if_pos hb] at this
    exact_mod_cast this
  · exact other_steps hc h hfp hx ((hax ax).2 hx)

/-- **C91**, when only the radius survives: no exception, and no axis ends more than two steps away
from the end of the arc. -/
theorem C91_near_partial (hc : SaneCfg c) (h : OrdinaryArc c delta radius plane v)
    (hpq : c.ppm.get (axisA plane) = c.ppm.get (axisB plane))
    (hfp : ∀ ax, fl (c.ppm.get ax) = c.ppm.get ax)
    (hsz : startDist plane radius * c.ppm.get (axisA plane) ≤ 10000)
    (hbal : Balanced plane delta radius)
    (hR : Survives (c.ppm.get (axisA plane))
      (PyRound.rnd (startDist plane radius * c.ppm.get (axisA plane))))
    (hb : ¬ BackInQuarter plane delta radius) (rot : Rot) :
    ∃ g evs, CircGen.new c (delta.map F64.of) (radius.map F64.of) plane rot (F64.of v) = .ok g ∧
      Emits c (.circular g) evs ∧
      ∀ ax, |(netSteps c ax evs : ℝ) - delta.get ax * c.ppm.get ax| ≤ 2 := by
  obtain ⟨-, g', evs, -, hnew', he, -, hax⟩ := arc64_net hc h hpq (hfp _) hsz (.inr hbal) hR rot
  refine ⟨g', evs, hnew', he, fun ax => ?_⟩
  have cover : (ax = axisA plane ∨ ax = axisB plane) ∨ ax = axis3 plane ∨ ax = .e := by
    cases plane <;> cases ax <;> simp [axisA, axisB, axis3]
  rcases cover with hx | hx
  · have := ((hax ax).1 hx).1
    rwa [if_neg hb] at this
  · obtain ⟨o1, o2, o3, -⟩ := other_steps hc h hfp hx ((hax ax).2 hx)
    rw [o3]
    split
    · next hneg =>
      rw [abs_of_neg hneg] at o1 o2
      push_cast
      rw [abs_le]; constructor <;> linarith
    · next hpos =>
      rw [abs_of_nonneg (not_lt.1 hpos)] at o1 o2
      push_cast
      rw [abs_le]; constructor <;> linarith

/-! ## Helices that meet the hypotheses -/

/-- A quarter of a circle of radius 1 mm that climbs `z` mm. -/
theorem climb (z : ℝ) (hz : 14 / 1000 ≤ |z|) (hz' : |z| ≤ 100) :
    OrdinaryArc Cfg.default ⟨1, 1, z, 0⟩ ⟨1, 0, 0, 0⟩ .xy 600 ∧
    startDist .xy ⟨1, 0, 0, 0⟩ = 1 ∧ Balanced .xy ⟨1, 1, z, 0⟩ ⟨1, 0, 0, 0⟩ ∧
    ¬ BackInQuarter .xy ⟨1, 1, z, 0⟩ ⟨1, 0, 0, 0⟩ := by
  have hs : startDist .xy ⟨1, 0, 0, 0⟩ = 1 := by
    simp only [startDist, startA, startB, axisA, axisB, V4.get]; norm_num
  have hd : endDist .xy ⟨1, 1, z, 0⟩ ⟨1, 0, 0, 0⟩ = 1 := by
    simp only [endDist, endA, endB, axisA, axisB, V4.get]; norm_num
  have hre : reach .xy ⟨1, 1, z, 0⟩ ⟨1, 0, 0, 0⟩ = 13 + |z| := by
    unfold reach; rw [hs]; simp [axis3, V4.get]
  refine ⟨⟨⟨?_, ?_, ⟨100, ?_⟩, ⟨0, ?_⟩, ⟨100, ?_⟩, ⟨100, ?_⟩, .inl rfl⟩, ?_, ?_, ?_, ?_, ?_, ?_,
    ?_, .inr (.inr ?_), ?_⟩, hs, ⟨?_, ?_, .inr ?_⟩, ?_⟩
  any_goals first
    | (rw [hs]; norm_num; done)
    | rw [hs, hd]
    | (simp [axisA, axisB, axis3, V4.get, Cfg.default]; done)
    | (simp only [axisA, axisB, V4.get, Cfg.default]; norm_num; done)
    | skip
  · change |z| ≤ 1000; linarith
  · intro _; change 1 / 1000 ≤ |z|; linarith
  · intro _; rw [hre]; change _ ≤ 1000 * |z|; linarith
  · rw [hre]
    have : (1 : ℝ) ≤ √(1 ^ 2 + 1 ^ 2) := by
      apply Real.le_sqrt_of_sq_le; norm_num
    change 13 + |z| ≤ 400 * √(1 ^ 2 + 1 ^ 2)
    linarith
  · simp only [BackInQuarter, arcQuarter, startA, startB, endA, endB, axisA, axisB, V4.get]
    norm_num

theorem default_ppm64 (ax : Axis) : fl (Cfg.default.ppm.get ax) = Cfg.default.ppm.get ax := by
  cases ax
  · exact (fl_hundred .x (.inl rfl)).1
  · exact (fl_hundred .y (.inr rfl)).1
  · have : (Cfg.default.ppm.get .z : ℝ) = (400 : ℤ) := by simp [V4.get, Cfg.default]
    rw [this]; exact fl_int _ (by norm_num)
  · have : (Cfg.default.ppm.get .e : ℝ) = (150 : ℤ) := by simp [V4.get, Cfg.default]
    rw [this]; exact fl_int _ (by norm_num)

/-- The pulses of that helix. -/
theorem climb_net (z : ℝ) (hz : 14 / 1000 ≤ |z|) (hz' : |z| ≤ 100) :
    ∃ (g : CircGen F64) (evs : List (Event F64)),
      CircGen.new Cfg.default ⟨F64.of 1, F64.of 1, F64.of z, F64.of 0⟩
        ⟨F64.of 1, F64.of 0, F64.of 0, F64.of 0⟩ .xy .cw (F64.of 600) = .ok g ∧
      Emits Cfg.default (.circular g) evs ∧ netSteps Cfg.default .x evs = 100 ∧
      netSteps Cfg.default .y evs = 100 ∧
      ∀ n : ℤ, z * (Cfg.default.ppm.get .z : ℚ) = n → Fits (Cfg.default.ppm.get .z) n →
        netSteps Cfg.default .z evs = n := by
  obtain ⟨ho, hs, hb, ha⟩ := climb z hz hz'
  have hd : startDist .xy ⟨1, 0, 0, 0⟩ * (Cfg.default.ppm.get (axisA .xy) : ℚ) = (100 * 1 : ℤ) := by
    rw [hs, (fl_hundred (axisA .xy) (.inl rfl)).2]; norm_num
  obtain ⟨g, evs, h1, h2, h3⟩ := C91_helix_partial sane_cfg ho rfl default_ppm64
    (by rw [hd]; norm_num) hb (by rw [hd, rnd_int]; exact whole_mm (.inl rfl) 1 (by norm_num))
    (by
      rintro ax hx n hn
      rw [(fl_hundred ax hx).2] at hn
      rcases hx with rfl | rfl
      · have : n = 100 * 1 := by
          have : (n : ℝ) = (100 * 1 : ℤ) := by rw [← hn]; norm_num [V4.get, axisA]
          exact_mod_cast this
        rw [this]; exact whole_mm (.inl rfl) 1 (by norm_num)
      · have : n = 100 * 0 := by
          have : (n : ℝ) = (100 * 0 : ℤ) := by rw [← hn]; norm_num [V4.get, axisB]
          exact_mod_cast this
        rw [this]; exact whole_mm (.inr rfl) 0 (by norm_num)) ha .cw
  refine ⟨g, evs, h1, h2, ?_, ?_, ((h3 .z).2 (.inl rfl)).2.2.2⟩
  · have := (h3 .x).1 (.inl rfl)
    rw [(fl_hundred _ (.inl rfl)).2] at this
    have e : (netSteps Cfg.default .x evs : ℝ) = (100 : ℤ) := by rw [this]; norm_num [V4.get]
    exact_mod_cast e
  · have := (h3 .y).1 (.inr rfl)
    rw [(fl_hundred _ (.inr rfl)).2] at this
    have e : (netSteps Cfg.default .y evs : ℝ) = (100 : ℤ) := by rw [this]; norm_num [V4.get]
    exact_mod_cast e

/-- `G2 X1 Y1 Z0.5 I1` at the origin, in binary64: 100 pulses on X and Y, 200 on Z. -/
example : ∃ (g : CircGen F64) (evs : List (Event F64)),
    CircGen.new Cfg.default ⟨F64.of 1, F64.of 1, F64.of (1 / 2), F64.of 0⟩
      ⟨F64.of 1, F64.of 0, F64.of 0, F64.of 0⟩ .xy .cw (F64.of 600) = .ok g ∧
    Emits Cfg.default (.circular g) evs ∧ netSteps Cfg.default .x evs = 100 ∧
    netSteps Cfg.default .y evs = 100 ∧ netSteps Cfg.default .z evs = 200 := by
  obtain ⟨g, evs, h1, h2, h3, h4, h5⟩ := climb_net (1 / 2) (by norm_num [abs_of_pos])
    (by norm_num [abs_of_pos])
  refine ⟨g, evs, h1, h2, h3, h4, h5 200 (by simp [V4.get, Cfg.default]; norm_num) ?_⟩
  have hz : (Cfg.default.ppm.get .z : ℝ) = 400 := by simp [V4.get, Cfg.default]
  unfold Fits
  rw [hz]
  have e : ((200 : ℤ) : ℝ) / 400 = 2 ^ (-1 : ℤ) := by norm_num
  rw [e, fl_two_zpow]
  have : (2 : ℝ) ^ (-1 : ℤ) * 400 = (200 : ℤ) := by norm_num
  rw [this, fl_int 200 (by norm_num)]

/-- `G2 X-1 Y1 Z1 I-4 J-3` at (4, 3) meets the hypotheses of `C91_back_partial`: X and Y go round
while Z climbs 400 steps. -/
example : ∃ (g : CircGen F64) (evs : List (Event F64)),
    CircGen.new Cfg.default ⟨F64.of (-1), F64.of 1, F64.of 1, F64.of 0⟩
      ⟨F64.of (-4), F64.of (-3), F64.of 0, F64.of 0⟩ .xy .ccw (F64.of 600) = .ok g ∧
    Emits Cfg.default (.circular g) evs ∧ netSteps Cfg.default .x evs = 0 ∧
    netSteps Cfg.default .y evs = 0 ∧ netSteps Cfg.default .z evs = 400 := by
  have h5 : √(25 : ℝ) = 5 := by
    rw [show (25 : ℝ) = 5 ^ 2 by norm_num]; exact Real.sqrt_sq (by norm_num)
  have hs : startDist .xy ⟨-4, -3, 0, 0⟩ = 5 := by
    simp only [startDist, startA, startB, axisA, axisB, V4.get]; norm_num; exact h5
  have hd : endDist .xy ⟨-1, 1, 1, 0⟩ ⟨-4, -3, 0, 0⟩ = 5 := by
    simp only [endDist, endA, endB, axisA, axisB, V4.get]; norm_num; exact h5
  have hre : reach .xy ⟨-1, 1, 1, 0⟩ ⟨-4, -3, 0, 0⟩ = 66 := by
    unfold reach; rw [hs]; simp [axis3, V4.get]; norm_num
  have ho : OrdinaryArc Cfg.default ⟨-1, 1, 1, 0⟩ ⟨-4, -3, 0, 0⟩ .xy 600 := by
    refine ⟨⟨?_, ?_, ⟨-400, ?_⟩, ⟨-300, ?_⟩, ⟨-100, ?_⟩, ⟨100, ?_⟩, .inl rfl⟩, ?_, ?_, ?_, ?_, ?_, ?_,
      ?_, .inr (.inr ?_), ?_⟩
    any_goals first
      | (rw [hs]; norm_num; done)
      | rw [hs, hd]
      | (simp [axisA, axisB, axis3, V4.get, Cfg.default]; done)
      | (simp only [axisA, axisB, axis3, V4.get, Cfg.default]; norm_num)
  have hb : Balanced .xy ⟨-1, 1, 1, 0⟩ ⟨-4, -3, 0, 0⟩ := by
    refine ⟨fun _ => ?_, fun h => absurd rfl h, .inr ?_⟩
    · rw [hre]; simp [axis3, V4.get]; norm_num
    · rw [hre]
      have : (1 : ℝ) ≤ √((-1) ^ 2 + 1 ^ 2) := by
        apply Real.le_sqrt_of_sq_le; norm_num
      change (66 : ℝ) ≤ 400 * √((-1) ^ 2 + 1 ^ 2)
      linarith
  have hq : BackInQuarter .xy ⟨-1, 1, 1, 0⟩ ⟨-4, -3, 0, 0⟩ := by
    simp only [BackInQuarter, arcQuarter, startA, startB, endA, endB, axisA, axisB, V4.get]
    norm_num
  have hD : startDist .xy ⟨-4, -3, 0, 0⟩ * (Cfg.default.ppm.get (axisA .xy) : ℚ) = (100 * 5 : ℤ) := by
    rw [hs, (fl_hundred (axisA .xy) (.inl rfl)).2]; norm_num
  obtain ⟨g, evs, h1, h2, h3⟩ := C91_back_partial sane_cfg ho rfl default_ppm64
    (by rw [hD]; norm_num) hb (by rw [hD, rnd_int]; exact whole_mm (.inl rfl) 5 (by norm_num))
    (by
      rintro ax hx n hn
      rw [(fl_hundred ax hx).2] at hn
      rcases hx with rfl | rfl
      · have : n = 100 * -4 := by
          have : (n : ℝ) = (100 * -4 : ℤ) := by rw [← hn]; norm_num [V4.get, axisA]
          exact_mod_cast this
        rw [this]; exact whole_mm (.inl rfl) (-4) (by norm_num)
      · have : n = 100 * -3 := by
          have : (n : ℝ) = (100 * -3 : ℤ) := by rw [← hn]; norm_num [V4.get, axisB]
          exact_mod_cast this
        rw [this]; exact whole_mm (.inr rfl) (-3) (by norm_num)) hq .ccw
  refine ⟨g, evs, h1, h2, (h3 .x).1 (.inl rfl), (h3 .y).1 (.inr rfl),
    ((h3 .z).2 (.inl rfl)).2.2.2 400 (by simp [V4.get, Cfg.default]) ?_⟩
  have hz : (Cfg.default.ppm.get .z : ℝ) = 400 := by simp [V4.get, Cfg.default]
  unfold Fits
  rw [hz]
  norm_num
  have := fl_int 400 (by norm_num)
  push_cast at this
  rw [fl_one, one_mul, this]
  norm_num

/-- The helix of `C91_refuted` meets the hypotheses of `C91_near_partial`. -/
example : ∃ (g : CircGen F64) (evs : List (Event F64)),
    CircGen.new Cfg.default ⟨F64.of 1, F64.of 1, F64.of (7 / 400), F64.of 0⟩
      ⟨F64.of 1, F64.of 0, F64.of 0, F64.of 0⟩ .xy .cw (F64.of 600) = .ok g ∧
    Emits Cfg.default (.circular g) evs ∧ |(netSteps Cfg.default .z evs : ℝ) - 7| ≤ 2 := by
  obtain ⟨ho, hs, hb, ha⟩ := climb (7 / 400) (by norm_num [abs_of_pos]) (by norm_num [abs_of_pos])
  have hd : startDist .xy ⟨1, 0, 0, 0⟩ * (Cfg.default.ppm.get (axisA .xy) : ℚ) = (100 * 1 : ℤ) := by
    rw [hs, (fl_hundred (axisA .xy) (.inl rfl)).2]; norm_num
  obtain ⟨g, evs, h1, h2, h3⟩ := C91_near_partial sane_cfg ho rfl default_ppm64
    (by rw [hd]; norm_num) hb
    (by rw [hd, rnd_int]; exact whole_mm (.inl rfl) 1 (by norm_num)) ha .cw
  refine ⟨g, evs, h1, h2, ?_⟩
  have := h3 .z
  have e : (⟨1, 1, 7 / 400, 0⟩ : V4 ℝ).get .z * (Cfg.default.ppm.get .z : ℚ) = 7 := by
    simp [V4.get, Cfg.default]
  rwa [e] at this

theorem seven : fl (fl (7 / 400) * 400) = 7881299347898369 * 2 ^ (-50 : ℤ) := by
  have h1 : fl (7 / 400) = 5044031582654956 * 2 ^ (-58 : ℤ) := by
    have := fl_val (x := 7 / 400) (k := -58) (m := 5044031582654956)
      (by rw [abs_of_pos (by norm_num)]; norm_num) (by rw [abs_of_pos (by norm_num)]; norm_num)
      (by rw [abs_lt]; constructor <;> norm_num)
    rw [this]; norm_num
  have := fl_val (x := fl (7 / 400) * 400) (k := -50) (m := 7881299347898369)
    (by rw [h1, abs_of_pos (by norm_num)]; norm_num)
    (by rw [h1, abs_of_pos (by norm_num)]; norm_num)
    (by rw [h1, abs_lt]; constructor <;> norm_num)
  rw [this]; norm_num

/-- **C91 is false** of numbers of steps that grow: `G2 X1 Y1 Z0.0175 I1` moves Z by 7 steps of 1/400
mm, but `0.0175 * 400` is `7.000000000000001`, and Z is sent 8 pulses. -/
theorem C91_refuted : ∃ (g : CircGen F64) (evs : List (Event F64)),
    OrdinaryArc Cfg.default ⟨1, 1, 7 / 400, 0⟩ ⟨1, 0, 0, 0⟩ .xy 600 ∧
    Balanced .xy ⟨1, 1, 7 / 400, 0⟩ ⟨1, 0, 0, 0⟩ ∧
    ¬ BackInQuarter .xy ⟨1, 1, 7 / 400, 0⟩ ⟨1, 0, 0, 0⟩ ∧
    CircGen.new Cfg.default ⟨F64.of 1, F64.of 1, F64.of (7 / 400), F64.of 0⟩
      ⟨F64.of 1, F64.of 0, F64.of 0, F64.of 0⟩ .xy .cw (F64.of 600) = .ok g ∧
    Emits Cfg.default (.circular g) evs ∧ (7 / 400 : ℝ) * (Cfg.default.ppm.get .z : ℚ) = 7 ∧
    netSteps Cfg.default .z evs = 8 := by
  obtain ⟨ho, hs, hb, ha⟩ := climb (7 / 400) (by norm_num [abs_of_pos]) (by norm_num [abs_of_pos])
  have hd : startDist .xy ⟨1, 0, 0, 0⟩ * (Cfg.default.ppm.get (axisA .xy) : ℚ) = (100 * 1 : ℤ) := by
    rw [hs, (fl_hundred (axisA .xy) (.inl rfl)).2]; norm_num
  have hz : (Cfg.default.ppm.get .z : ℝ) = 400 := by simp [V4.get, Cfg.default]
  obtain ⟨-, g, evs, -, h1, h2, -, hax⟩ := arc64_net sane_cfg ho rfl (default_ppm64 _)
    (by rw [hd]; norm_num) (.inr hb)
    (by rw [hd, rnd_int]; exact whole_mm (.inl rfl) 1 (by norm_num)) .cw
  refine ⟨g, evs, ho, hb, ha, h1, h2, by rw [hz]; norm_num, ?_⟩
  obtain ⟨k1, k2⟩ := (hax .z).2 (.inl rfl)
  rw [k2, k1, default_ppm64, hz]
  change (if (7 / 400 : ℝ) < 0 then -(⌈fl (|fl (7 / 400)| * 400)⌉₊ : ℤ) else
    (⌈fl (|fl (7 / 400)| * 400)⌉₊ : ℤ)) = 8
  rw [if_neg (by norm_num), abs_of_pos (fl_pos (by norm_num)), seven]
  have : ⌈(7881299347898369 * 2 ^ (-50 : ℤ) : ℝ)⌉₊ = 8 := by
    rw [Nat.ceil_eq_iff (by norm_num)]; constructor <;> norm_num
  rw [this]; rfl

end PyCNC.Props
