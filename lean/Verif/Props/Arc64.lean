import Verif.Lemmas.Drift64
import Verif.Props.Arc

/-!
# Property C90: circular moves in binary64

The arcs of C34 and C36 (`OrdinaryArc`), computed with binary64 numbers: `acos` and `sqrt` are
correctly rounded, `math.pi` is the nearest binary64 number.  The vectors of the arc are the binary64
numbers nearest to positions on steps (`V4.map F64.of`), the axes of the plane have the same step, the
radius is at most 10^4 steps, and the other two axes do not move.
-/

set_option linter.unusedSectionVars false

namespace PyCNC.Props

open PyCNC Spec

variable [PyRound] {c : Cfg} {delta radius : V4 ℝ} {plane : Plane} {v : ℝ}

/-- An axis that is not asked to move is sent no pulse. -/
theorem no_steps {x p : ℝ} {n : ℕ} (h : (n : ℤ) = ⌈fl (|fl x| * p)⌉₊) (hx : x = 0) : n = 0 := by
  rw [hx, fl_zero, abs_zero, zero_mul, fl_zero, Nat.ceil_zero] at h
  exact_mod_cast h

/-- **C90.** In binary64, too, the generator of an arc that does not end before its start in the same
quarter of the circle is built and iterated to its end without exception, and moves every axis
exactly by the distance to the end of the arc.

Missing: numbers of steps that are lost on conversion to mm and back (`C90_refuted` for the start,
`C36_binary64_refuted` and `C58_refuted` for the radius), planes of axes with different steps, helices
and extrusion. -/
theorem C90_arc_partial (hc : SaneCfg c) (h : OrdinaryArc c delta radius plane v)
    (hpq : c.ppm.get (axisA plane) = c.ppm.get (axisB plane))
    (hfp : fl (c.ppm.get (axisA plane)) = c.ppm.get (axisA plane))
    (hsz : startDist plane radius * c.ppm.get (axisA plane) ≤ 10000)
    (hflat : delta.get (axis3 plane) = 0 ∧ delta.e = 0)
    (hR : Survives (c.ppm.get (axisA plane))
      (PyRound.rnd (startDist plane radius * c.ppm.get (axisA plane))))
    (hS : ∀ ax, ax = axisA plane ∨ ax = axisB plane →
      ∀ n : ℤ, radius.get ax * c.ppm.get ax = n → Survives (c.ppm.get ax) n)
    (hb : ¬ BackInQuarter plane delta radius) (rot : Rot) :
    ∃ g evs, CircGen.new c (delta.map F64.of) (radius.map F64.of) plane rot (F64.of v) = .ok g ∧
      Emits c (.circular g) evs ∧ ∀ ax, (netSteps c ax evs : ℝ) = delta.get ax * c.ppm.get ax := by
  obtain ⟨-, g', evs, -, hnew', he, -, hax⟩ := arc64_net hc h hpq hfp hsz (.inl hflat) hR rot
  refine ⟨g', evs, hnew', he, fun ax => ?_⟩
  have cover : (ax = axisA plane ∨ ax = axisB plane) ∨ ax = axis3 plane ∨ ax = .e := by
    cases plane <;> cases ax <;> simp [axisA, axisB, axis3]
  rcases cover with hx | hx
  · have := ((hax ax).1 hx).2 (hS ax hx)
    rwa [if_neg hb] at this
  · have h0 : delta.get ax = 0 := by rcases hx with rfl | rfl; exacts [hflat.1, hflat.2]
    rw [net_of_steps_zero (no_steps ((hax ax).2 hx).1 h0), h0]
    simp

/-- **C90**, the arcs that end before their start in the same quarter: a full circle, as in exact
arithmetic (`C34_back_in_quarter`). -/
theorem C90_back_partial (hc : SaneCfg c) (h : OrdinaryArc c delta radius plane v)
    (hpq : c.ppm.get (axisA plane) = c.ppm.get (axisB plane))
    (hfp : fl (c.ppm.get (axisA plane)) = c.ppm.get (axisA plane))
    (hsz : startDist plane radius * c.ppm.get (axisA plane) ≤ 10000)
    (hflat : delta.get (axis3 plane) = 0 ∧ delta.e = 0)
    (hR : Survives (c.ppm.get (axisA plane))
      (PyRound.rnd (startDist plane radius * c.ppm.get (axisA plane))))
    (hS : ∀ ax, ax = axisA plane ∨ ax = axisB plane →
      ∀ n : ℤ, radius.get ax * c.ppm.get ax = n → Survives (c.ppm.get ax) n)
    (hb : BackInQuarter plane delta radius) (rot : Rot) :
    ∃ g evs, CircGen.new c (delta.map F64.of) (radius.map F64.of) plane rot (F64.of v) = .ok g ∧
      Emits c (.circular g) evs ∧ ∀ ax, netSteps c ax evs = 0 := by
  obtain ⟨-, g', evs, -, hnew', he, -, hax⟩ := arc64_net hc h hpq hfp hsz (.inl hflat) hR rot
  refine ⟨g', evs, hnew', he, fun ax => ?_⟩
  have cover : (ax = axisA plane ∨ ax = axisB plane) ∨ ax = axis3 plane ∨ ax = .e := by
    cases plane <;> cases ax <;> simp [axisA, axisB, axis3]
  rcases cover with hx | hx
  · have := ((hax ax).1 hx).2 (hS ax hx)
    rw [if_pos hb] at this
    exact_mod_cast this
  · have h0 : delta.get ax = 0 := by rcases hx with rfl | rfl; exacts [hflat.1, hflat.2]
    exact net_of_steps_zero (no_steps ((hax ax).2 hx).1 h0)

/-- **C90**, when only the radius survives: no exception, the number of pulses of every axis is that
of exact arithmetic, and no axis ends more than two steps away from the end of the arc. -/
theorem C90_near_partial (hc : SaneCfg c) (h : OrdinaryArc c delta radius plane v)
    (hpq : c.ppm.get (axisA plane) = c.ppm.get (axisB plane))
    (hfp : fl (c.ppm.get (axisA plane)) = c.ppm.get (axisA plane))
    (hsz : startDist plane radius * c.ppm.get (axisA plane) ≤ 10000)
    (hflat : delta.get (axis3 plane) = 0 ∧ delta.e = 0)
    (hR : Survives (c.ppm.get (axisA plane))
      (PyRound.rnd (startDist plane radius * c.ppm.get (axisA plane))))
    (hb : ¬ BackInQuarter plane delta radius) (rot : Rot) :
    ∃ g g' evs evs', CircGen.new c delta radius plane rot v = .ok g ∧ Emits c (.circular g) evs ∧
      CircGen.new c (delta.map F64.of) (radius.map F64.of) plane rot (F64.of v) = .ok g' ∧
      Emits c (.circular g') evs' ∧
      ∀ ax, steps ax evs' = steps ax evs ∧
        |(netSteps c ax evs' : ℝ) - delta.get ax * c.ppm.get ax| ≤ 2 := by
  obtain ⟨g, g', evs', hnew, hnew', he', hsame, hax⟩ := arc64_net hc h hpq hfp hsz (.inl hflat) hR rot
  obtain ⟨g2, evs, hnew2, he⟩ := C36_no_exception_partial hc h rot
  obtain rfl : g = g2 := by rw [hnew] at hnew2; exact Except.ok.inj hnew2
  refine ⟨g, g', evs, evs', hnew, he, hnew', he', fun ax => ?_⟩
  have cover : (ax = axisA plane ∨ ax = axisB plane) ∨ ax = axis3 plane ∨ ax = .e := by
    cases plane <;> cases ax <;> simp [axisA, axisB, axis3]
  rcases cover with hx | hx
  · refine ⟨hsame evs he ax hx, ?_⟩
    have := ((hax ax).1 hx).1
    rwa [if_neg hb] at this
  · have h0 : delta.get ax = 0 := by rcases hx with rfl | rfl; exacts [hflat.1, hflat.2]
    have n0 := no_steps ((hax ax).2 hx).1 h0
    have e0 := (arc_other hnew he ax hx).1
    rw [h0] at e0
    rw [net_of_steps_zero n0, h0, n0]
    simp at e0 ⊢
    exact e0.symm

/-- **C90**: a number of steps whose position is a binary64 number survives. -/
theorem C90_survives {p : ℚ} {n : ℤ} (hp : 0 < (p : ℝ)) (hn : |n| ≤ 2 ^ 53)
    (h : fl (n / p) = n / p) : Survives p n := by
  unfold Survives
  rw [h, div_mul_cancel₀ _ hp.ne', fl_int n hn]

/-- **C90 is false** of positions that do not survive: clockwise from (0.57, 0.76) to (0.76, -0.57)
around the origin, X starts at step 56 instead of 57, since `0.57 * 100` is `56.99999999999999`; it
still turns at step 95 after 39 instead of 38 pulses, and the arc ends two steps beside its end. -/
theorem C90_refuted : ∃ (g : CircGen F64) (evs : List (Event F64)),
    OrdinaryArc Cfg.default ⟨19 / 100, -(133 / 100), 0, 0⟩ ⟨-(57 / 100), -(76 / 100), 0, 0⟩ .xy 600 ∧
    ¬ BackInQuarter .xy ⟨19 / 100, -(133 / 100), 0, 0⟩ ⟨-(57 / 100), -(76 / 100), 0, 0⟩ ∧
    CircGen.new Cfg.default ⟨F64.of (19 / 100), F64.of (-(133 / 100)), F64.of 0, F64.of 0⟩
      ⟨F64.of (-(57 / 100)), F64.of (-(76 / 100)), F64.of 0, F64.of 0⟩ .xy .cw (F64.of 600) = .ok g ∧
    g.startAP = 56 ∧ Emits Cfg.default (.circular g) evs ∧
    netSteps Cfg.default .x evs = 21 ∧ netSteps Cfg.default .y evs = -133 := by
  obtain ⟨g, evs, h⟩ := Drift.off
  exact ⟨g, evs, Drift.ordinary, Drift.ahead, h⟩

/-! ## Arcs that meet the hypotheses -/

theorem fl_hundred (ax : Axis) (h : ax = .x ∨ ax = .y) :
    fl (Cfg.default.ppm.get ax) = Cfg.default.ppm.get ax ∧ (Cfg.default.ppm.get ax : ℝ) = 100 := by
  have : (Cfg.default.ppm.get ax : ℝ) = (100 : ℤ) := by
    rcases h with rfl | rfl <;> simp [V4.get, Cfg.default]
  rw [this]
  exact ⟨fl_int 100 (by norm_num), by norm_num⟩

/-- Whole millimetres survive. -/
theorem whole_mm {ax : Axis} (h : ax = .x ∨ ax = .y) (m : ℤ) (hm : |m| ≤ 1000) :
    Survives (Cfg.default.ppm.get ax) (100 * m) := by
  obtain ⟨-, h2⟩ := fl_hundred ax h
  have hm' : -1000 ≤ m ∧ m ≤ 1000 := abs_le.1 hm
  apply C90_survives (by rw [h2]; norm_num) (by rw [abs_le]; constructor <;> omega)
  rw [h2]
  have e : ((100 * m : ℤ) : ℝ) / 100 = m := by push_cast; field_simp
  rw [e]
  exact fl_int m (by rw [abs_le]; constructor <;> omega)

/-- `G2 X10 Y10 I10` at the origin, in binary64: 1000 pulses on either axis. -/
example : ∃ (g : CircGen F64) (evs : List (Event F64)),
    CircGen.new Cfg.default ⟨F64.of 10, F64.of 10, F64.of 0, F64.of 0⟩
      ⟨F64.of 10, F64.of 0, F64.of 0, F64.of 0⟩ .xy .cw (F64.of 600) = .ok g ∧
    Emits Cfg.default (.circular g) evs ∧ netSteps Cfg.default .x evs = 1000 ∧
    netSteps Cfg.default .y evs = 1000 := by
  have hd : startDist .xy ⟨10, 0, 0, 0⟩ * (Cfg.default.ppm.get (axisA .xy) : ℚ) = (100 * 10 : ℤ) := by
    have h5 : √(100 : ℝ) = 10 := by
      rw [show (100 : ℝ) = 10 ^ 2 by norm_num]; exact Real.sqrt_sq (by norm_num)
    rw [(fl_hundred (axisA .xy) (.inl rfl)).2]
    simp only [startDist, startA, startB, axisA, axisB, V4.get]
    norm_num [h5]
  obtain ⟨g, evs, h1, h2, h3⟩ := C90_arc_partial sane_cfg (quarter_arc 0 (.inl rfl) (by simp)) rfl
    (fl_hundred _ (.inl rfl)).1 (by rw [hd]; norm_num) ⟨rfl, rfl⟩
    (by rw [hd, rnd_int]; exact whole_mm (.inl rfl) 10 (by norm_num))
    (by
      rintro ax hx n hn
      rw [(fl_hundred ax hx).2] at hn
      rcases hx with rfl | rfl
      · have : n = 100 * 10 := by
          have : (n : ℝ) = (100 * 10 : ℤ) := by rw [← hn]; norm_num [V4.get, axisA]
          exact_mod_cast this
        rw [this]; exact whole_mm (.inl rfl) 10 (by norm_num)
      · have : n = 100 * 0 := by
          have : (n : ℝ) = (100 * 0 : ℤ) := by rw [← hn]; norm_num [V4.get, axisB]
          exact_mod_cast this
        rw [this]; exact whole_mm (.inr rfl) 0 (by norm_num)) (quarter_arc_ahead 0) .cw
  refine ⟨g, evs, h1, h2, ?_, ?_⟩
  · have := h3 .x
    rw [(fl_hundred _ (.inl rfl)).2] at this
    have e : (netSteps Cfg.default .x evs : ℝ) = (1000 : ℤ) := by rw [this]; norm_num [V4.get]
    exact_mod_cast e
  · have := h3 .y
    rw [(fl_hundred _ (.inr rfl)).2] at this
    have e : (netSteps Cfg.default .y evs : ℝ) = (1000 : ℤ) := by rw [this]; norm_num [V4.get]
    exact_mod_cast e

/-- From (4, 3) to (3, 4), in binary64: no axis ends anywhere else than at its start. -/
example : ∃ (g : CircGen F64) (evs : List (Event F64)),
    CircGen.new Cfg.default ⟨F64.of (-1), F64.of 1, F64.of 0, F64.of 0⟩
      ⟨F64.of (-4), F64.of (-3), F64.of 0, F64.of 0⟩ .xy .ccw (F64.of 600) = .ok g ∧
    Emits Cfg.default (.circular g) evs ∧ ∀ ax, netSteps Cfg.default ax evs = 0 := by
  have h5 : √(25 : ℝ) = 5 := by
    rw [show (25 : ℝ) = 5 ^ 2 by norm_num]; exact Real.sqrt_sq (by norm_num)
  have hd : startDist .xy ⟨-4, -3, 0, 0⟩ * (Cfg.default.ppm.get (axisA .xy) : ℚ) = (100 * 5 : ℤ) := by
    have hs : startDist .xy ⟨-4, -3, 0, 0⟩ = 5 := by
      simp only [startDist, startA, startB, axisA, axisB, V4.get]; norm_num; exact h5
    rw [hs, (fl_hundred (axisA .xy) (.inl rfl)).2]; norm_num
  have hq : BackInQuarter .xy ⟨-1, 1, 0, 0⟩ ⟨-4, -3, 0, 0⟩ := by
    simp only [BackInQuarter, arcQuarter, startA, startB, endA, endB, axisA, axisB, V4.get]
    norm_num
  exact C90_back_partial sane_cfg short_arc rfl (fl_hundred _ (.inl rfl)).1 (by rw [hd]; norm_num)
    ⟨rfl, rfl⟩ (by rw [hd, rnd_int]; exact whole_mm (.inl rfl) 5 (by norm_num))
    (by
      rintro ax hx n hn
      rw [(fl_hundred ax hx).2] at hn
      rcases hx with rfl | rfl
      · have : n = 100 * -4 := by
          have : (n : ℝ) = (100 * -4 : ℤ) := by rw [← hn]; norm_num [V4.get, axisA]
          exact_mod_cast this
        rw [this]; exact whole_mm (.inl rfl) (-4) (by norm_num)
      · have : n = 100 * -3 := by
          have : (n : ℝ) = (100 * -3 : ℤ) := by rw [← hn]; norm_num [V4.get, axisB]
          exact_mod_cast this
        rw [this]; exact whole_mm (.inr rfl) (-3) (by norm_num)) hq .ccw

/-- The arc of `C90_refuted` meets the hypotheses of `C90_near_partial`. -/
example : ∃ (g' : CircGen F64) (evs' : List (Event F64)),
    CircGen.new Cfg.default ⟨F64.of (19 / 100), F64.of (-(133 / 100)), F64.of 0, F64.of 0⟩
      ⟨F64.of (-(57 / 100)), F64.of (-(76 / 100)), F64.of 0, F64.of 0⟩ .xy .cw (F64.of 600) = .ok g' ∧
    Emits Cfg.default (.circular g') evs' ∧ |(netSteps Cfg.default .x evs' : ℝ) - 19| ≤ 2 := by
  have hd : startDist .xy ⟨-(57 / 100), -(76 / 100), 0, 0⟩ * (Cfg.default.ppm.get (axisA .xy) : ℚ) =
      (95 : ℤ) := by
    rw [Drift.dist, (fl_hundred (axisA .xy) (.inl rfl)).2]; norm_num
  obtain ⟨g, g', evs, evs', -, -, h1, h2, h3⟩ := C90_near_partial sane_cfg Drift.ordinary rfl
    (fl_hundred _ (.inl rfl)).1 (by rw [hd]; norm_num) ⟨rfl, rfl⟩
    (by rw [hd, rnd_int]; exact Drift.survives) Drift.ahead .cw
  refine ⟨g', evs', h1, h2, ?_⟩
  have := (h3 .x).2
  rw [(fl_hundred _ (.inl rfl)).2] at this
  convert this using 3
  norm_num [V4.get]

end PyCNC.Props
