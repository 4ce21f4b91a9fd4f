import Verif.Lemmas.ArcNet
import Verif.Lemmas.ArcWitness

/-!
# Properties C34, C36, C37: circular moves

Exact arithmetic, for every nearest-integer rounding (`PyRound`), except for
`C37_any_arithmetic`.  `SaneCfg` and `OrdinaryArc` describe configurations and arcs of realistic
size.
-/

set_option linter.unusedSectionVars false

namespace PyCNC.Props

open PyCNC Spec

variable [PyRound]

/-! ## C36 -/

/-- **C36.** Building the generator of an ordinary arc and iterating it to its end raises no
exception.  Missing: arcs whose start and end have different distances from the centre, counted in
steps (`C36_end_refuted`), and arcs in a plane of two axes with different steps whose radius is not
a whole number of steps (`C36_sqrt_refuted`). -/
theorem C36_no_exception_partial {c : Cfg} {delta radius : V4 ℝ} {plane : Plane} {v : ℝ}
    (hc : SaneCfg c) (h : OrdinaryArc c delta radius plane v) (rot : Rot) :
    ∃ g evs, CircGen.new c delta radius plane rot v = .ok g ∧ Emits c (.circular g) evs := by
  obtain ⟨g, hg, hgood, _⟩ := arc_good hc h rot
  obtain ⟨evs, he⟩ := circ_emits hgood
  exact ⟨g, evs, hg, he⟩

/-! ## C34 -/

/-- **C34.** The generator of an ordinary arc sends the two axes of the plane a net number of
pulses that is exactly the distance in steps; the other two axes are sent the distance in steps
rounded up, in the right direction.

Missing: arcs whose end lies before their start in the same quarter of the circle
(`C34_back_in_quarter`, `C34_refuted`), other axes that do not move by whole steps
(`C34_extruder_refuted`), and planes of two axes with different steps unless the radius is a whole
number of steps (`C34_full_circle_refuted`). -/
theorem C34_arc_pulses_partial {c : Cfg} {delta radius : V4 ℝ} {plane : Plane} {v : ℝ}
    (hc : SaneCfg c) (h : OrdinaryArc c delta radius plane v) (rot : Rot)
    (hb : ¬ BackInQuarter plane delta radius) :
    ∃ g evs, CircGen.new c delta radius plane rot v = .ok g ∧ Emits c (.circular g) evs ∧
      (netSteps c (axisA plane) evs : ℝ) = delta.get (axisA plane) * c.ppm.get (axisA plane) ∧
      (netSteps c (axisB plane) evs : ℝ) = delta.get (axisB plane) * c.ppm.get (axisB plane) ∧
      ∀ ax, ax = axis3 plane ∨ ax = .e →
        netSteps c ax evs = (if delta.get ax < 0 then -1 else 1) * ⌈|delta.get ax| * c.ppm.get ax⌉ := by
  obtain ⟨g, evs, hg, he⟩ := C36_no_exception_partial hc h rot
  obtain ⟨h1, h2⟩ := arc_net h.grid hg he
  rw [if_neg hb] at h1 h2
  refine ⟨g, evs, hg, he, h1, h2, fun ax hax => ?_⟩
  obtain ⟨h3, h4⟩ := arc_other hg he ax hax
  have hp : (0 : ℝ) < c.ppm.get ax := by exact_mod_cast hc.ppm_pos ax
  rw [Int.natCast_ceil_eq_ceil (by positivity)] at h3
  rw [h4, h3]
  split <;> simp

/-- **C34.** When the third axis of the plane or the extruder moves by a whole number of steps, it
is sent exactly that number. -/
theorem C34_whole_steps {c : Cfg} {delta radius : V4 ℝ} {plane : Plane} {v : ℝ} {rot : Rot}
    (hc : SaneCfg c) {g : CircGen ℝ} (hg : CircGen.new c delta radius plane rot v = .ok g)
    {evs : List (Event ℝ)} (he : Emits c (.circular g) evs) (ax : Axis)
    (hax : ax = axis3 plane ∨ ax = .e) (hs : OnSteps c delta ax) :
    (netSteps c ax evs : ℝ) = delta.get ax * c.ppm.get ax := by
  obtain ⟨h3, h4⟩ := arc_other hg he ax hax
  have hp : (0 : ℝ) < c.ppm.get ax := by exact_mod_cast hc.ppm_pos ax
  rw [Int.natCast_ceil_eq_ceil (by positivity)] at h3
  obtain ⟨n, hn⟩ := hs
  rw [on_abs hp hn, Int.ceil_intCast] at h3
  rw [h4, h3, hn]
  have hsg := (on_sgn hp hn).1
  split
  · next hx =>
    have : n < 0 := by by_contra h0; exact absurd (hsg.1 (not_lt.1 h0)) (not_le.2 hx)
    rw [abs_of_neg this]; simp
  · next hx =>
    rw [abs_of_nonneg (hsg.2 (not_lt.1 hx))]

/-- **C34.** A full circle returns both axes to the start. -/
theorem C34_full_circle {c : Cfg} {delta radius : V4 ℝ} {plane : Plane} {v : ℝ}
    (hc : SaneCfg c) (h : OrdinaryArc c delta radius plane v) (rot : Rot)
    (hA : delta.get (axisA plane) = 0) (hB : delta.get (axisB plane) = 0) :
    ∃ g evs, CircGen.new c delta radius plane rot v = .ok g ∧ Emits c (.circular g) evs ∧
      netSteps c (axisA plane) evs = 0 ∧ netSteps c (axisB plane) evs = 0 := by
  have hb : ¬ BackInQuarter plane delta radius := by
    rintro ⟨_, hx⟩
    simp only [endA, endB, startA, startB, hA, hB] at hx
    linarith
  obtain ⟨g, evs, hg, he, h1, h2, _⟩ := C34_arc_pulses_partial hc h rot hb
  rw [hA, zero_mul] at h1
  rw [hB, zero_mul] at h2
  exact ⟨g, evs, hg, he, by exact_mod_cast h1, by exact_mod_cast h2⟩

/-- **C34 is false** for every arc whose end lies before its start in the same quarter of the
circle: the generator makes a full circle, whatever the end point. -/
theorem C34_back_in_quarter {c : Cfg} {delta radius : V4 ℝ} {plane : Plane} {v : ℝ}
    (hc : SaneCfg c) (h : OrdinaryArc c delta radius plane v) (rot : Rot)
    (hb : BackInQuarter plane delta radius) :
    ∃ g evs, CircGen.new c delta radius plane rot v = .ok g ∧ Emits c (.circular g) evs ∧
      netSteps c (axisA plane) evs = 0 ∧ netSteps c (axisB plane) evs = 0 := by
  obtain ⟨g, evs, hg, he⟩ := C36_no_exception_partial hc h rot
  obtain ⟨h1, h2⟩ := arc_net h.grid hg he
  rw [if_pos hb] at h1 h2
  exact ⟨g, evs, hg, he, by exact_mod_cast h1, by exact_mod_cast h2⟩

/-- The arc from (4, 3) to (3, 4) around the origin. -/
theorem short_arc : OrdinaryArc Cfg.default ⟨-1, 1, 0, 0⟩ ⟨-4, -3, 0, 0⟩ .xy 600 := by
  have h5 : √(25 : ℝ) = 5 := by
    rw [show (25 : ℝ) = 5 ^ 2 by norm_num]; exact Real.sqrt_sq (by norm_num)
  have hs : startDist .xy ⟨-4, -3, 0, 0⟩ = 5 := by
    simp only [startDist, startA, startB, axisA, axisB, V4.get]; norm_num; exact h5
  have he : endDist .xy ⟨-1, 1, 0, 0⟩ ⟨-4, -3, 0, 0⟩ = 5 := by
    simp only [endDist, endA, endB, axisA, axisB, V4.get]; norm_num; exact h5
  refine ⟨⟨?_, ?_, ⟨-400, ?_⟩, ⟨-300, ?_⟩, ⟨-100, ?_⟩, ⟨100, ?_⟩, .inl rfl⟩, ?_, ?_, ?_, ?_, ?_, ?_, ?_,
    .inl ⟨rfl, rfl⟩, ?_⟩
  any_goals first
    | (rw [hs]; norm_num; done)
    | rw [hs, he]
    | (simp [axisA, axisB, axis3, V4.get, Cfg.default]; done)
    | (simp only [axisA, axisB, V4.get, Cfg.default]; norm_num)

/-- The quarter of a circle from (-10, 0) to (0, 10), with extrusion. -/
theorem quarter_arc (e : ℝ) (he : e = 0 ∨ 1 / 1000 ≤ |e|) (he' : |e| ≤ 1000) :
    OrdinaryArc Cfg.default ⟨10, 10, 0, e⟩ ⟨10, 0, 0, 0⟩ .xy 600 := by
  have h5 : √(100 : ℝ) = 10 := by
    rw [show (100 : ℝ) = 10 ^ 2 by norm_num]; exact Real.sqrt_sq (by norm_num)
  have hs : startDist .xy ⟨10, 0, 0, 0⟩ = 10 := by
    simp only [startDist, startA, startB, axisA, axisB, V4.get]; norm_num; exact h5
  have hd : endDist .xy ⟨10, 10, 0, e⟩ ⟨10, 0, 0, 0⟩ = 10 := by
    simp only [endDist, endA, endB, axisA, axisB, V4.get]; norm_num; exact h5
  refine ⟨⟨?_, ?_, ⟨1000, ?_⟩, ⟨0, ?_⟩, ⟨1000, ?_⟩, ⟨1000, ?_⟩, .inl rfl⟩, ?_, ?_, ?_, ?_, he', ?_,
    fun h => he.resolve_left h, .inr (.inr ?_), ?_⟩
  any_goals first
    | (rw [hs]; norm_num; done)
    | rw [hs, hd]
    | (simp [axisA, axisB, axis3, V4.get, Cfg.default]; done)
    | (simp only [axisA, axisB, V4.get, Cfg.default]; norm_num)

theorem quarter_arc_ahead (e : ℝ) : ¬ BackInQuarter .xy ⟨10, 10, 0, e⟩ ⟨10, 0, 0, 0⟩ := by
  simp only [BackInQuarter, arcQuarter, startA, startB, endA, endB, axisA, axisB, V4.get]
  norm_num

/-- A full circle of radius 10 mm. -/
theorem round_arc : OrdinaryArc Cfg.default ⟨0, 0, 0, 0⟩ ⟨10, 0, 0, 0⟩ .xy 600 := by
  have h5 : √(100 : ℝ) = 10 := by
    rw [show (100 : ℝ) = 10 ^ 2 by norm_num]; exact Real.sqrt_sq (by norm_num)
  have hs : startDist .xy ⟨10, 0, 0, 0⟩ = 10 := by
    simp only [startDist, startA, startB, axisA, axisB, V4.get]; norm_num; exact h5
  have hd : endDist .xy ⟨0, 0, 0, 0⟩ ⟨10, 0, 0, 0⟩ = 10 := by
    simp only [endDist, endA, endB, axisA, axisB, V4.get]; norm_num; exact h5
  refine ⟨⟨?_, ?_, ⟨1000, ?_⟩, ⟨0, ?_⟩, ⟨0, ?_⟩, ⟨0, ?_⟩, .inl rfl⟩, ?_, ?_, ?_, ?_, ?_, ?_,
    ?_, .inl ⟨rfl, rfl⟩, ?_⟩
  any_goals first
    | (rw [hs]; norm_num; done)
    | rw [hs, hd]
    | (simp [axisA, axisB, axis3, V4.get, Cfg.default]; done)
    | (simp only [axisA, axisB, V4.get, Cfg.default]; norm_num)

/-- A quarter of a circle in the plane of Y and Z, whose axes have different steps. -/
theorem yz_arc : OrdinaryArc Cfg.default ⟨0, 10, 10, 0⟩ ⟨0, 10, 0, 0⟩ .yz 600 := by
  have h5 : √(100 : ℝ) = 10 := by
    rw [show (100 : ℝ) = 10 ^ 2 by norm_num]; exact Real.sqrt_sq (by norm_num)
  have hs : startDist .yz ⟨0, 10, 0, 0⟩ = 10 := by
    simp only [startDist, startA, startB, axisA, axisB, V4.get]; norm_num; exact h5
  have hd : endDist .yz ⟨0, 10, 10, 0⟩ ⟨0, 10, 0, 0⟩ = 10 := by
    simp only [endDist, endA, endB, axisA, axisB, V4.get]; norm_num; exact h5
  refine ⟨⟨?_, ?_, ⟨1000, ?_⟩, ⟨0, ?_⟩, ⟨1000, ?_⟩, ⟨4000, ?_⟩, .inr ⟨⟨1000, ?_⟩, ⟨4000, ?_⟩, ?_⟩⟩,
    ?_, ?_, ?_, ?_, ?_, ?_, ?_, .inl ⟨rfl, rfl⟩, ?_⟩
  any_goals first
    | rw [hs, hd]
    | (rw [hs]; simp only [axisA, axisB, V4.get, Cfg.default]; norm_num; done)
    | (rw [hs]; norm_num; done)
    | (simp [axisA, axisB, axis3, V4.get, Cfg.default]; done)
    | (simp only [axisA, axisB, V4.get, Cfg.default]; norm_num)

/-- `G2 X10 Y10 I10` at the origin: 1000 pulses on either axis. -/
example : ∃ (g : CircGen ℝ) (evs : List (Event ℝ)),
    CircGen.new Cfg.default ⟨10, 10, 0, 0⟩ ⟨10, 0, 0, 0⟩ .xy .cw 600 = .ok g ∧
    Emits Cfg.default (.circular g) evs ∧ netSteps Cfg.default .x evs = 1000 ∧
    netSteps Cfg.default .y evs = 1000 := by
  obtain ⟨g, evs, h1, h2, h3, h4, _⟩ := C34_arc_pulses_partial sane_cfg
    (quarter_arc 0 (.inl rfl) (by simp)) .cw (quarter_arc_ahead 0)
  simp only [axisA, axisB, V4.get] at h3 h4
  refine ⟨g, evs, h1, h2, ?_, ?_⟩
  · have : (netSteps Cfg.default .x evs : ℝ) = (1000 : ℤ) := by rw [h3]; norm_num [Cfg.default]
    exact_mod_cast this
  · have : (netSteps Cfg.default .y evs : ℝ) = (1000 : ℤ) := by rw [h4]; norm_num [Cfg.default]
    exact_mod_cast this

/-- In the plane of Y and Z: 1000 pulses on Y and 4000 on Z. -/
example : ∃ (g : CircGen ℝ) (evs : List (Event ℝ)),
    CircGen.new Cfg.default ⟨0, 10, 10, 0⟩ ⟨0, 10, 0, 0⟩ .yz .ccw 600 = .ok g ∧
    Emits Cfg.default (.circular g) evs ∧ netSteps Cfg.default .y evs = 1000 ∧
    netSteps Cfg.default .z evs = 4000 := by
  have hb : ¬ BackInQuarter .yz ⟨0, 10, 10, 0⟩ ⟨0, 10, 0, 0⟩ := by
    simp only [BackInQuarter, arcQuarter, startA, startB, endA, endB, axisA, axisB, V4.get]
    norm_num
  obtain ⟨g, evs, h1, h2, h3, h4, _⟩ := C34_arc_pulses_partial sane_cfg yz_arc .ccw hb
  simp only [axisA, axisB, V4.get] at h3 h4
  refine ⟨g, evs, h1, h2, ?_, ?_⟩
  · have : (netSteps Cfg.default .y evs : ℝ) = (1000 : ℤ) := by rw [h3]; norm_num [Cfg.default]
    exact_mod_cast this
  · have : (netSteps Cfg.default .z evs : ℝ) = (4000 : ℤ) := by rw [h4]; norm_num [Cfg.default]
    exact_mod_cast this

/-- A full circle. -/
example : ∃ (g : CircGen ℝ) (evs : List (Event ℝ)),
    CircGen.new Cfg.default ⟨0, 0, 0, 0⟩ ⟨10, 0, 0, 0⟩ .xy .cw 600 = .ok g ∧
    Emits Cfg.default (.circular g) evs ∧ netSteps Cfg.default .x evs = 0 ∧
    netSteps Cfg.default .y evs = 0 := C34_full_circle sane_cfg round_arc .cw rfl rfl

/-- **C34 is false**: `G3 X103 Y104 I-4 J-3` at (104, 103), an arc of 16 degrees, makes a full
circle and leaves the head where it was. -/
theorem C34_refuted : ∃ (delta radius : V4 ℝ) (g : CircGen ℝ) (evs : List (Event ℝ)),
    delta = ⟨-1, 1, 0, 0⟩ ∧ radius = ⟨-4, -3, 0, 0⟩ ∧
    CircGen.new Cfg.default delta radius .xy .ccw 600 = .ok g ∧ Emits Cfg.default (.circular g) evs ∧
    netSteps Cfg.default .x evs = 0 ∧ netSteps Cfg.default .y evs = 0 := by
  have hb : BackInQuarter .xy ⟨-1, 1, 0, 0⟩ ⟨-4, -3, 0, 0⟩ := by
    simp only [BackInQuarter, arcQuarter, startA, startB, endA, endB, axisA, axisB, V4.get]
    norm_num
  obtain ⟨g, evs, h1, h2, h3, h4⟩ := C34_back_in_quarter (sane_cfg) short_arc .ccw hb
  exact ⟨_, _, g, evs, rfl, rfl, h1, h2, h3, h4⟩

/-- **C34 is false** for the extruder: `round` makes one step of 1/150 mm 0.0066666667 mm, a
little more than one step, and the generator rounds up: two pulses instead of one. -/
theorem C34_extruder_refuted : ∃ (g : CircGen ℝ) (evs : List (Event ℝ)),
    CircGen.new Cfg.default ⟨10, 10, 0, PyNum.round10 (1 / 150)⟩ ⟨10, 0, 0, 0⟩ .xy .cw 600 = .ok g ∧
    Emits Cfg.default (.circular g) evs ∧ netSteps Cfg.default .e evs = 2 := by
  have hr : (PyNum.round10 (1 / 150) : ℝ) = 66666667 / 10 ^ 10 := by
    rw [round10_eq, rnd_unique (n := 66666667) (by unfold E10; rw [abs_lt]; norm_num)]
    unfold E10; norm_num
  rw [hr]
  obtain ⟨g, evs, h1, h2, _, _, h5⟩ := C34_arc_pulses_partial sane_cfg
    (quarter_arc (66666667 / 10 ^ 10) (.inr (by rw [abs_of_pos] <;> norm_num))
      (by rw [abs_of_pos] <;> norm_num)) .cw (quarter_arc_ahead _)
  refine ⟨g, evs, h1, h2, ?_⟩
  have hneg : ¬ (⟨10, 10, 0, 66666667 / 10 ^ 10⟩ : V4 ℝ).get .e < 0 := by
    simp only [V4.get]; norm_num
  rw [h5 .e (.inr rfl), if_neg hneg, one_mul, Int.ceil_eq_iff]
  simp only [V4.get]
  rw [show Cfg.default.ppm.e = 150 from rfl, abs_of_pos (by norm_num)]
  norm_num

/-- **C34 is false** for full circles in a plane of two axes with different steps: a circle around
a point 1.0025 mm above the start (401 steps of Z, 100.25 of Y) ends two steps above its start. -/
theorem C34_full_circle_refuted : ∃ (g : CircGen ℝ) (evs : List (Event ℝ)),
    CircGen.new Cfg.default ⟨0, 0, 0, 0⟩ ⟨0, 0, 401 / 400, 0⟩ .yz .cw 600 = .ok g ∧
    Emits Cfg.default (.circular g) evs ∧ netSteps Cfg.default .z evs = 2 := yz_ends_wrong

/-! ## C37 -/

/-- **C37.** The generator of an arc on steps moves either axis of its plane to and fro between
`-radius` and `radius`, one step per pulse, first in the direction that belongs to the sense of
rotation: after each prefix of the iteration the position is the point of that walk that belongs to
the number of pulses sent.

Missing: planes of two axes with different steps unless the radius is a whole number of steps
(`C37_refuted`). -/
theorem C37_to_and_fro_partial {c : Cfg} {delta radius : V4 ℝ} {plane : Plane} {v : ℝ} {rot : Rot}
    (h : GridArc c delta radius plane) {g : CircGen ℝ}
    (hg : CircGen.new c delta radius plane rot v = .ok g) :
    ∃ RA RB A B da db : ℤ,
      PyRound.rnd (startDist plane radius * c.ppm.get (axisA plane)) = RA ∧
      PyRound.rnd (startDist plane radius * c.ppm.get (axisB plane)) = RB ∧
      startA plane radius * c.ppm.get (axisA plane) = A ∧
      startB plane radius * c.ppm.get (axisB plane) = B ∧
      TurnsAs rot (startA plane radius) (startB plane radius) da db ∧
      (da = 1 ∨ da = -1) ∧ (db = 1 ∨ db = -1) ∧
      ∀ n, ∀ evs, ((Gen.circular g).run c n .init).1 = evs →
        A + netSteps c (axisA plane) evs = (walk RA A da (steps (axisA plane) evs)).1 ∧
        B + netSteps c (axisB plane) evs = (walk RB B db (steps (axisB plane) evs)).1 ∧
        |A + netSteps c (axisA plane) evs| ≤ RA ∧ |B + netSteps c (axisB plane) evs| ≤ RB := by
  obtain ⟨hpl, R, RB, A, B, EA, EB, hi, r1, r2, r3, r4, p1, p2, q1, q2, ht, oA, oB, i1, i2, -, -⟩ :=
    arc_gen h hg
  refine ⟨R, RB, A, B, g.dirA, g.dirB, q1, q2, hi.hA, hi.hB, ht, oA, oB, ?_⟩
  rintro n evs rfl
  obtain ⟨a1, -, -⟩ := circ_run_a c g n (by rw [r1, r3]; exact hi.rA.1) (by rw [r1, r3]; exact hi.rA.2)
    oA (by rw [r1]; exact i1)
  obtain ⟨b1, -, -⟩ := circ_run_b c g n (by rw [r2, r4]; exact hi.rB.1) (by rw [r2, r4]; exact hi.rB.2)
    oB (by rw [r2]; exact i2)
  rw [hpl, r1, r3] at a1
  rw [hpl, r2, r4] at b1
  have a2 := walk_range hi.rA.1 hi.rA.2 p1 oA (steps (axisA plane) ((Gen.circular g).run c n .init).1)
  have b2 := walk_range hi.rB.1 hi.rB.2 p2 oB (steps (axisB plane) ((Gen.circular g).run c n .init).1)
  rw [a1, b1, add_sub_cancel, add_sub_cancel]
  exact ⟨rfl, rfl, abs_le.2 a2, abs_le.2 b2⟩

/-- **C37**, in any arithmetic: if the start lies between `-radius` and `radius` in the generator's
own numbers and it has at most four times the radius to go, the axis moves to and fro. -/
theorem C37_any_arithmetic {F : Type} [PyNum F] (c : Cfg) (g : CircGen F)
    (hA : |g.startAP| ≤ g.radiusAP) (hd : g.dirA = 1 ∨ g.dirA = -1) (hit : g.itA ≤ 4 * g.radiusAP)
    (n : Nat) :
    g.startAP + netSteps c (axisA g.plane) ((Gen.circular g).run c n .init).1 =
      (walk g.radiusAP g.startAP g.dirA
        (steps (axisA g.plane) ((Gen.circular g).run c n .init).1)).1 := by
  obtain ⟨a1, -, -⟩ := circ_run_a c g n (abs_le.1 hA).1 (abs_le.1 hA).2 hd hit
  rw [a1, add_sub_cancel]

/-- The steps of a circle of radius 3 from its lowest point: up to the top and down again. -/
example : (List.range 13).map (fun i => (walk 3 (-3) 1 i).1) =
    [-3, -2, -1, 0, 1, 2, 3, 2, 1, 0, -1, -2, -3] := by decide

/-- The hypotheses of `C37_to_and_fro_partial` hold for `G2 X10 Y10 I10`. -/
example : ∃ g : CircGen ℝ, GridArc Cfg.default ⟨10, 10, 0, 0⟩ ⟨10, 0, 0, 0⟩ .xy ∧
    CircGen.new Cfg.default ⟨10, 10, 0, 0⟩ ⟨10, 0, 0, 0⟩ .xy .cw 600 = .ok g := by
  have h := quarter_arc 0 (.inl rfl) (by simp)
  obtain ⟨g, hg, _⟩ := arc_good sane_cfg h .cw
  exact ⟨g, h.grid, hg⟩

/-- **C37 is false** in the plane of Y and Z: the circle around a point 1.0025 mm above the start
is made with a radius of 400 steps of Z, while the start lies 401 steps below the centre; after the
last of the 1600 pulses the axis is two steps above its start. -/
theorem C37_refuted : ∃ (g : CircGen ℝ) (evs : List (Event ℝ)),
    CircGen.new Cfg.default ⟨0, 0, 0, 0⟩ ⟨0, 0, 401 / 400, 0⟩ .yz .cw 600 = .ok g ∧
    Emits Cfg.default (.circular g) evs ∧
    startB .yz ⟨0, 0, 401 / 400, 0⟩ * Cfg.default.ppm.z = (-401 : ℤ) ∧
    -401 + netSteps Cfg.default .z evs = -399 ∧ (walk 401 (-401) 1 1604).1 = -401 := by
  obtain ⟨g, evs, h1, h2, h3⟩ := yz_ends_wrong
  refine ⟨g, evs, h1, h2, ?_, by rw [h3]; norm_num, ?_⟩
  · simp only [startB, axisB, V4.get, Cfg.default]; norm_num
  · exact walk_full (R := 401) (s := -401) (d := 1) (by norm_num) (by norm_num) (.inl rfl)

/-! ## C36 is false -/

/-- **C36 is false** in the plane of Y and Z: a full circle around a point 1.0075 mm above the
start passes all checks; iterating its generator raises an exception (`math.sqrt` of a negative
number: the radius is 403 steps of Z, the walk goes to 404). -/
theorem C36_sqrt_refuted : ∃ g : CircGen ℝ,
    CircGen.new Cfg.default ⟨0, 0, 0, 0⟩ ⟨0, 0, 403 / 400, 0⟩ .yz .cw 600 = .ok g ∧
    ∃ n evs e, (Gen.circular g).run Cfg.default n .init = (evs, .raised e) := yz_raises

end PyCNC.Props
