import Verif.Lemmas.Helix
import Verif.Lemmas.ArcTime
import Verif.Props.ArcPath

/-!
# Property C84: on an arc all axes move in proportion

Exact arithmetic, for every nearest-integer rounding (`PyRound`).
-/

set_option linter.unusedSectionVars false

namespace PyCNC.Props

open PyCNC Spec Real

variable [PyRound]

/-- **C84.** While an ordinary arc is executed there is after each number of events a part of the way,
which begins with 0, never decreases and ends with 1, such that all four motors are at this part of
their ways: those of the plane within 2.2 steps of the start turned by this part of the whole angle, the
third axis and the extruder within 1.1 steps of this part of their distances.

Missing: arcs whose end lies before their start in the same quarter of the circle (`C84_refuted`), planes
of two axes with different steps unless the radius is a whole number of steps (`C37_refuted`). -/
theorem C84_proportion_partial {c : Cfg} {delta radius : V4 ℝ} {plane : Plane} {v : ℝ}
    (hc : SaneCfg c) (h : OrdinaryArc c delta radius plane v) (rot : Rot)
    (hb : ¬ BackInQuarter plane delta radius) :
    ∃ (g : CircGen ℝ) (T : ℝ) (part : ℕ → ℝ), CircGen.new c delta radius plane rot v = .ok g ∧
      Sweep plane delta radius rot T ∧ part 0 = 0 ∧ Monotone part ∧ (∀ n, part n ≤ 1) ∧
      (∀ n, ((Gen.circular g).run c n .init).2 = .done → part n = 1) ∧
      ∀ n,
        |startA plane radius * c.ppm.get (axisA plane) +
            netSteps c (axisA plane) ((Gen.circular g).run c n .init).1 -
          turnedA plane radius rot (part n * T) * c.ppm.get (axisA plane)| ≤ 22 / 10 ∧
        |startB plane radius * c.ppm.get (axisB plane) +
            netSteps c (axisB plane) ((Gen.circular g).run c n .init).1 -
          turnedB plane radius rot (part n * T) * c.ppm.get (axisB plane)| ≤ 22 / 10 ∧
        ∀ ax, ax = axis3 plane ∨ ax = .e →
          |(netSteps c ax ((Gen.circular g).run c n .init).1 : ℝ) -
            part n * (delta.get ax * c.ppm.get ax)| ≤ 11 / 10 := by
  obtain ⟨g, hg, hgood, -⟩ := arc_good hc h rot
  obtain ⟨evs, he⟩ := circ_emits hgood
  obtain ⟨R, RB, A, B, uA, uB, φ, ht⟩ := arc_tracks h.grid hg hb
  have hbase := hgood.toCircBase
  have hl := lin_nonneg hg
  have hr : 0 < g.rDivV := lt_of_le_of_ne hbase.time (rDivV_ne hg h.grid).symm
  obtain ⟨V, ρ, L, s, -, hx, -⟩ := helix_new hc h hg
  have hsome := arc_some hb h.grid hg ht he h.start
  obtain ⟨φs, φe, hf⟩ := new_facts hg
  have hf3 : g.it3 = |delta.get (axis3 plane)| * c.ppm.get (axis3 plane) := by
    rw [hf.it3, planeAxes_eq, planeAxes_eq]; simp
  have hfE : g.itE = |delta.e| * c.ppm.get .e := by
    rw [hf.itE]; simp [V4.get]
  refine ⟨g, g.deltaAngle, helixPart c rot g R RB uA uB φ L s, hg, ht.sweep,
    hx.part_zero ht hbase hl hsome, hx.part_mono ht hbase hl, hx.part_le ht hbase hl, fun n hd => ?_, fun n => ?_⟩
  · unfold helixPart
    rw [if_pos fun ax => (circ_steps c g n ax).2 hd]
  obtain ⟨a1, b1⟩ := ht.near (phi_a ht hbase hl hr n) (phi_b ht hbase hl hr n)
  have hnear := hx.angle_near ht hbase hl hf3 hfE hsome n
  obtain ⟨a2, b2⟩ := ht.turned_lip (arcPhi c rot g R RB uA uB φ n)
    (helixPart c rot g R RB uA uB φ L s n * g.deltaAngle)
  have hρ := hx.ρ0
  have small : startDist plane radius * |arcPhi c rot g R RB uA uB φ n -
      helixPart c rot g R RB uA uB φ L s n * g.deltaAngle| ≤ 1 / 5000 := by
    calc _ ≤ (3 / 2 * ρ) * (1 / 10000 / ρ) := by
          have := hx.near
          have : 0 ≤ startDist plane radius := Real.sqrt_nonneg _
          gcongr
      _ = 3 / 2 * (1 / 10000) := by field_simp
      _ ≤ _ := by norm_num
  have plane_axis : ∀ {p : ℚ} {x y z : ℝ}, 0 < p → p ≤ 1000 → |x - y * p| ≤ 2 → |y - z| ≤ 1 / 5000 →
      |x - z * p| ≤ 22 / 10 := by
    intro p x y z hp hp1 h1 h2
    have hp : (0 : ℝ) < p := by exact_mod_cast hp
    have hp1 : (p : ℝ) ≤ 1000 := by exact_mod_cast hp1
    have e : x - z * p = (x - y * p) + (y - z) * p := by ring
    rw [e]
    refine (abs_add_le _ _).trans ?_
    rw [abs_mul, abs_of_pos hp]
    have : |y - z| * p ≤ 1 / 5000 * 1000 := by gcongr
    linarith
  refine ⟨plane_axis (hc.ppm_pos _) (hc.ppm_le _) a1 (a2.trans small),
    plane_axis (hc.ppm_pos _) (hc.ppm_le _) b1 (b2.trans small), fun ax hax => ?_⟩
  have key := hx.other_near ht hbase hl hf3 hfE hc.ppm_le n hax
  have hnet : netSteps c ax ((Gen.circular g).run c n .init).1 =
      (if delta.get ax < 0 then -1 else 1) * (steps ax ((Gen.circular g).run c n .init).1 : ℤ) := by
    have h3 := circ_run_3 c g n
    have hE := circ_run_e c g n
    rw [hf.plane_eq] at h3
    rcases hax with rfl | rfl
    · rw [h3, hf.dir3, planeAxes_eq, sign1_eq]
    · rw [hE, hf.dirE, sign1_eq]; rfl
  rw [hnet]
  by_cases hneg : delta.get ax < 0
  · rw [if_pos hneg]
    rw [abs_of_neg hneg] at key
    push_cast
    rw [← abs_neg]
    refine le_trans (le_of_eq ?_) key
    congr 1; ring
  · rw [if_neg hneg]
    rw [abs_of_nonneg (not_lt.1 hneg)] at key
    push_cast
    rwa [one_mul]

/-- A quarter of a circle of radius 10 mm with 1 mm of filament. -/
example : SaneCfg Cfg.default ∧ OrdinaryArc Cfg.default ⟨10, 10, 0, 1⟩ ⟨10, 0, 0, 0⟩ .xy 600 ∧
    ¬ BackInQuarter .xy ⟨10, 10, 0, 1⟩ ⟨10, 0, 0, 0⟩ :=
  ⟨sane_cfg, quarter_arc 1 (.inr (by norm_num)) (by norm_num), quarter_arc_ahead 1⟩

/-- **C84 is false** for arcs whose end lies before their start in the same quarter of the circle: the
machine goes round the whole circle instead. -/
theorem C84_refuted {g : CircGen ℝ}
    (hg : CircGen.new Cfg.default ⟨-1, 1, 0, 0⟩ ⟨-4, -3, 0, 0⟩ .xy .ccw 600 = .ok g) :
    ¬ ∃ (T : ℝ) (part : ℕ → ℝ), Sweep .xy ⟨-1, 1, 0, 0⟩ ⟨-4, -3, 0, 0⟩ .ccw T ∧
      (∀ n, ((Gen.circular g).run Cfg.default n .init).2 = .done → part n = 1) ∧
      ∀ n, |startA .xy ⟨-4, -3, 0, 0⟩ * Cfg.default.ppm.get .x +
          netSteps Cfg.default .x ((Gen.circular g).run Cfg.default n .init).1 -
        turnedA .xy ⟨-4, -3, 0, 0⟩ .ccw (part n * T) * Cfg.default.ppm.get .x| < 100 := by
  rintro ⟨T, part, h1, h2, h3⟩
  exact C75_refuted hg ⟨T, fun n => part n * T, h1, fun n hn => by simp only [h2 n hn, one_mul], h3⟩

end PyCNC.Props
