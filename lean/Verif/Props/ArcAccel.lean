import Verif.Lemmas.ArcTime
import Verif.Lemmas.ArcAccelWitness
import Verif.Props.ArcPath

/-!
# Property C77: the acceleration of circular moves

Exact arithmetic, for every nearest-integer rounding (`PyRound`).  `AtTime evs t n` says that it is
the time `t` after the first `n` events.
-/

set_option linter.unusedSectionVars false

namespace PyCNC.Props

open PyCNC Spec Real

variable [PyRound]

/-- **C77.** An arc long enough to reach its speed starts and ends at rest and never exceeds the
acceleration nor the feed *along the circle*: there is such a motion `s`, from 0 to the length of the
arc, and at every time `t` both motors are within two steps of the start turned by the angle that
belongs to the way `s t`.

Missing: short arcs (`C77_short_refuted`), the acceleration towards the centre
(`C77_centre_refuted`), arcs that move a third axis or the extruder (`C77_helix_partial`), arcs whose end lies before their
start in the same quarter of the circle. -/
theorem C77_acceleration_partial {c : Cfg} {delta radius : V4 ℝ} {plane : Plane} {v : ℝ}
    (hc : SaneCfg c) (h : OrdinaryArc c delta radius plane v) {rot : Rot}
    (hflat : delta.get (axis3 plane) = 0 ∧ delta.e = 0)
    (hb : ¬ BackInQuarter plane delta radius) {T : ℝ} (hT : Sweep plane delta radius rot T)
    (hlong : (v / 60 + 1 / 10 ^ 10) ^ 2 ≤
      c.accel * (T * (startDist plane radius - 1 / 2 / coarse c plane)))
    {g : CircGen ℝ} (hg : CircGen.new c delta radius plane rot v = .ok g) {evs : List (Event ℝ)}
    (he : Emits c (.circular g) evs) :
    ∃ (s u : ℝ → ℝ) (ρ : ℝ), Motion c.accel s u ∧
      |ρ - startDist plane radius| ≤ 1 / 2 / coarse c plane ∧ s 0 = 0 ∧ u 0 = 0 ∧
      s (Gen.circular g).totalTime = T * ρ ∧ u (Gen.circular g).totalTime = 0 ∧
      (∀ t, 0 ≤ t → t ≤ (Gen.circular g).totalTime → 0 ≤ u t ∧ u t ≤ v / 60 + 1 / 10 ^ 10) ∧
      (∀ t, ∃ n, AtTime evs t n) ∧
      ∀ n t, 0 ≤ t → t ≤ (Gen.circular g).totalTime → AtTime evs t n →
        |startA plane radius * c.ppm.get (axisA plane) + netSteps c (axisA plane) (evs.take n) -
          turnedA plane radius rot (s t / ρ) * c.ppm.get (axisA plane)| ≤ 2 ∧
        |startB plane radius * c.ppm.get (axisB plane) + netSteps c (axisB plane) (evs.take n) -
          turnedB plane radius rot (s t / ρ) * c.ppm.get (axisB plane)| ≤ 2 := by
  obtain ⟨V, ρ, hfl⟩ := flat_arc hc h hg hflat.1 hflat.2
  obtain ⟨g', hg', hgood, -⟩ := arc_good hc h rot
  obtain rfl : g = g' := Except.ok.inj (hg.symm.trans hg')
  obtain ⟨R, RB, A, B, uA, uB, φ, ht⟩ := arc_tracks h.grid hg hb
  have hbase := hgood.toCircBase
  have hl := lin_nonneg hg
  have hTT : g.deltaAngle = T := by
    obtain ⟨φs, φe, hf, hd⟩ := new_turn hg
    rw [hd]
    exact arcTurn_sweep hf.angS hf.angE hT
  have hn := hfl.radius_near hc.ppm_pos
  obtain ⟨l1, l2⟩ := hfl.long hTT (by have := (abs_le.1 hn).1; linarith) hlong
  obtain ⟨s1, s2⟩ := hfl.starts hl
  obtain ⟨e1, e2⟩ := hfl.ends hl
  have hm := hfl.motion hl
  rw [l1] at hm
  rw [l2] at e1
  refine ⟨arcWay g V, arcPace g V, ρ, hm, hn, s1, s2, e1, e2, fun t h0 h1 => ?_,
    arc_atTime ht hbase hl he, fun n t h0 h1 ha => ?_⟩
  · obtain ⟨p1, p2⟩ := hfl.pace hl h0 h1
    exact ⟨p1, p2.trans hfl.feed⟩
  · refine hfl.at_time hbase hl ht he h0 h1 ?_ ha
    rw [hTT, ← e1]
    have hV := hfl.V0
    have hA := hfl.accT0
    have ht' := hfl.total
    unfold arcWay
    refine mul_le_mul_of_nonneg_left ?_ hV.le
    refine travel_mono (by linarith) hA.le hl h0 h1 ht'.le

/-- The quarter of a circle of radius 10 mm at 10 mm/s. -/
example : ∃ T, Sweep .xy ⟨10, 10, 0, 0⟩ ⟨10, 0, 0, 0⟩ .cw T ∧
    OrdinaryArc Cfg.default ⟨10, 10, 0, 0⟩ ⟨10, 0, 0, 0⟩ .xy 600 ∧
    ¬ BackInQuarter .xy ⟨10, 10, 0, 0⟩ ⟨10, 0, 0, 0⟩ ∧
    ((600 : ℝ) / 60 + 1 / 10 ^ 10) ^ 2 ≤ Cfg.default.accel *
      (T * (startDist .xy ⟨10, 0, 0, 0⟩ - 1 / 2 / coarse Cfg.default .xy)) := by
  have h5 : √(100 : ℝ) = 10 := by
    rw [show (100 : ℝ) = 10 ^ 2 by norm_num]; exact Real.sqrt_sq (by norm_num)
  have hs : startDist .xy ⟨10, 0, 0, 0⟩ = 10 := by
    simp only [startDist, startA, startB, axisA, axisB, V4.get]; norm_num; exact h5
  have hd : endDist .xy ⟨10, 10, 0, 0⟩ ⟨10, 0, 0, 0⟩ = 10 := by
    simp only [endDist, endA, endB, axisA, axisB, V4.get]; norm_num; exact h5
  have hpi := pi_pos
  refine ⟨π / 2, ⟨by linarith, by linarith, ?_, ?_⟩, quarter_arc 0 (.inl rfl) (by simp),
    quarter_arc_ahead 0, ?_⟩
  · rw [hs, hd]; simp [startA, startB, endA, axisA, axisB, V4.get]
  · rw [hs, hd]; simp [startA, startB, endB, axisA, axisB, V4.get]
  · have hacc : ((Cfg.default.accel : ℚ) : ℝ) = 3000 := by norm_num [Cfg.default]
    have := pi_gt_three
    rw [hs, coarse_xy, hacc]
    norm_num
    nlinarith

/-- **C77 is false for short arcs**: a quarter of a circle of radius 1 mm at 200 mm/s is finished in
19 ms.  No motion along the circle that starts at rest and keeps the acceleration gets anywhere near
its end in this time. -/
theorem C77_short_refuted : OrdinaryArc Cfg.default ⟨1, -1, 0, 0⟩ ⟨0, -1, 0, 0⟩ .xy 12000 ∧
    ¬ BackInQuarter .xy ⟨1, -1, 0, 0⟩ ⟨0, -1, 0, 0⟩ ∧
    ∃ g evs, CircGen.new Cfg.default ⟨1, -1, 0, 0⟩ ⟨0, -1, 0, 0⟩ .xy .cw 12000 = .ok g ∧
      Emits Cfg.default (.circular g) evs ∧
      ¬ ∃ (s u : ℝ → ℝ) (ρ : ℝ), Motion Cfg.default.accel s u ∧
        |ρ - startDist .xy ⟨0, -1, 0, 0⟩| ≤ 1 / 2 / coarse Cfg.default .xy ∧ s 0 = 0 ∧ u 0 = 0 ∧
        ∀ n t, 0 ≤ t → t ≤ (Gen.circular g).totalTime → AtTime evs t n →
          |startB .xy ⟨0, -1, 0, 0⟩ * Cfg.default.ppm.get .y + netSteps Cfg.default .y (evs.take n) -
            turnedB .xy ⟨0, -1, 0, 0⟩ .cw (s t / ρ) * Cfg.default.ppm.get .y| ≤ 2 := by
  refine ⟨tiny_arc, tiny_ahead, ?_⟩
  obtain ⟨g, evs, hg, he⟩ := C36_no_exception_partial sane_cfg tiny_arc .cw
  refine ⟨g, evs, hg, he, ?_⟩
  rintro ⟨s, u, ρ, hm, hρ, s0, u0, hn⟩
  exact tiny_fast sane_cfg hg he hm hρ s0 u0 hn

/-- **C77 is false for the motors** even on long arcs: only the speed along the circle is limited.  On
a full circle of radius 10 mm at 200 mm/s (limit of the Y axis) no motion of the X motor that keeps
the acceleration is within two steps of its pulses. -/
theorem C77_centre_refuted : OrdinaryArc Cfg.default ⟨0, 0, 0, 0⟩ ⟨0, -10, 0, 0⟩ .xy 12000 ∧
    ¬ BackInQuarter .xy ⟨0, 0, 0, 0⟩ ⟨0, -10, 0, 0⟩ ∧
    (∃ T, Sweep .xy ⟨0, 0, 0, 0⟩ ⟨0, -10, 0, 0⟩ .cw T ∧ ((12000 : ℝ) / 60 + 1 / 10 ^ 10) ^ 2 ≤
      Cfg.default.accel *
        (T * (startDist .xy ⟨0, -10, 0, 0⟩ - 1 / 2 / coarse Cfg.default .xy))) ∧
    ∃ g evs, CircGen.new Cfg.default ⟨0, 0, 0, 0⟩ ⟨0, -10, 0, 0⟩ .xy .cw 12000 = .ok g ∧
      Emits Cfg.default (.circular g) evs ∧
      ¬ ∃ s u : ℝ → ℝ, Motion Cfg.default.accel s u ∧
        ∀ n t, 0 ≤ t → t ≤ (Gen.circular g).totalTime → AtTime evs t n →
          |s t * Cfg.default.ppm.get .x - (netSteps Cfg.default .x (evs.take n) : ℝ)| ≤ 2 := by
  refine ⟨wide_arc, wide_ahead, ⟨2 * π, wide_sweep, ?_⟩, ?_⟩
  · have hacc : ((Cfg.default.accel : ℚ) : ℝ) = 3000 := by norm_num [Cfg.default]
    have := pi_gt_three
    rw [wide_dist, coarse_xy, hacc]
    norm_num
    nlinarith
  obtain ⟨g, evs, hg, he⟩ := C36_no_exception_partial sane_cfg wide_arc .cw
  refine ⟨g, evs, hg, he, ?_⟩
  rintro ⟨s, u, hm, hn⟩
  exact wide_strain sane_cfg hg he hm hn

end PyCNC.Props
