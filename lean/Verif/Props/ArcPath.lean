import Verif.Lemmas.ArcFollow
import Verif.Props.Arc

/-!
# Property C75: circular moves follow their circle, in order

Exact arithmetic, for every nearest-integer rounding (`PyRound`).  `turnedA`, `turnedB` is the point
of the circle that is reached when the start turns around the centre; `Sweep` is the angle of the
whole turn.
-/

set_option linter.unusedSectionVars false

namespace PyCNC.Props

open PyCNC Spec Real

variable [PyRound]

/-- **C75.** While an ordinary arc is executed the head goes along the circle from the start to the
end in the right sense: after each number of events there is an angle, which begins with 0, never
decreases and ends with the angle of the whole turn, such that both motors are within two steps of
the start turned by this angle; within one and a half steps when the radius is a whole number of
steps.

Missing: arcs whose end lies before their start in the same quarter of the circle
(`C34_back_in_quarter`), planes of two axes with different steps unless the radius is a whole number
of steps (`C37_refuted`). -/
theorem C75_follows_circle_partial {c : Cfg} {delta radius : V4 ℝ} {plane : Plane} {v : ℝ}
    (hc : SaneCfg c) (h : OrdinaryArc c delta radius plane v) (rot : Rot)
    (hb : ¬ BackInQuarter plane delta radius) :
    ∃ (g : CircGen ℝ) (T : ℝ) (Φ : ℕ → ℝ), CircGen.new c delta radius plane rot v = .ok g ∧
      Sweep plane delta radius rot T ∧ Φ 0 = 0 ∧ Monotone Φ ∧ (∀ n, Φ n ≤ T) ∧
      (∀ n, ((Gen.circular g).run c n .init).2 = .done → Φ n = T) ∧
      ∀ n,
        |startA plane radius * c.ppm.get (axisA plane) +
            netSteps c (axisA plane) ((Gen.circular g).run c n .init).1 -
          turnedA plane radius rot (Φ n) * c.ppm.get (axisA plane)| ≤ 2 ∧
        |startB plane radius * c.ppm.get (axisB plane) +
            netSteps c (axisB plane) ((Gen.circular g).run c n .init).1 -
          turnedB plane radius rot (Φ n) * c.ppm.get (axisB plane)| ≤ 2 ∧
        ((∃ k : ℤ, startDist plane radius * c.ppm.get (axisA plane) = k) →
          |startA plane radius * c.ppm.get (axisA plane) +
              netSteps c (axisA plane) ((Gen.circular g).run c n .init).1 -
            turnedA plane radius rot (Φ n) * c.ppm.get (axisA plane)| ≤ 3 / 2) ∧
        ((∃ k : ℤ, startDist plane radius * c.ppm.get (axisB plane) = k) →
          |startB plane radius * c.ppm.get (axisB plane) +
              netSteps c (axisB plane) ((Gen.circular g).run c n .init).1 -
            turnedB plane radius rot (Φ n) * c.ppm.get (axisB plane)| ≤ 3 / 2) := by
  obtain ⟨g, hg, hgood, -⟩ := arc_good hc h rot
  obtain ⟨evs, he⟩ := circ_emits hgood
  obtain ⟨R, RB, A, B, uA, uB, φ, ht⟩ := arc_tracks h.grid hg hb
  have hbase := hgood.toCircBase
  have hl := lin_nonneg hg
  have hr : 0 < g.rDivV := lt_of_le_of_ne hbase.time (rDivV_ne hg h.grid).symm
  refine ⟨g, g.deltaAngle, arcPhi c rot g R RB uA uB φ, hg, ht.sweep, phi_zero ht hbase hl hr,
    phi_mono ht hbase hl hr, fun n => min_le_left _ _,
    fun n hd => phi_end ht hbase hl hr (arc_some hb h.grid hg ht he h.start) hd, fun n => ?_⟩
  have hA := phi_a ht hbase hl hr n
  have hB := phi_b ht hbase hl hr n
  set θ := arcPhi c rot g R RB uA uB φ n
  have tA : turnedA plane radius rot θ = startDist plane radius * sin (φ + rotSign rot * θ) := by
    unfold turnedA
    cases rot
    · simp only [turnSign, rotSign, Int.cast_one, one_mul]
      rw [sin_add, ht.aφ, ht.bφ]; ring
    · simp only [turnSign, rotSign, Int.cast_neg, Int.cast_one, neg_mul, one_mul]
      rw [sin_add, ht.aφ, ht.bφ, sin_neg, cos_neg]; ring
  have tB : turnedB plane radius rot θ = startDist plane radius * cos (φ + rotSign rot * θ) := by
    unfold turnedB
    cases rot
    · simp only [turnSign, rotSign, Int.cast_one, one_mul]
      rw [cos_add, ht.aφ, ht.bφ]; ring
    · simp only [turnSign, rotSign, Int.cast_neg, Int.cast_one, neg_mul, one_mul]
      rw [cos_add, ht.aφ, ht.bφ, sin_neg, cos_neg]; ring
  have key : ∀ (d p x y : ℝ) (K : ℤ), PyRound.rnd (d * p) = K → |y| ≤ 1 → |x - K * y| ≤ 3 / 2 →
      |x - d * y * p| ≤ 2 ∧ ((∃ k : ℤ, d * p = k) → |x - d * y * p| ≤ 3 / 2) := by
    intro d p x y K hK hy hx
    have hn := PyRound.near (d * p)
    rw [hK] at hn
    constructor
    · have e : x - d * y * p = (x - K * y) + (K - d * p) * y := by ring
      rw [e]
      refine (abs_add_le _ _).trans ?_
      rw [abs_mul]
      nlinarith [abs_nonneg y, abs_nonneg ((K : ℝ) - d * p)]
    · rintro ⟨k, hk⟩
      have : K = k := by rw [← hK, hk, rnd_int]
      rw [show d * y * p = (d * p) * y by ring, hk, ← this]
      exact hx
  rw [tA, tB, ht.sA, ht.sB]
  obtain ⟨a1, a2⟩ := key _ _ _ _ R ht.rA (abs_sin_le_one _) hA
  obtain ⟨b1, b2⟩ := key _ _ _ _ RB ht.rB (abs_cos_le_one _) hB
  exact ⟨a1, b1, a2, b2⟩

/-- **C75.** The pulses of an ordinary arc are sent in the order of their times, pulses of one event
at the same time, and all between the start and `total_time_s()`.  Missing: as for
`C75_follows_circle_partial`. -/
theorem C75_ordered_partial {c : Cfg} {delta radius : V4 ℝ} {plane : Plane} {v : ℝ}
    (hc : SaneCfg c) (h : OrdinaryArc c delta radius plane v) (rot : Rot)
    (hb : ¬ BackInQuarter plane delta radius) :
    ∃ g evs, CircGen.new c delta radius plane rot v = .ok g ∧ Emits c (.circular g) evs ∧
      (∀ ev ∈ evs, ¬ IsDir ev → ∃ τ, StepsAt τ ev) ∧
      (evs.Pairwise fun e₁ e₂ => ∀ τ₁ τ₂, StepsAt τ₁ e₁ → StepsAt τ₂ e₂ → τ₁ ≤ τ₂) ∧
      ∀ ax, ∀ τ ∈ stepTimes ax evs, 0 ≤ τ ∧ τ ≤ (Gen.circular g).totalTime := by
  obtain ⟨g, hg, hgood, -⟩ := arc_good hc h rot
  obtain ⟨evs, he⟩ := circ_emits hgood
  obtain ⟨R, RB, A, B, uA, uB, φ, ht⟩ := arc_tracks h.grid hg hb
  have hbase := hgood.toCircBase
  have hl := lin_nonneg hg
  have htm := arc_timed ht hbase hl
  refine ⟨g, evs, hg, he, ?_⟩
  obtain ⟨N, hN⟩ := he
  obtain ⟨t1, -, t3⟩ := timed_init htm N
  have h1 := run_stepsAt c (.circular g) N .init
  have hk := fun ax => (circ_steps c g N ax).1
  rw [hN N le_rfl] at t1 t3 h1 hk
  refine ⟨h1, t3, fun ax τ hτ => ?_⟩
  rw [t1 ax, List.mem_map] at hτ
  obtain ⟨i, hi, rfl⟩ := hτ
  rw [List.mem_range] at hi
  have h0 := htm.nonneg ax i (hi.trans_le (hk ax))
  refine ⟨warp_nonneg hbase.k hbase.acc hl h0, ?_⟩
  have h1 := warp_le_total (k := (Gen.circular g).twoVmaxPerA c) hbase.k hbase.acc hl h0
  have hT : (Gen.circular g).totalTime = 2 * g.accT + g.linT := by
    simp [Gen.totalTime, Gen.accT, Gen.linT]; ring
  rw [hT]
  exact h1

/-- The statement is not empty: a quarter of a circle of radius 10 mm with the default configuration,
both ways round. -/
example (rot : Rot) : ∃ (g : CircGen ℝ) (T : ℝ) (Φ : ℕ → ℝ),
    CircGen.new Cfg.default ⟨10, 10, 0, 0⟩ ⟨10, 0, 0, 0⟩ .xy rot 600 = .ok g ∧
      Sweep .xy ⟨10, 10, 0, 0⟩ ⟨10, 0, 0, 0⟩ rot T ∧ Φ 0 = 0 ∧ Monotone Φ ∧
      ∀ n, |startA .xy ⟨10, 0, 0, 0⟩ * Cfg.default.ppm.get .x +
          netSteps Cfg.default .x ((Gen.circular g).run Cfg.default n .init).1 -
        turnedA .xy ⟨10, 0, 0, 0⟩ rot (Φ n) * Cfg.default.ppm.get .x| ≤ 3 / 2 := by
  obtain ⟨g, T, Φ, h1, h2, h3, h4, -, -, h5⟩ := C75_follows_circle_partial sane_cfg
    (quarter_arc 0 (.inl rfl) (by simp)) rot (quarter_arc_ahead 0)
  refine ⟨g, T, Φ, h1, h2, h3, h4, fun n => (h5 n).2.2.1 ⟨1000, ?_⟩⟩
  have h6 : √(100 : ℝ) = 10 := by
    rw [show (100 : ℝ) = 10 ^ 2 by norm_num]; exact Real.sqrt_sq (by norm_num)
  have hs : startDist .xy ⟨10, 0, 0, 0⟩ = 10 := by
    simp only [startDist, startA, startB, axisA, axisB, V4.get]; norm_num; exact h6
  rw [hs]
  simp only [axisA, V4.get, Cfg.default]; norm_num

/-- **C75 is false** for arcs whose end lies before their start in the same quarter of the circle:
on the way from (4, 3) to (3, 4) around the origin there is no such angle; the machine goes round the
whole circle and ends where it began, 100 steps from the end of the arc. -/
theorem C75_refuted {g : CircGen ℝ}
    (hg : CircGen.new Cfg.default ⟨-1, 1, 0, 0⟩ ⟨-4, -3, 0, 0⟩ .xy .ccw 600 = .ok g) :
    ¬ ∃ (T : ℝ) (Φ : ℕ → ℝ), Sweep .xy ⟨-1, 1, 0, 0⟩ ⟨-4, -3, 0, 0⟩ .ccw T ∧
      (∀ n, ((Gen.circular g).run Cfg.default n .init).2 = .done → Φ n = T) ∧
      ∀ n, |startA .xy ⟨-4, -3, 0, 0⟩ * Cfg.default.ppm.get .x +
          netSteps Cfg.default .x ((Gen.circular g).run Cfg.default n .init).1 -
        turnedA .xy ⟨-4, -3, 0, 0⟩ .ccw (Φ n) * Cfg.default.ppm.get .x| < 100 := by
  rintro ⟨T, Φ, ⟨-, -, h1, -⟩, h2, h3⟩
  obtain ⟨delta, radius, g', evs, rfl, rfl, h4, ⟨N, hN⟩, h5, -⟩ := C34_refuted
  obtain rfl : g = g' := Except.ok.inj (hg.symm.trans h4)
  have hN := hN N le_rfl
  have h6 := h3 N
  rw [h2 N (by rw [hN]), hN, h5] at h6
  have h25 : √(25 : ℝ) = 5 := by
    rw [show (25 : ℝ) = 5 ^ 2 by norm_num]; exact Real.sqrt_sq (by norm_num)
  have hs : startDist .xy ⟨-4, -3, 0, 0⟩ = 5 := by
    simp only [startDist, startA, startB, axisA, axisB, V4.get]; norm_num; exact h25
  have he : endDist .xy ⟨-1, 1, 0, 0⟩ ⟨-4, -3, 0, 0⟩ = 5 := by
    simp only [endDist, endA, endB, axisA, axisB, V4.get]; norm_num; exact h25
  rw [hs, he] at h1
  have h7 : turnedA .xy ⟨-4, -3, 0, 0⟩ .ccw T = 3 := by
    have : endA .xy ⟨-1, 1, 0, 0⟩ ⟨-4, -3, 0, 0⟩ = 3 := by
      simp only [endA, axisA, V4.get]; norm_num
    rw [this] at h1
    unfold turnedA turnSign
    linarith
  rw [h7] at h6
  simp only [startA, axisA, V4.get, Cfg.default] at h6
  norm_num at h6

end PyCNC.Props
