import Verif.Lemmas.ArcRate
import Mathlib.Analysis.SpecialFunctions.Trigonometric.Bounds
import Mathlib.Analysis.Real.Pi.Bounds

/-!
# An arc whose last step is too fast

A slow machine, at most 1 mm/s, and the arc from (0, 8) to (6, 6), in steps of a hundredth of a
millimetre, around the origin: the end is 8.49 steps away from the centre, the circle has radius 8.
-/

set_option linter.unusedSectionVars false

namespace PyCNC

open Spec Real

variable [PyRound]

/-- The default configuration with maximum velocities of 1 mm/s in X and Y. -/
def slowCfg : Cfg := { Cfg.default with maxVel := ⟨60, 60, 600, 1500⟩ }

omit [PyRound] in
theorem slow_sane : SaneCfg slowCfg := by
  constructor <;> first
    | (intro ax; cases ax <;> norm_num [slowCfg, Cfg.default, V4.get])
    | norm_num [slowCfg, Cfg.default]

omit [PyRound] in
theorem slow_limits : DecimalLimits slowCfg := by
  intro ax
  cases ax
  · exact ⟨10 ^ 10, by norm_num [slowCfg, Cfg.default, V4.get]⟩
  · exact ⟨10 ^ 10, by norm_num [slowCfg, Cfg.default, V4.get]⟩
  · exact ⟨10 * 10 ^ 10, by norm_num [slowCfg, Cfg.default, V4.get]⟩
  · exact ⟨25 * 10 ^ 10, by norm_num [slowCfg, Cfg.default, V4.get]⟩

/-- From (0, 8) steps to (6, 6) steps. -/
noncomputable def lastDelta : V4 ℝ := ⟨6 / 100, -2 / 100, 0, 0⟩
/-- To the centre. -/
noncomputable def lastRadius : V4 ℝ := ⟨0, -8 / 100, 0, 0⟩

omit [PyRound] in
theorem last_start : startA .xy lastRadius = 0 ∧ startB .xy lastRadius = 8 / 100 ∧
    startDist .xy lastRadius = 8 / 100 ∧ endA .xy lastDelta lastRadius = 6 / 100 ∧
    endB .xy lastDelta lastRadius = 6 / 100 ∧ endDist .xy lastDelta lastRadius = 6 / 100 * √2 := by
  have h1 : startA .xy lastRadius = 0 := by simp [startA, lastRadius, axisA, V4.get]
  have h2 : startB .xy lastRadius = 8 / 100 := by
    simp only [startB, lastRadius, axisB, V4.get]; norm_num
  have h3 : endA .xy lastDelta lastRadius = 6 / 100 := by
    simp only [endA, lastRadius, lastDelta, axisA, V4.get]; norm_num
  have h4 : endB .xy lastDelta lastRadius = 6 / 100 := by
    simp only [endB, lastRadius, lastDelta, axisB, V4.get]; norm_num
  refine ⟨h1, h2, ?_, h3, h4, ?_⟩
  · unfold startDist
    rw [h1, h2, show (0 : ℝ) ^ 2 + (8 / 100) ^ 2 = (8 / 100) ^ 2 by ring]
    exact Real.sqrt_sq (by norm_num)
  · unfold endDist
    rw [h3, h4, show (6 / 100 : ℝ) ^ 2 + (6 / 100) ^ 2 = (6 / 100) ^ 2 * 2 by ring,
      Real.sqrt_mul (by norm_num), Real.sqrt_sq (by norm_num)]

omit [PyRound] in
theorem slow_ppm : ((slowCfg.ppm.get .x : ℚ) : ℝ) = 100 ∧ ((slowCfg.ppm.get .y : ℚ) : ℝ) = 100 := by
  constructor <;> norm_num [slowCfg, Cfg.default, V4.get]

omit [PyRound] in
theorem sqrt2_bounds : (1.4142 : ℝ) < √2 ∧ √2 < 1.4143 := by
  constructor
  · rw [Real.lt_sqrt (by norm_num)]; norm_num
  · rw [Real.sqrt_lt' (by norm_num)]; norm_num

theorem last_ordinary : OrdinaryArc slowCfg lastDelta lastRadius .xy 60 := by
  obtain ⟨s1, s2, s3, s4, s5, s6⟩ := last_start
  have hc : ((coarse slowCfg .xy : ℚ) : ℝ) = 100 := by
    simp [coarse, slowCfg, Cfg.default, axisA, axisB, V4.get]
  refine ⟨⟨?_, ?_, ⟨0, ?_⟩, ⟨-8, ?_⟩, ⟨6, ?_⟩, ⟨-2, ?_⟩, .inl rfl⟩, ?_, ?_, ?_, ?_, ?_, ?_, ?_,
    .inl ⟨rfl, rfl⟩, ?_⟩
  any_goals first
    | (rw [s3]; norm_num; done)
    | (simp [axisA, axisB, axis3, V4.get, slowCfg, lastDelta, lastRadius, Cfg.default]; done)
    | (simp only [axisA, axisB, V4.get, slowCfg, lastDelta, lastRadius, Cfg.default]; norm_num; done)
  rw [s3, s6, hc]
  have e : PyRound.rnd (8 / 100 * 100 : ℝ) = 8 := by
    have := rnd_int 8
    rw [show (8 / 100 * 100 : ℝ) = ((8 : ℤ) : ℝ) by norm_num]; exact this
  rw [e]
  refine rnd_unique ?_
  obtain ⟨q1, q2⟩ := sqrt2_bounds
  rw [abs_lt]
  constructor <;> push_cast <;> norm_num at q1 q2 ⊢ <;> linarith

omit [PyRound] in
theorem last_ahead : ¬ BackInQuarter .xy lastDelta lastRadius := by
  obtain ⟨s1, s2, s3, s4, s5, s6⟩ := last_start
  unfold BackInQuarter
  rw [s1, s2, s4, s5]
  norm_num

/-- The times of the last two pulses of the X axis. -/
theorem last_fast {g : CircGen ℝ} (hg : CircGen.new slowCfg lastDelta lastRadius .xy .cw 60 = .ok g)
    {evs : List (Event ℝ)} (he : Emits slowCfg (.circular g) evs) :
    ∃ τ₁ τ₂, (stepTimes .x evs)[4]? = some τ₁ ∧ (stepTimes .x evs)[5]? = some τ₂ ∧
      τ₂ - τ₁ < 1 / 100 := by
  obtain ⟨s1, s2, s3, s4, s5, s6⟩ := last_start
  obtain ⟨g', hg', hgood, -⟩ := arc_good slow_sane last_ordinary .cw
  obtain rfl : g = g' := Except.ok.inj (hg.symm.trans hg')
  obtain ⟨V, ρ, hfl⟩ := flat_arc slow_sane last_ordinary hg rfl rfl
  obtain ⟨R, RB, A, B, uA, uB, φ, ht⟩ := arc_tracks last_ordinary.grid hg last_ahead
  have hl := lin_nonneg hg
  obtain ⟨-, htm⟩ := ht.times hgood.toCircBase hl he .x
  have hpi := pi_pos
  obtain ⟨q1, q2⟩ := sqrt2_bounds
  have q3 : √2 * √2 = 2 := Real.mul_self_sqrt (by norm_num)
  -- the angles
  have hφ : φ = 0 := by
    have := ht.bφ
    rw [s2, s3] at this
    have h1 : cos φ = 1 := by linarith
    exact (cos_eq_one_iff_of_lt_of_lt (by linarith [ht.φ0]) ht.φ1).1 h1
  have hT : g.deltaAngle = π / 4 := by
    obtain ⟨t0, t1, w1, w2⟩ := ht.sweep
    simp only [s1, s2, s3, s4, s5, s6, zero_mul, zero_add, one_mul, mul_zero, sub_zero] at w1 w2
    refine turn_unique t0 t1 (by linarith) (by linarith) ?_ ?_
    · rw [cos_pi_div_four]
      have : √2 * cos g.deltaAngle = 1 := by linarith
      linear_combination (√2 / 2) * this - (cos g.deltaAngle / 2) * q3
    · rw [sin_pi_div_four]
      have : √2 * sin g.deltaAngle = 1 := by linarith
      linear_combination (√2 / 2) * this - (sin g.deltaAngle / 2) * q3
  have hrnd : PyRound.rnd (startDist .xy lastRadius * slowCfg.ppm.get (axisA .xy)) = 8 := by
    rw [s3, show axisA .xy = .x from rfl, slow_ppm.1, show (8 / 100 * 100 : ℝ) = ((8 : ℤ) : ℝ) by norm_num]
    exact rnd_int 8
  obtain rfl : R = 8 := by rw [← ht.rA]; exact hrnd
  have h8 : (0 : ℝ) < ((8 : ℤ) : ℝ) := by norm_num
  have hta := ht.ta
  simp only [rotSign, one_mul, Int.cast_one, hφ, hT, mul_zero] at hta
  have psi0 : Psi ((8 : ℤ) : ℝ) 0 = 0 := by
    rw [psi_eq h8 (k := 0) (by norm_num) (by norm_num)]; simp
  have hu : uA = 0 := by
    have e1 := hta.s1
    have e2 := hta.s2
    rw [← psi0, psi_lt_iff h8] at e1 e2
    have e1' : ((uA - 1 : ℤ) : ℝ) < ((0 : ℤ) : ℝ) := by push_cast; exact e1
    have e2' : ((0 : ℤ) : ℝ) < ((uA + 1 : ℤ) : ℝ) := by push_cast; exact e2
    have := Int.cast_lt.1 e1'
    have := Int.cast_lt.1 e2'
    omega
  subst hu
  have sin5 : ∀ m : ℕ, m ≤ 8 → ((8 : ℤ) : ℝ) * sin (Psi ((8 : ℤ) : ℝ) m) = m := fun m hm => by
    have hm' : (m : ℝ) ≤ 8 := by exact_mod_cast hm
    have hm0 : (0 : ℝ) ≤ m := by positivity
    rw [psi_sin h8 (k := 0) (by push_cast; linarith) (by push_cast; linarith)]
    simp [sg]
  have hpsi8 : Psi ((8 : ℤ) : ℝ) 8 = π / 2 := by
    rw [psi_eq h8 (k := 0) (by norm_num) (by norm_num)]; simp
  have hm : g.itA.toNat = 6 := by
    have e1 := hta.e1
    have e2 := hta.near
    simp only [Int.cast_zero, zero_add] at e1 e2
    have h1 : (g.itA.toNat : ℝ) - 1 < 8 := by
      rw [← psi_lt_iff h8, hpsi8]; linarith
    have h2 : g.itA.toNat ≤ 8 := by
      have : (g.itA.toNat : ℝ) < 9 := by linarith
      have : g.itA.toNat < 9 := by exact_mod_cast this
      omega
    rw [sin5 _ h2, sin_pi_div_four] at e2
    push_cast at e2
    obtain ⟨e3, e4⟩ := abs_le.1 e2
    have h3 : (5 : ℝ) < g.itA.toNat := by norm_num at q1 q2; linarith
    have h4 : (g.itA.toNat : ℝ) < 7 := by norm_num at q1 q2; linarith
    have h3 : 5 < g.itA.toNat := by exact_mod_cast h3
    have h4 : g.itA.toNat < 7 := by exact_mod_cast h4
    omega
  -- where the last but one pulse is
  have h5 : π / 4 - 12 / 100 < Psi ((8 : ℤ) : ℝ) 5 := by
    by_contra hcon
    push Not at hcon
    have h0 : 0 ≤ Psi ((8 : ℤ) : ℝ) 5 := by
      rw [← psi0]; exact psi_le h8 (by norm_num)
    have h6 := sin_le_sin_of_le_of_le_pi_div_two
      ((by linarith : -(π / 2) ≤ 0).trans h0)
      (show π / 4 - 12 / 100 ≤ π / 2 by linarith) hcon
    have h7 := sin5 5 (by norm_num)
    push_cast at h7 h6
    rw [sin_sub, sin_pi_div_four, cos_pi_div_four] at h6
    have h8 := Real.sin_gt_sub_cube (x := 12 / 100) (by norm_num)
    have h9 := cos_le_one (12 / 100)
    norm_num at q1 q2 h8
    nlinarith
  -- the times
  have hV : V = 1 := by
    have := hfl.slow slow_limits (by norm_num [slowCfg, axisA, V4.get])
      (by norm_num [slowCfg, axisB, V4.get])
    rw [this, show (60 / 60 : ℝ) = ((1 : ℤ) : ℝ) by norm_num, round10_grid (Grid.int 1), Int.cast_one]
  have hρ : ρ = 8 / 100 := by
    have := hfl.ppmA
    rw [hrnd, show axisA .xy = .x from rfl, slow_ppm.1] at this
    push_cast at this
    linarith
  have ha : ((slowCfg.accel : ℚ) : ℝ) = 3000 := by norm_num [slowCfg, Cfg.default]
  obtain ⟨hA, hB⟩ : g.accT = 1 / 3000 ∧ g.linT = π / 4 * (8 / 100) - 1 / 3000 := by
    have := hfl.shape
    rw [hV, hρ, ha, hT] at this
    rcases this with ⟨-, a, b⟩ | ⟨a, -, -⟩
    · exact ⟨a, by rw [b]; ring⟩
    · have := pi_gt_three
      exfalso
      norm_num at a
      linarith
  have hrd : g.rDivV = 8 / 100 := by rw [hfl.rdv, hV, hρ, div_one]
  have htot : g.totals .x = 6 := by
    rw [← hm]; simp [CircGen.totals, ht.plane_eq, axisA]
  have hpt : ∀ i, arcPt slowCfg .cw g 8 RB 0 uB φ .x i = 8 / 100 * turnAt 8 0 0 (π / 4) 6 i := by
    intro i
    unfold arcPt
    rw [if_pos (by rw [ht.plane_eq]; rfl), hrd, hm, hT, hφ]
    simp [rotSign]
  rw [htot] at htm
  refine ⟨_, _, by rw [htm, List.getElem?_map, List.getElem?_range (by norm_num)]; rfl,
    by rw [htm, List.getElem?_map, List.getElem?_range (by norm_num)]; rfl, ?_⟩
  simp only [hpt]
  have t5 : turnAt 8 0 0 (π / 4) 6 5 = π / 4 := by simp [turnAt]
  have t4 : turnAt 8 0 0 (π / 4) 6 4 = Psi ((8 : ℤ) : ℝ) 5 := by
    simp [turnAt]
  rw [t5, t4]
  have hk : 0 ≤ (Gen.circular g).twoVmaxPerA slowCfg := hgood.toCircBase.k
  have up : (Gen.circular g).sendTime slowCfg (8 / 100 * (π / 4)) ≤ 2 * g.accT + g.linT :=
    warp_le_total hk hgood.toCircBase.acc hl (by positivity)
  have h0 : 0 ≤ Psi ((8 : ℤ) : ℝ) 5 := by rw [← psi0]; exact psi_le h8 (by norm_num)
  have h51 : Psi ((8 : ℤ) : ℝ) 5 ≤ g.deltaAngle := by
    have := hta.e1
    rw [hm] at this
    norm_num at this
    rw [hT]; norm_num; exact this.le
  have low := hfl.gap hl le_rfl h0 h51
  rw [hV, hρ, hrd, mul_zero] at low
  have hz : (Gen.circular g).sendTime slowCfg 0 = 0 := warp_zero hgood.toCircBase.acc
  rw [hz] at low
  rw [hA, hB] at up
  norm_num at low up h5 ⊢
  linarith

end PyCNC
