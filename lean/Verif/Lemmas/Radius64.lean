import Verif.Lemmas.ArcNew
import Verif.Lemmas.Linear64

/-!
# Conversion of a radius to pulses in binary64
-/

set_option linter.unusedSectionVars false

namespace PyCNC

open Spec

variable [PyRound]

/-- `int(x)` of a number just around a natural number. -/
theorem trunc64 {x : F64} {k : ℤ} (hx : 0 ≤ x.1) (h : |x.1 - k| < 1) :
    (PyNum.truncI x = k - 1 ∨ PyNum.truncI x = k) ∧ ((k : ℝ) ≤ x.1 → PyNum.truncI x = k) := by
  obtain ⟨h1, h2⟩ := abs_lt.1 h
  have e : PyNum.truncI x = ⌊x.1⌋ := by
    change (if 0 ≤ x.1 then ⌊x.1⌋ else ⌈x.1⌉) = _
    rw [if_pos hx]
  rw [e]
  have a : k - 1 ≤ ⌊x.1⌋ := Int.le_floor.2 (by push_cast; linarith)
  have b : ⌊x.1⌋ < k + 1 := Int.floor_lt.2 (by push_cast; linarith)
  refine ⟨by omega, fun hle => ?_⟩
  have : k ≤ ⌊x.1⌋ := Int.le_floor.2 hle
  omega

/-- `radius * pulses_per_mm` for a radius of `k` steps. -/
theorem radius64 {p : ℚ} {k : ℤ} (hp : 0 < p) (hk : 0 ≤ k) (hk2 : k ≤ 10 ^ 8) :
    let x : F64 := ofInt k /ₚ PyNum.ofRat p *ₚ PyNum.ofRat p
    |x.1 - k| ≤ 1 / 10 ^ 3 ∧ 0 ≤ x.1 ∧
      (fl p = p → fl (k / p) = k / p → x.1 = k) := by
  have hP : (0 : ℝ) < p := by exact_mod_cast hp
  have hP0 : 0 < fl (p : ℝ) := fl_pos hP
  have hK : (0 : ℝ) ≤ k := by exact_mod_cast hk
  have hK2 : (k : ℝ) ≤ 10 ^ 8 := by exact_mod_cast hk2
  have hki : fl (k : ℝ) = k := fl_int k (by rw [abs_of_nonneg hk]; omega)
  have hv : (ofInt k /ₚ PyNum.ofRat p *ₚ PyNum.ofRat p : F64).1 = fl (fl (k / fl p) * fl p) := by
    rw [val_mul, val_div, val_ofInt, val_ofRat, hki]
  simp only
  rw [hv]
  refine ⟨?_, fl_nonneg (mul_nonneg (fl_nonneg (div_nonneg hK hP0.le)) hP0.le), fun h1 h2 => ?_⟩
  · generalize fl (p : ℝ) = P at hP0
    have hq : (0 : ℝ) ≤ k / P := div_nonneg hK hP0.le
    have a1 := mul_le_mul_of_nonneg_right (fl_lo hq) hP0.le
    have a2 := mul_le_mul_of_nonneg_right (fl_hi hq) hP0.le
    have e1 : (k / P - k / P * (1 / 10 ^ 15)) * P = k - k * (1 / 10 ^ 15) := by field_simp
    have e2 : (k / P + k / P * (1 / 10 ^ 15)) * P = k + k * (1 / 10 ^ 15) := by field_simp
    rw [e1] at a1
    rw [e2] at a2
    have hy : 0 ≤ fl (k / P) * P := mul_nonneg (fl_nonneg hq) hP0.le
    have b1 := fl_lo hy
    have b2 := fl_hi hy
    generalize fl (k / P) * P = y at *
    rw [abs_le]
    constructor <;> linarith
  · rw [h1, h2, div_mul_cancel₀ _ hP.ne', hki]

/-- `round(math.sqrt(sa * sa + sb * sb) * pulses_per_mm)`. -/
theorem count64 {p : ℚ} {a b : F64} (hp : 0 < p) (hp2 : p ≤ 1000) (ha : |a.1| ≤ 10 ^ 4)
    (hb : |b.1| ≤ 10 ^ 4) :
    let k := PyNum.roundI (PyNum.sqrt (a *ₚ a +ₚ b *ₚ b) *ₚ (PyNum.ofRat p : F64))
    |(k : ℝ) - √(a.1 ^ 2 + b.1 ^ 2) * p| ≤ 51 / 100 ∧ 0 ≤ k ∧ k ≤ 10 ^ 8 := by
  have hP : (0 : ℝ) < p := by exact_mod_cast hp
  have hP2 : (p : ℝ) ≤ 1000 := by exact_mod_cast hp2
  set x : F64 := PyNum.sqrt (a *ₚ a +ₚ b *ₚ b) *ₚ (PyNum.ofRat p : F64) with hx
  have hv : x.1 = fl (fl (√(fl (fl (a.1 * a.1) + fl (b.1 * b.1)))) * fl p) := by
    rw [hx, val_mul, val_sqrt, val_add, val_mul, val_mul, val_ofRat]
  set S := a.1 ^ 2 + b.1 ^ 2 with hS
  have hS0 : 0 ≤ S := by positivity
  have hS1 : S ≤ 2 * 10 ^ 8 := by
    have h1 := pow_le_pow_left₀ (abs_nonneg _) ha 2
    have h2 := pow_le_pow_left₀ (abs_nonneg _) hb 2
    rw [sq_abs] at h1 h2
    rw [hS]; linarith
  have hsum : S - S * (3 / 10 ^ 15) ≤ fl (fl (a.1 * a.1) + fl (b.1 * b.1)) ∧
      fl (fl (a.1 * a.1) + fl (b.1 * b.1)) ≤ S + S * (3 / 10 ^ 15) := by
    have qa := mul_self_nonneg a.1
    have qb := mul_self_nonneg b.1
    have a1 := fl_lo qa
    have a2 := fl_hi qa
    have b1 := fl_lo qb
    have b2 := fl_hi qb
    have c0 : 0 ≤ fl (a.1 * a.1) + fl (b.1 * b.1) := add_nonneg (fl_nonneg qa) (fl_nonneg qb)
    have c1 := fl_lo c0
    have c2 := fl_hi c0
    have e : S = a.1 * a.1 + b.1 * b.1 := by rw [hS]; ring
    rw [e]
    constructor <;> linarith
  obtain ⟨s1, s2⟩ := hsum
  set T := fl (fl (a.1 * a.1) + fl (b.1 * b.1))
  have hT0 : 0 ≤ T := by linarith
  have hroot : √S - √S * (3 / 10 ^ 15) ≤ √T ∧ √T ≤ √S + √S * (3 / 10 ^ 15) := by
    have r0 := Real.sqrt_nonneg S
    have r2 := Real.mul_self_sqrt hS0
    constructor
    · apply Real.le_sqrt_of_sq_le
      nlinarith
    · apply Real.sqrt_le_iff.2
      constructor
      · nlinarith
      · nlinarith
  obtain ⟨r1, r2⟩ := hroot
  have hr : √S ≤ 2 * 10 ^ 4 := Real.sqrt_le_iff.2 ⟨by norm_num, by linarith⟩
  have hr0 := Real.sqrt_nonneg S
  have hq0 := Real.sqrt_nonneg T
  have f1 := fl_lo hq0
  have f2 := fl_hi hq0
  have hf0 := fl_nonneg hq0
  have p1 := fl_lo hP.le
  have p2 := fl_hi hP.le
  have hp0 := fl_pos hP
  have near : |x.1 - √S * p| ≤ 1 / 1000 := by
    rw [hv]
    have g1 : |fl √T - √S| ≤ 1 / 10 ^ 9 := by rw [abs_le]; constructor <;> linarith
    have g2 : |fl (p : ℝ) - p| ≤ 1 / 10 ^ 11 := by rw [abs_le]; constructor <;> linarith
    generalize fl √T = y at *
    generalize fl (p : ℝ) = P at *
    generalize √S = s at *
    have e : y * P - s * p = (y - s) * P + s * (P - p) := by ring
    have g3 : |y * P - s * p| ≤ 1 / 10 ^ 5 := by
      rw [e]
      refine (abs_add_le _ _).trans ?_
      rw [abs_mul, abs_mul, abs_of_pos hp0, abs_of_nonneg hr0]
      have u1 : |y - s| * P ≤ 1 / 10 ^ 9 * 1001 := by gcongr; linarith
      have u2 : s * |P - p| ≤ 2 * 10 ^ 4 * (1 / 10 ^ 11) := by gcongr
      norm_num at u1 u2 ⊢
      linarith
    have hsp : s * p ≤ 2 * 10 ^ 7 := by
      calc s * p ≤ 2 * 10 ^ 4 * 1000 := by gcongr
        _ = 2 * 10 ^ 7 := by norm_num
    have hsp0 : 0 ≤ s * p := mul_nonneg hr0 hP.le
    have hyp : |y * P| ≤ 2 * 10 ^ 7 + 1 := by
      have := abs_sub_abs_le_abs_sub (y * P) (s * p)
      rw [abs_of_nonneg hsp0] at this
      linarith
    have h4 := fl_near (y * P)
    have h5 := abs_sub_le (fl (y * P)) (y * P) (s * p)
    linarith
  have hrnd := PyRound.near x.1
  have hx0 : 0 ≤ x.1 := by rw [hv]; exact fl_nonneg (mul_nonneg hf0 hp0.le)
  have hk0 : 0 ≤ PyRound.rnd x.1 := by rw [← rnd_zero]; exact rnd_mono hx0
  change |(PyRound.rnd x.1 : ℝ) - √S * p| ≤ 51 / 100 ∧ 0 ≤ PyRound.rnd x.1 ∧ PyRound.rnd x.1 ≤ 10 ^ 8
  have h6 := abs_sub_le (PyRound.rnd x.1 : ℝ) x.1 (√S * p)
  refine ⟨by linarith, hk0, ?_⟩
  have hsp : √S * p ≤ 2 * 10 ^ 7 := by
    calc √S * p ≤ 2 * 10 ^ 4 * 1000 := by gcongr
      _ = 2 * 10 ^ 7 := by norm_num
  have h7 := (abs_le.1 (show |(PyRound.rnd x.1 : ℝ) - √S * p| ≤ 51 / 100 by linarith)).2
  have : (PyRound.rnd x.1 : ℝ) ≤ 10 ^ 8 := by linarith
  exact_mod_cast this

/-- The radius of an arc in the XY plane, in pulses. -/
theorem arc_radius64 {c : Cfg} (hc : SaneCfg c) (hxy : c.ppm.x = c.ppm.y) {delta radius : V4 F64}
    {rot : Rot} {v : F64} {g : CircGen F64} (hx : |radius.x.1| ≤ 10 ^ 4) (hy : |radius.y.1| ≤ 10 ^ 4)
    (h : CircGen.new c delta radius .xy rot v = .ok g) :
    ∃ k : ℤ, |(k : ℝ) - √(radius.x.1 ^ 2 + radius.y.1 ^ 2) * c.ppm.x| ≤ 51 / 100 ∧
      (g.radiusAP = k - 1 ∨ g.radiusAP = k) ∧ g.radiusBP = g.radiusAP ∧
      (fl c.ppm.x = c.ppm.x → fl (k / c.ppm.x) = k / c.ppm.x → g.radiusAP = k) := by
  obtain ⟨_, φs, φe, maxV, q, _, _, _, _, h5⟩ := new_ok h
  obtain ⟨mV, aT, lT, rfl⟩ := times_mk h5
  have hp := hc.ppm_pos .x
  have hp2 := hc.ppm_le .x
  change 0 < c.ppm.x at hp
  change c.ppm.x ≤ 1000 at hp2
  have h0 := count64 (a := PyNum.neg radius.x) (b := PyNum.neg radius.y) hp hp2
    (by rw [val_neg, abs_neg]; exact hx) (by rw [val_neg, abs_neg]; exact hy)
  simp only at h0
  set k := PyNum.roundI (PyNum.sqrt (PyNum.neg radius.x *ₚ PyNum.neg radius.x +ₚ
    PyNum.neg radius.y *ₚ PyNum.neg radius.y) *ₚ (PyNum.ofRat c.ppm.x : F64)) with hk
  obtain ⟨k1, k2, k3⟩ := h0
  obtain ⟨r1, r2, r3⟩ := radius64 hp k2 k3
  have hm : (if c.ppm.y < c.ppm.x then c.ppm.y else c.ppm.x) = c.ppm.x := by
    rw [hxy, if_neg (lt_irrefl _)]
  have eA : (arcMk c delta radius .xy rot φs φe (planeAxes .xy maxV).2.2 maxV.e q mV aT lT).radiusAP =
      PyNum.truncI (ofInt k /ₚ PyNum.ofRat c.ppm.x *ₚ (PyNum.ofRat c.ppm.x : F64)) := by
    change PyNum.truncI (ofInt (PyNum.roundI (_ *ₚ PyNum.ofRat (if c.ppm.y < c.ppm.x then c.ppm.y else c.ppm.x)))
      /ₚ PyNum.ofRat (if c.ppm.y < c.ppm.x then c.ppm.y else c.ppm.x) *ₚ _) = _
    rw [hm]
    rfl
  have eB : (arcMk c delta radius .xy rot φs φe (planeAxes .xy maxV).2.2 maxV.e q mV aT lT).radiusBP =
      (arcMk c delta radius .xy rot φs φe (planeAxes .xy maxV).2.2 maxV.e q mV aT lT).radiusAP := by
    change PyNum.truncI (_ *ₚ PyNum.ofRat c.ppm.y) = PyNum.truncI (_ *ₚ PyNum.ofRat c.ppm.x)
    rw [hxy]
  obtain ⟨t1, t2⟩ := trunc64 r2 (lt_of_le_of_lt r1 (by norm_num))
  refine ⟨k, ?_, ?_, eB, ?_⟩
  · rw [val_neg, val_neg, neg_sq, neg_sq] at k1
    exact k1
  · rw [eA]; exact t1
  · intro a b
    rw [eA]; exact t2 (r3 a b).ge

end PyCNC
