import Verif.Lemmas.ArcPts64

/-!
# The angle between start and end of an arc in binary64
-/

set_option linter.unusedSectionVars false

namespace PyCNC

open Spec

/-- `arccos` of near numbers. -/
theorem arccos_holder {x y : ℝ} (hx : |x| ≤ 1) (hy : |y| ≤ 1) (h : |x - y| ≤ 5 / 10 ^ 14) :
    |Real.arccos x - Real.arccos y| ≤ 7 / 10 ^ 7 := by
  wlog hxy : x ≤ y generalizing x y
  · rw [abs_sub_comm]
    exact this hy hx (by rwa [abs_sub_comm]) (le_of_not_ge hxy)
  obtain ⟨x1, x2⟩ := abs_le.1 hx
  obtain ⟨y1, y2⟩ := abs_le.1 hy
  have hle := Real.arccos_le_arccos hxy
  have a0 := Real.arccos_nonneg y
  have a1 := Real.arccos_le_pi x
  have hc := Real.cos_sub_cos (Real.arccos y) (Real.arccos x)
  rw [Real.cos_arccos x1 x2, Real.cos_arccos y1 y2] at hc
  rw [abs_of_nonneg (by linarith)]
  generalize Real.arccos x = θ at *
  generalize Real.arccos y = η at *
  have hpi := Real.pi_gt_three
  have hpi4 := Real.pi_lt_d2
  have e : Real.sin ((η - θ) / 2) = -Real.sin ((θ - η) / 2) := by
    rw [← Real.sin_neg]; congr 1; ring
  rw [e] at hc
  have hs : 2 / Real.pi * ((θ - η) / 2) ≤ Real.sin ((θ - η) / 2) :=
    Real.mul_le_sin (by linarith) (by linarith)
  have hm : Real.sin ((θ - η) / 2) ≤ Real.sin ((η + θ) / 2) := by
    rcases le_total ((η + θ) / 2) (Real.pi / 2) with hq | hq
    · exact Real.sin_le_sin_of_le_of_le_pi_div_two (by linarith) hq (by linarith)
    · rw [← Real.sin_pi_sub ((η + θ) / 2)]
      exact Real.sin_le_sin_of_le_of_le_pi_div_two (by linarith) (by linarith) (by linarith)
  have hu : (θ - η) / 4 ≤ Real.sin ((θ - η) / 2) := by
    refine le_trans ?_ hs
    have : 1 / 2 ≤ 2 / Real.pi := by
      rw [div_le_div_iff₀ (by norm_num) (by linarith)]; linarith
    nlinarith
  have hd : 0 ≤ (θ - η) / 4 := by linarith
  have hp : (θ - η) / 4 * ((θ - η) / 4) ≤ Real.sin ((η + θ) / 2) * Real.sin ((θ - η) / 2) :=
    mul_le_mul (hu.trans hm) hu hd (hd.trans (hu.trans hm))
  have h2 := (abs_le.1 h).1
  refine abs_le_of_sq_le_sq' ?_ (by norm_num) |>.2
  nlinarith

variable [PyRound]

/-- The exact angle. -/
theorem angle_arccos {a b φ : ℝ} (h : angle a b = .ok φ) :
    φ = if a < 0 then 2 * Real.pi - Real.arccos (b / √(a ^ 2 + b ^ 2))
      else Real.arccos (b / √(a ^ 2 + b ^ 2)) := by
  obtain ⟨s0, s1, s2, s3, s4⟩ := angle_ok h
  have hb : b / √(a ^ 2 + b ^ 2) = Real.cos φ := by
    rw [div_eq_iff s4.ne', mul_comm]; exact s3
  rw [hb]
  have hpi := Real.pi_pos
  split
  · next ha =>
    have hs : Real.sin φ < 0 := by
      rw [s2] at ha
      exact (pos_iff_neg_of_mul_neg ha).1 s4
    have hφ : Real.pi < φ := by
      by_contra hc
      exact absurd (Real.sin_nonneg_of_nonneg_of_le_pi s0 (not_lt.1 hc)) (not_le.2 hs)
    rw [← Real.cos_two_pi_sub, Real.arccos_cos (by linarith) (by linarith)]
    ring
  · next ha =>
    have hs : 0 ≤ Real.sin φ := by
      rw [s2] at ha
      exact nonneg_of_mul_nonneg_right (not_lt.1 ha) s4
    have hφ : φ ≤ Real.pi := by
      by_contra hc
      have h1 := Real.sin_neg_of_neg_of_neg_pi_lt (x := φ - 2 * Real.pi) (by linarith) (by linarith)
      rw [Real.sin_sub_two_pi] at h1
      linarith
    rw [Real.arccos_cos s0 hφ]

/-- The angle computed in binary64 is near the exact one. -/
theorem angle64_near {p xa xb φ : ℝ} {a b ψ : F64} {A B : ℤ} (h : Pt64 p a b A B)
    (hA : xa * p = A) (hB : xb * p = B) (hφ : angle xa xb = .ok φ) (hψ : angle a b = .ok ψ) :
    |ψ.1 - φ| ≤ 8 / 10 ^ 7 := by
  obtain ⟨l1, e⟩ := angle64_eq h.ne
  rw [hψ] at e
  have e := Except.ok.inj e
  have hp := h.p_pos
  have hc := h.cos_near
  have hr : xb / √(xa ^ 2 + xb ^ 2) = B / √((A : ℝ) ^ 2 + (B : ℝ) ^ 2) := by
    rw [← hA, ← hB, mul_pow, mul_pow, ← add_mul, Real.sqrt_mul (by positivity), Real.sqrt_sq hp.le,
      mul_div_mul_right _ _ hp.ne']
  have hρ := h.rho_ge
  have hle : |(B : ℝ) / √((A : ℝ) ^ 2 + (B : ℝ) ^ 2)| ≤ 1 := by
    rw [abs_div, abs_of_pos (by linarith : (0 : ℝ) < √((A : ℝ) ^ 2 + (B : ℝ) ^ 2)),
      div_le_one (by linarith)]
    exact Real.abs_le_sqrt (by nlinarith [sq_nonneg (A : ℝ)])
  have hh := arccos_holder l1 hle hc
  have hx := angle_arccos hφ
  rw [hr] at hx
  have n1 : |(PyNum.acos (cosQ a b)).1 - Real.arccos (cosQ a b).1| ≤ 4 / 10 ^ 15 := by
    rw [val_acos]
    have := fl_near (Real.arccos (cosQ a b).1)
    rw [abs_of_nonneg (Real.arccos_nonneg _)] at this
    have := Real.arccos_le_pi (cosQ a b).1
    have := Real.pi_lt_four
    linarith
  have hxa : xa < 0 ↔ A < 0 := by
    rw [← Int.cast_lt_zero (R := ℝ), ← hA]
    constructor
    · intro h1; exact mul_neg_of_neg_of_pos h1 hp
    · intro h1; exact neg_of_mul_neg_left h1 hp.le
  have ha : (a <ₚ zeroF) = true ↔ A < 0 := by
    rw [lt64_iff, val_zero]
    constructor
    · intro h1
      by_contra hc
      rcases (not_lt.1 hc).lt_or_eq with h2 | h2
      · linarith [h.a_sign.1 h2]
      · linarith [h.a_zero h2.symm]
    · exact h.a_sign.2
  have hpi := Real.pi_lt_four
  have ac := Real.arccos_le_pi (cosQ a b).1
  have ac0 := Real.arccos_nonneg (cosQ a b).1
  rw [abs_le] at hh n1 ⊢
  by_cases hneg : A < 0
  · rw [if_pos (ha.2 hneg)] at e
    rw [if_pos (hxa.2 hneg)] at hx
    have hv : ψ.1 = fl (4 * halfPi - (PyNum.acos (cosQ a b)).1) := by
      rw [e, val_sub, full64]
    have hn := fl_near (4 * halfPi - (PyNum.acos (cosQ a b)).1)
    rw [← hv] at hn
    have hp2 := abs_le.1 halfPi_near
    have hb : |4 * halfPi - (PyNum.acos (cosQ a b)).1| ≤ 16 := by
      rw [abs_le]; constructor <;> linarith
    have hn' := abs_le.1 (hn.trans (by gcongr))
    constructor <;> linarith
  · rw [if_neg (fun hx => hneg (ha.1 hx))] at e
    rw [if_neg (fun hx' => hneg (hxa.1 hx'))] at hx
    rw [e, hx]
    constructor <;> linarith

/-- The angle between start and end. -/
theorem turn64_near {φs φe : ℝ} {ψs ψe : F64} (rot : Rot) (s0 : 0 ≤ φs) (s1 : φs < 2 * Real.pi)
    (e0 : 0 ≤ φe) (e1 : φe < 2 * Real.pi)
    (hs : |ψs.1 - φs| ≤ 8 / 10 ^ 7) (he : |ψe.1 - φe| ≤ 8 / 10 ^ 7)
    (h : φs = φe ∧ ψs = ψe ∨ 1 / 10 ^ 5 ≤ |φe - φs|) :
    |(arcTurn rot ψs ψe).1 - arcTurn rot φs φe| ≤ 2 / 10 ^ 6 := by
  have hpi := Real.pi_lt_four
  have hp2 := abs_le.1 halfPi_near
  obtain ⟨s2, s3⟩ := abs_le.1 hs
  obtain ⟨e2, e3⟩ := abs_le.1 he
  have r1 : |(ψe -ₚ ψs).1 - (ψe.1 - ψs.1)| ≤ 1 / 10 ^ 14 := by
    rw [val_sub]
    have h1 := fl_near (ψe.1 - ψs.1)
    have : |ψe.1 - ψs.1| ≤ 9 := by rw [abs_le]; constructor <;> linarith
    linarith
  have hzero : ψs = ψe → (ψe -ₚ ψs).1 = 0 := fun h => by rw [val_sub, h, sub_self, fl_zero]
  have hn : |(ψe -ₚ ψs).1 - (φe - φs)| ≤ 17 / 10 ^ 7 := by
    obtain ⟨r2, r3⟩ := abs_le.1 r1
    rw [abs_le]; constructor <;> linarith
  have hD : |φe - φs| ≤ 8 := by rw [abs_le]; constructor <;> linarith
  have hcond : ((ψe -ₚ ψs <ₚ zeroF || (ψe -ₚ ψs =ₚ zeroF && rot = .cw)) : Bool) =
      ((φe -ₚ φs <ₚ zeroF || (φe -ₚ φs =ₚ zeroF && rot = .cw)) : Bool) := by
    have c1 : (ψe -ₚ ψs <ₚ zeroF) = (φe -ₚ φs <ₚ zeroF) := by
      rw [Bool.eq_iff_iff, lt64_iff, val_zero, lt_iff, zeroF_eq, sub_eq]
      rcases h with ⟨h1, h2⟩ | h1
      · rw [hzero h2, h1, sub_self]
      · obtain ⟨n1, n2⟩ := abs_le.1 hn
        rcases le_abs.1 h1 with h2 | h2 <;> constructor <;> intro h3 <;> linarith
    have c2 : (ψe -ₚ ψs =ₚ zeroF) = (φe -ₚ φs =ₚ zeroF) := by
      rw [Bool.eq_iff_iff, eq64_iff, val_zero, eq_iff, zeroF_eq, sub_eq]
      rcases h with ⟨h1, h2⟩ | h1
      · rw [hzero h2, h1, sub_self]
      · obtain ⟨n1, n2⟩ := abs_le.1 hn
        rcases le_abs.1 h1 with h2 | h2 <;> constructor <;> intro h3 <;> linarith
    rw [c1, c2]
  unfold arcTurn
  simp only [hcond]
  simp only [sub_eq, ofRat_eq, pi_eq, mul_eq, add_eq, Rat.cast_ofNat]
  have hadd : |(ψe -ₚ ψs +ₚ PyNum.ofRat 2 *ₚ PyNum.pi).1 - (φe - φs + 2 * Real.pi)| ≤ 18 / 10 ^ 7 := by
    rw [val_add, full64]
    have h1 := fl_near ((ψe -ₚ ψs).1 + 4 * halfPi)
    generalize (ψe -ₚ ψs).1 = y at *
    have h2 : |y + 4 * halfPi| ≤ 30 := by
      obtain ⟨n1, n2⟩ := abs_le.1 hn
      obtain ⟨n3, n4⟩ := abs_le.1 hD
      rw [abs_le]; constructor <;> linarith
    obtain ⟨n1, n2⟩ := abs_le.1 hn
    obtain ⟨n3, n4⟩ := abs_le.1 (h1.trans (by gcongr))
    rw [abs_le]; constructor <;> linarith
  have hsub : ∀ {x : F64} {y : ℝ}, |x.1 - y| ≤ 18 / 10 ^ 7 → |y| ≤ 20 →
      |(x -ₚ PyNum.ofRat 2 *ₚ PyNum.pi).1 - (y - 2 * Real.pi)| ≤ 2 / 10 ^ 6 := by
    intro x y h1 h2
    rw [val_sub, full64]
    have h3 := fl_near (x.1 - 4 * halfPi)
    have h4 : |x.1 - 4 * halfPi| ≤ 40 := by
      obtain ⟨n1, n2⟩ := abs_le.1 h1
      obtain ⟨n3, n4⟩ := abs_le.1 h2
      rw [abs_le]; constructor <;> linarith
    obtain ⟨n1, n2⟩ := abs_le.1 h1
    obtain ⟨n3, n4⟩ := abs_le.1 (h3.trans (by gcongr))
    rw [abs_le]; constructor <;> linarith
  have hd2 : |φe - φs + 2 * Real.pi| ≤ 20 := by
    have := Real.pi_pos
    obtain ⟨n3, n4⟩ := abs_le.1 hD
    rw [abs_le]; constructor <;> linarith
  cases rot
  · simp only [reduceCtorEq, if_false]
    split
    · exact hadd.trans (by norm_num)
    · exact hn.trans (by norm_num)
  · simp only [if_true]
    split
    · exact hsub hadd hd2
    · exact hsub (hn.trans (by norm_num)) (hD.trans (by norm_num))

end PyCNC
