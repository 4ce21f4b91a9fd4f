import Verif.Lemmas.Quarter64
import Mathlib.Analysis.SpecialFunctions.Trigonometric.Bounds

/-!
# The angles of points on steps in binary64
-/

set_option linter.unusedSectionVars false

namespace PyCNC

open Spec

variable [PyRound]

/-- A point whose coordinates are close to whole numbers of steps (`p` steps per mm). -/
structure Pt64 (p : ℝ) (a b : F64) (A B : ℤ) : Prop where
  p_pos : 0 < p
  nz : A ≠ 0 ∨ B ≠ 0
  size : √((A : ℝ) ^ 2 + (B : ℝ) ^ 2) ≤ 10001
  a_near : |a.1 * p - A| ≤ 1 / 10 ^ 14 * √((A : ℝ) ^ 2 + (B : ℝ) ^ 2)
  b_near : |b.1 * p - B| ≤ 1 / 10 ^ 14 * √((A : ℝ) ^ 2 + (B : ℝ) ^ 2)
  a_zero : A = 0 → a.1 = 0
  b_zero : B = 0 → b.1 = 0

/-! ## The cosine -/

/-- The hypotenuse computed in binary64. -/
theorem hyp64_near (a b : F64) :
    |(PyNum.sqrt (a *ₚ a +ₚ b *ₚ b)).1 - √(a.1 ^ 2 + b.1 ^ 2)| ≤
      √(a.1 ^ 2 + b.1 ^ 2) * (5 / 10 ^ 15) := by
  rw [val_sqrt, val_add, val_mul, val_mul]
  set S := a.1 ^ 2 + b.1 ^ 2 with hS
  have hS0 : 0 ≤ S := by positivity
  have hsum : S - S * (3 / 10 ^ 15) ≤ fl (fl (a.1 * a.1) + fl (b.1 * b.1)) ∧
      fl (fl (a.1 * a.1) + fl (b.1 * b.1)) ≤ S + S * (3 / 10 ^ 15) := by
    have qa := mul_self_nonneg a.1
    have qb := mul_self_nonneg b.1
    have a1 := fl_lo qa
    have a2 := fl_hi qa
    have b1 := fl_lo qb
    have b2 := fl_hi qb
    have c0 : 0 ≤ fl (a.1 * a.1) + fl (b.1 * b.1) := add_nonneg (fl_nonneg qa) (fl_nonneg qb)
    have c1 := fl_lo c0
    have c2 := fl_hi c0
    have e : S = a.1 * a.1 + b.1 * b.1 := by rw [hS]; ring
    rw [e]
    constructor <;> linarith
  obtain ⟨s1, s2⟩ := hsum
  set T := fl (fl (a.1 * a.1) + fl (b.1 * b.1))
  have hT0 : 0 ≤ T := by linarith
  have r0 := Real.sqrt_nonneg S
  have r2 := Real.mul_self_sqrt hS0
  have l1 : √S - √S * (3 / 10 ^ 15) ≤ √T := by
    apply Real.le_sqrt_of_sq_le
    nlinarith
  have l2 : √T ≤ √S + √S * (3 / 10 ^ 15) := by
    apply Real.sqrt_le_iff.2
    constructor
    · nlinarith
    · nlinarith
  have hq0 := Real.sqrt_nonneg T
  have f1 := fl_lo hq0
  have f2 := fl_hi hq0
  rw [abs_le]
  constructor <;> linarith

/-- Distances of close points. -/
theorem norm_near {a b A B η : ℝ} (h0 : 0 ≤ η) (h1 : η ≤ 1 / 10)
    (ha : |a - A| ≤ η * √(A ^ 2 + B ^ 2)) (hb : |b - B| ≤ η * √(A ^ 2 + B ^ 2)) :
    |√(a ^ 2 + b ^ 2) - √(A ^ 2 + B ^ 2)| ≤ 2 * η * √(A ^ 2 + B ^ 2) := by
  have hρ0 := Real.sqrt_nonneg (A ^ 2 + B ^ 2)
  have hρ2 : √(A ^ 2 + B ^ 2) ^ 2 = A ^ 2 + B ^ 2 := Real.sq_sqrt (by positivity)
  generalize √(A ^ 2 + B ^ 2) = ρ at *
  have hsum : |A| + |B| ≤ 3 / 2 * ρ := by
    refine abs_le_of_sq_le_sq' ?_ (by positivity) |>.2
    have := sq_abs A
    have := sq_abs B
    nlinarith [sq_nonneg (|A| - |B|)]
  set u := a - A with hu
  set w := b - B with hw
  have e : a ^ 2 + b ^ 2 = ρ ^ 2 + 2 * (A * u + B * w) + (u ^ 2 + w ^ 2) := by
    rw [hρ2, hu, hw]; ring
  have hx : |A * u + B * w| ≤ 3 / 2 * η * ρ ^ 2 := by
    have h2 : |A * u| ≤ |A| * (η * ρ) := by rw [abs_mul]; gcongr
    have h3 : |B * w| ≤ |B| * (η * ρ) := by rw [abs_mul]; gcongr
    have h4 := abs_add_le (A * u) (B * w)
    have h5 : (|A| + |B|) * (η * ρ) ≤ 3 / 2 * ρ * (η * ρ) := by gcongr
    nlinarith
  have hu2 : u ^ 2 ≤ (η * ρ) ^ 2 := sq_le_sq' (abs_le.1 ha).1 (abs_le.1 ha).2
  have hw2 : w ^ 2 ≤ (η * ρ) ^ 2 := sq_le_sq' (abs_le.1 hb).1 (abs_le.1 hb).2
  obtain ⟨x1, x2⟩ := abs_le.1 hx
  have q := mul_nonneg h0 (sq_nonneg ρ)
  have q2 : η ^ 2 * ρ ^ 2 ≤ 1 / 10 * (η * ρ ^ 2) := by nlinarith
  rw [e, abs_le]
  constructor
  · have : (1 - 2 * η) * ρ ≤ √(ρ ^ 2 + 2 * (A * u + B * w) + (u ^ 2 + w ^ 2)) := by
      apply Real.le_sqrt_of_sq_le
      nlinarith [sq_nonneg u, sq_nonneg w]
    linarith
  · have : √(ρ ^ 2 + 2 * (A * u + B * w) + (u ^ 2 + w ^ 2)) ≤ (1 + 2 * η) * ρ := by
      apply Real.sqrt_le_iff.2
      constructor
      · positivity
      · nlinarith [sq_nonneg u, sq_nonneg w]
    linarith

/-- The quotient whose `acos` is taken. -/
noncomputable def cosQ (a b : F64) : F64 := b /ₚ PyNum.sqrt (a *ₚ a +ₚ b *ₚ b)

section Point

variable {p : ℝ} {a b : F64} {A B : ℤ}

theorem Pt64.rho_ge (h : Pt64 p a b A B) : 1 ≤ √((A : ℝ) ^ 2 + (B : ℝ) ^ 2) := by
  apply Real.le_sqrt_of_sq_le
  have h1 : 1 ≤ A ^ 2 + B ^ 2 := by
    rcases h.nz with h | h
    · have := sq_nonneg B; have : 0 < A ^ 2 := by positivity
      omega
    · have := sq_nonneg A; have : 0 < B ^ 2 := by positivity
      omega
  have : (1 : ℝ) ≤ (A : ℝ) ^ 2 + (B : ℝ) ^ 2 := by exact_mod_cast h1
  linarith

theorem near_sign {x p ρ : ℝ} {A : ℤ} (hp : 0 < p) (hρ : ρ ≤ 10001)
    (h : |x * p - A| ≤ 1 / 10 ^ 14 * ρ) : (0 < A → 0 < x) ∧ (A < 0 → x < 0) := by
  obtain ⟨h1, h2⟩ := abs_le.1 h
  constructor
  · intro hA
    have : (1 : ℝ) ≤ A := by exact_mod_cast hA
    have : 0 < x * p := by linarith
    exact (pos_iff_pos_of_mul_pos this).2 hp
  · intro hA
    have : (A : ℝ) ≤ -1 := by exact_mod_cast (by omega : A ≤ -1)
    have : x * p < 0 := by linarith
    by_contra hc
    have := mul_nonneg (not_lt.1 hc) hp.le
    linarith

theorem Pt64.a_sign (h : Pt64 p a b A B) : (0 < A → 0 < a.1) ∧ (A < 0 → a.1 < 0) :=
  near_sign h.p_pos h.size h.a_near

theorem Pt64.b_sign (h : Pt64 p a b A B) : (0 < B → 0 < b.1) ∧ (B < 0 → b.1 < 0) :=
  near_sign h.p_pos h.size h.b_near

theorem Pt64.ne (h : Pt64 p a b A B) : a.1 ≠ 0 ∨ b.1 ≠ 0 := by
  rcases h.nz with hz | hz
  · left
    rcases lt_or_gt_of_ne hz with h1 | h1
    · exact (h.a_sign.2 h1).ne
    · exact (h.a_sign.1 h1).ne'
  · right
    rcases lt_or_gt_of_ne hz with h1 | h1
    · exact (h.b_sign.2 h1).ne
    · exact (h.b_sign.1 h1).ne'

theorem Pt64.cos_near (h : Pt64 p a b A B) :
    |(cosQ a b).1 - B / √((A : ℝ) ^ 2 + (B : ℝ) ^ 2)| ≤ 5 / 10 ^ 14 := by
  have hρ1 := h.rho_ge
  have hn := norm_near (by norm_num) (by norm_num) h.a_near h.b_near
  have hy := hyp64_near a b
  have hB : |(B : ℝ)| ≤ √((A : ℝ) ^ 2 + (B : ℝ) ^ 2) := Real.abs_le_sqrt (by nlinarith [sq_nonneg (A : ℝ)])
  have hp := h.p_pos
  have hb := h.b_near
  have es : √((a.1 * p) ^ 2 + (b.1 * p) ^ 2) = √(a.1 ^ 2 + b.1 ^ 2) * p := by
    rw [show (a.1 * p) ^ 2 + (b.1 * p) ^ 2 = (a.1 ^ 2 + b.1 ^ 2) * p ^ 2 by ring,
      Real.sqrt_mul (by positivity), Real.sqrt_sq hp.le]
  rw [es] at hn
  unfold cosQ
  rw [val_div]
  generalize (PyNum.sqrt (a *ₚ a +ₚ b *ₚ b)).1 = y at *
  generalize √((A : ℝ) ^ 2 + (B : ℝ) ^ 2) = ρ at *
  have hr0 := Real.sqrt_nonneg (a.1 ^ 2 + b.1 ^ 2)
  generalize √(a.1 ^ 2 + b.1 ^ 2) = r at *
  have hyp : |y * p - ρ| ≤ 26 / 10 ^ 15 * ρ := by
    have h1 : |y * p - r * p| ≤ r * p * (5 / 10 ^ 15) := by
      rw [← sub_mul, abs_mul, abs_of_pos hp]
      nlinarith
    have h2 := abs_sub_le (y * p) (r * p) ρ
    have h3 := (abs_le.1 hn).2
    linarith
  have hH : 0 < y * p := by
    have := (abs_le.1 hyp).1
    linarith
  have hq : |b.1 / y - B / ρ| ≤ 4 / 10 ^ 14 := by
    have e : b.1 / y - B / ρ = (b.1 * p * ρ - B * (y * p)) / (y * p * ρ) := by
      have : y ≠ 0 := by rintro rfl; simp at hH
      field_simp
    rw [e, abs_div, abs_of_pos (by positivity : 0 < y * p * ρ), div_le_iff₀ (by positivity)]
    have e2 : b.1 * p * ρ - B * (y * p) = (b.1 * p - B) * ρ + B * (ρ - y * p) := by ring
    rw [e2]
    refine (abs_add_le _ _).trans ?_
    rw [abs_mul, abs_mul, abs_of_pos (by linarith : 0 < ρ), abs_sub_comm ρ]
    have u1 : |b.1 * p - B| * ρ ≤ 1 / 10 ^ 14 * ρ * ρ := by gcongr
    have u2 : |(B : ℝ)| * |y * p - ρ| ≤ ρ * (26 / 10 ^ 15 * ρ) := by gcongr
    have u3 : (1 - 26 / 10 ^ 15) * ρ ≤ y * p := by
      have := (abs_le.1 hyp).1
      linarith
    have u4 : (1 - 26 / 10 ^ 15) * ρ * ρ ≤ y * p * ρ := by gcongr
    nlinarith
  have h5 := fl_near (b.1 / y)
  have h6 : |B / ρ| ≤ 1 := by
    rw [abs_div, abs_of_pos (by linarith : 0 < ρ), div_le_one (by linarith)]
    exact hB
  have h7 := abs_sub_abs_le_abs_sub (b.1 / y) (B / ρ)
  have h8 := abs_sub_le (fl (b.1 / y)) (b.1 / y) (B / ρ)
  linarith

end Point

/-- The value of `__angle`. -/
theorem angle64_eq {a b : F64} (h : a.1 ≠ 0 ∨ b.1 ≠ 0) : |(cosQ a b).1| ≤ 1 ∧
    angle a b = .ok (if a <ₚ zeroF then PyNum.ofRat 2 *ₚ PyNum.pi -ₚ PyNum.acos (cosQ a b)
      else PyNum.acos (cosQ a b)) := by
  have h1 : |b.1| ≤ (PyNum.sqrt (a *ₚ a +ₚ b *ₚ b)).1 := hypot_ge b.2
  have h2 : |a.1| ≤ (PyNum.sqrt (a *ₚ a +ₚ b *ₚ b)).1 := by
    have := hypot_ge (a := b.1) a.2
    rwa [add_comm] at this
  have h0 : 0 < (PyNum.sqrt (a *ₚ a +ₚ b *ₚ b)).1 := by
    rcases h with h | h
    · exact (abs_pos.2 h).trans_le h2
    · exact (abs_pos.2 h).trans_le h1
  have hq : |(cosQ a b).1| ≤ 1 := by
    unfold cosQ
    rw [val_div]
    have h3 : |b.1 / (PyNum.sqrt (a *ₚ a +ₚ b *ₚ b)).1| ≤ 1 := by
      rw [abs_div, abs_of_pos h0, div_le_one h0]; exact h1
    obtain ⟨h4, h5⟩ := abs_le.1 h3
    exact abs_le.2 ⟨le_fl_of_le (fl_neg_rep fl_one) h4, fl_le_of_le fl_one h5⟩
  refine ⟨hq, ?_⟩
  unfold angle
  rw [pdiv64_ok h0.ne']
  change (pacos (cosQ a b) >>= _) = _
  rw [pacos64_ok hq]
  rfl

/-! ## Quarters -/

theorem arccos_mid {x : ℝ} (h1 : 9 / 10 ^ 5 ≤ x) (h2 : x ≤ 1 - 4 / 10 ^ 9) :
    2 / 10 ^ 6 ≤ Real.arccos x ∧ Real.arccos x ≤ Real.pi / 2 - 2 / 10 ^ 6 := by
  have hpi := Real.pi_gt_three
  constructor
  · rw [← Real.arccos_cos (x := 2 / 10 ^ 6) (by norm_num) (by linarith)]
    refine Real.arccos_le_arccos ?_
    have := Real.one_sub_sq_div_two_le_cos (x := 2 / 10 ^ 6)
    linarith
  · rw [← Real.arccos_cos (x := Real.pi / 2 - 2 / 10 ^ 6) (by linarith) (by linarith)]
    refine Real.arccos_le_arccos ?_
    rw [Real.cos_pi_div_two_sub]
    have := Real.sin_le (x := 2 / 10 ^ 6) (by norm_num)
    linarith

/-- The cosine of a point that is on no axis. -/
theorem cos_mid {A B : ℤ} (hA : A ≠ 0) (hB : 0 < B) (hs : √((A : ℝ) ^ 2 + (B : ℝ) ^ 2) ≤ 10001) :
    99 / 10 ^ 6 ≤ B / √((A : ℝ) ^ 2 + (B : ℝ) ^ 2) ∧
      B / √((A : ℝ) ^ 2 + (B : ℝ) ^ 2) ≤ 1 - 49 / 10 ^ 10 := by
  have hA1 : (1 : ℝ) ≤ (A : ℝ) ^ 2 := by
    have : 0 < A ^ 2 := by positivity
    exact_mod_cast this
  have hB1 : (1 : ℝ) ≤ B := by exact_mod_cast hB
  have h2 : √((A : ℝ) ^ 2 + (B : ℝ) ^ 2) ^ 2 = (A : ℝ) ^ 2 + (B : ℝ) ^ 2 := Real.sq_sqrt (by positivity)
  have h0 : 0 < √((A : ℝ) ^ 2 + (B : ℝ) ^ 2) := Real.sqrt_pos.2 (by positivity)
  generalize √((A : ℝ) ^ 2 + (B : ℝ) ^ 2) = ρ at *
  constructor
  · rw [le_div_iff₀ h0]; linarith
  · rw [div_le_iff₀ h0]
    refine abs_le_of_sq_le_sq' ?_ (by nlinarith) |>.2
    nlinarith

theorem fl_pi_half : fl (Real.pi / 2) = halfPi := by
  have h1 := Real.pi_gt_d20
  have h2 := Real.pi_lt_d20
  have h0 := Real.pi_pos
  have := fl_val (x := Real.pi / 2) (k := -52) (m := 7074237752028440)
    (by rw [abs_of_pos (by linarith)]; norm_num at h1 ⊢; linarith)
    (by rw [abs_of_pos (by linarith)]; norm_num at h2 ⊢; linarith)
    (by rw [abs_lt]; constructor <;> norm_num at h1 h2 ⊢ <;> linarith)
  rw [this]
  unfold halfPi
  norm_num

/-- The computed `acos` of a number that is away from 0 and 1. -/
theorem acos64_mid {x : F64} (h1 : 9 / 10 ^ 5 ≤ |x.1|) (h2 : |x.1| ≤ 1 - 4 / 10 ^ 9) :
    (0 < x.1 → 11 / 10 ^ 7 ≤ (PyNum.acos x).1 ∧ (PyNum.acos x).1 ≤ halfPi - 11 / 10 ^ 7) ∧
    (x.1 < 0 → halfPi + 11 / 10 ^ 7 ≤ (PyNum.acos x).1 ∧
      (PyNum.acos x).1 ≤ 2 * halfPi - 11 / 10 ^ 7) := by
  have hh := abs_le.1 halfPi_near
  have hp := Real.pi_lt_four
  rw [val_acos]
  have hn := fl_near (Real.arccos x.1)
  rw [abs_of_nonneg (Real.arccos_nonneg _)] at hn
  have hle := Real.arccos_le_pi x.1
  obtain ⟨n1, n2⟩ := abs_le.1 hn
  constructor
  · intro h0
    rw [abs_of_pos h0] at h1 h2
    obtain ⟨a1, a2⟩ := arccos_mid h1 h2
    constructor <;> linarith
  · intro h0
    rw [abs_of_neg h0] at h1 h2
    obtain ⟨a1, a2⟩ := arccos_mid h1 h2
    rw [Real.arccos_neg] at a1 a2
    constructor <;> linarith

/-- The quarter of a point on steps. -/
theorem quart64 {p : ℝ} {a b : F64} {A B q : ℤ} (h : Pt64 p a b A B) (hs : Signs q A B) :
    ∃ φ : F64, angle a b = .ok φ ∧ Quart q A B φ.1 := by
  obtain ⟨_, he⟩ := angle64_eq h.ne
  refine ⟨_, he, ?_⟩
  have hz := h.size
  have hc := h.cos_near
  have l := halfPi_lo
  -- the points on the axes
  have axisA : A = 0 → (cosQ a b).1 = if 0 < B then 1 else -1 := by
    intro hA
    have ha := h.a_zero hA
    have hB : B ≠ 0 := h.nz.resolve_left (by simpa using hA)
    have e : (PyNum.sqrt (a *ₚ a +ₚ b *ₚ b)).1 = |b.1| := by
      rw [val_sqrt, val_add, val_mul, val_mul, ha, mul_zero, fl_zero, zero_add, fl_idem, fl_sqrt_sq b.2]
    unfold cosQ
    rw [val_div, e]
    split
    · next h1 =>
      have := h.b_sign.1 h1
      rw [abs_of_pos this, div_self this.ne', fl_one]
    · next h1 =>
      have := h.b_sign.2 (by omega)
      rw [abs_of_neg this, div_neg, div_self this.ne, fl_neg_rep fl_one]
  have axisB : B = 0 → (cosQ a b).1 = 0 := by
    intro hB
    unfold cosQ
    rw [val_div, h.b_zero hB, zero_div, fl_zero]
  have neg_iff : (a <ₚ zeroF) = true ↔ A < 0 := by
    rw [lt64_iff, val_zero]
    constructor
    · intro h1
      by_contra hc
      rcases (not_lt.1 hc).lt_or_eq with h2 | h2
      · exact absurd (h.a_sign.1 h2) (by linarith)
      · exact absurd (h.a_zero h2.symm) h1.ne
    · exact h.a_sign.2
  have fl3 : fl (3 * halfPi) = 3 * halfPi := by
    have := fl_halfPi 3 (by norm_num) (by norm_num)
    exact_mod_cast this
  -- away from the axes
  have mid : A ≠ 0 → B ≠ 0 →
      (0 < B → 11 / 10 ^ 7 ≤ (PyNum.acos (cosQ a b)).1 ∧
        (PyNum.acos (cosQ a b)).1 ≤ halfPi - 11 / 10 ^ 7) ∧
      (B < 0 → halfPi + 11 / 10 ^ 7 ≤ (PyNum.acos (cosQ a b)).1 ∧
        (PyNum.acos (cosQ a b)).1 ≤ 2 * halfPi - 11 / 10 ^ 7) := by
    intro hA hB
    obtain ⟨c1, c2⟩ := abs_le.1 hc
    constructor
    · intro hB
      obtain ⟨m1, m2⟩ := cos_mid hA hB hz
      have h0 : 0 < (cosQ a b).1 := by linarith
      have := (acos64_mid (x := cosQ a b) (by rw [abs_of_pos h0]; linarith)
        (by rw [abs_of_pos h0]; linarith)).1 h0
      exact this
    · intro hB
      obtain ⟨m1, m2⟩ := cos_mid (B := -B) hA (by omega) (by push_cast; rw [neg_sq]; exact hz)
      push_cast at m1 m2
      rw [neg_sq, neg_div] at m1 m2
      have h0 : (cosQ a b).1 < 0 := by linarith
      exact (acos64_mid (x := cosQ a b) (by rw [abs_of_neg h0]; linarith)
        (by rw [abs_of_neg h0]; linarith)).2 h0
  have sub : ∀ y : F64, 0 ≤ y.1 → y.1 ≤ 4 * halfPi →
      |(PyNum.ofRat 2 *ₚ PyNum.pi -ₚ y).1 - (4 * halfPi - y.1)| ≤ 1 / 10 ^ 10 := by
    intro y h1 h2
    rw [val_sub, full64]
    have := fl_near (4 * halfPi - y.1)
    rw [abs_of_nonneg (by linarith : 0 ≤ 4 * halfPi - y.1)] at this
    have := halfPi_hi
    linarith
  generalize hcq : PyNum.acos (cosQ a b) = y at *
  have hy : y.1 = fl (Real.arccos (cosQ a b).1) := by rw [← hcq, val_acos]
  refine ⟨?_, ?_, ?_⟩
  · intro hb
    by_cases hA : A = 0
    · rw [if_neg (by rw [neg_iff]; omega), hy, axisA hA]
      rcases hs with ⟨rfl, s1, s2⟩ | ⟨rfl, s1, s2⟩ | ⟨rfl, s1, s2⟩ | ⟨rfl, s1, s2⟩
      · rw [if_pos s2, Real.arccos_one, fl_zero]; simp
      · omega
      · rw [if_neg (by omega), Real.arccos_neg_one, pi64]; norm_num
      · omega
    · have hB := hb.resolve_left hA
      have hy1 : y.1 = halfPi := by rw [hy, axisB hB, Real.arccos_zero, fl_pi_half]
      rcases hs with ⟨rfl, s1, s2⟩ | ⟨rfl, s1, s2⟩ | ⟨rfl, s1, s2⟩ | ⟨rfl, s1, s2⟩
      · omega
      · rw [if_neg (by rw [neg_iff]; omega), hy1]; norm_num
      · omega
      · rw [if_pos (by rw [neg_iff]; omega), val_sub, full64, hy1,
          show 4 * halfPi - halfPi = 3 * halfPi by ring, fl3]
        norm_num
  all_goals
    intro hA hB
    obtain ⟨m1, m2⟩ := mid hA hB
    rcases hs with ⟨rfl, s1, s2⟩ | ⟨rfl, s1, s2⟩ | ⟨rfl, s1, s2⟩ | ⟨rfl, s1, s2⟩
    · rw [if_neg (by rw [neg_iff]; omega)]
      obtain ⟨k1, k2⟩ := m1 s2
      push_cast; linarith
    · rw [if_neg (by rw [neg_iff]; omega)]
      obtain ⟨k1, k2⟩ := m2 (by omega)
      push_cast; linarith
    · rw [if_pos (by rw [neg_iff]; omega)]
      obtain ⟨k1, k2⟩ := m2 (by omega)
      obtain ⟨j1, j2⟩ := abs_le.1 (sub y (by linarith) (by linarith))
      push_cast; linarith
    · rw [if_pos (by rw [neg_iff]; omega)]
      obtain ⟨k1, k2⟩ := m1 (by omega)
      obtain ⟨j1, j2⟩ := abs_le.1 (sub y (by linarith) (by linarith))
      push_cast; linarith

end PyCNC
