import Verif.Lemmas.Iter64
import Verif.Lemmas.Radius64
import Verif.Spec.Arc64

/-!
# Coordinates of arcs in binary64 and their numbers of steps
-/

set_option linter.unusedSectionVars false

namespace PyCNC

open Spec

variable [PyRound]

theorem of_on_step {x p : ℝ} {n : ℤ} (hp : 0 < p) (hx : x * p = n) :
    |(F64.of x).1 * p - n| ≤ |(n : ℝ)| * (1 / 10 ^ 15) := by
  have h := fl_near x
  have e : (F64.of x).1 * p - n = (fl x - x) * p := by rw [← hx, sub_mul]; rfl
  rw [e, abs_mul, abs_of_pos hp, ← hx, abs_mul, abs_of_pos hp]
  calc |fl x - x| * p ≤ |x| * (1 / 10 ^ 15) * p := by gcongr
    _ = |x| * p * (1 / 10 ^ 15) := by ring

/-- The start of an arc. -/
theorem pt_start {x y p : ℝ} {A B : ℤ} (hp : 0 < p) (hx : x * p = (-A : ℤ)) (hy : y * p = (-B : ℤ))
    (nz : A ≠ 0 ∨ B ≠ 0) (size : √((A : ℝ) ^ 2 + (B : ℝ) ^ 2) ≤ 10001) :
    Pt64 p (PyNum.neg (F64.of x)) (PyNum.neg (F64.of y)) A B := by
  have hA : |(A : ℝ)| ≤ √((A : ℝ) ^ 2 + (B : ℝ) ^ 2) :=
    Real.abs_le_sqrt (by nlinarith [sq_nonneg (B : ℝ)])
  have hB : |(B : ℝ)| ≤ √((A : ℝ) ^ 2 + (B : ℝ) ^ 2) :=
    Real.abs_le_sqrt (by nlinarith [sq_nonneg (A : ℝ)])
  have near : ∀ {x ρ : ℝ} {A : ℤ}, x * p = (-A : ℤ) → |(A : ℝ)| ≤ ρ →
      |(PyNum.neg (F64.of x)).1 * p - A| ≤ 1 / 10 ^ 14 * ρ := by
    intro x ρ A h1 h2
    have h := of_on_step hp h1
    have e : (PyNum.neg (F64.of x)).1 * p - A = -((F64.of x).1 * p - ((-A : ℤ) : ℝ)) := by
      rw [val_neg]; push_cast; ring
    rw [e, abs_neg]
    push_cast at h ⊢
    rw [abs_neg] at h
    have := abs_nonneg (A : ℝ)
    linarith
  have zero : ∀ {x : ℝ} {A : ℤ}, x * p = (-A : ℤ) → A = 0 → (PyNum.neg (F64.of x)).1 = 0 := by
    intro x A h1 h2
    have : x = 0 := by
      rw [h2] at h1
      simpa [hp.ne'] using h1
    rw [val_neg, this]
    change -fl 0 = 0
    rw [fl_zero, neg_zero]
  exact ⟨hp, nz, size, near hx hA, near hy hB, zero hx, zero hy⟩

/-- One coordinate of the end of an arc. -/
theorem end_on_step {x d p ρ : ℝ} {A E : ℤ} (hp : 0 < p) (hx : x * p = (-A : ℤ))
    (hd : d * p = (E - A : ℤ)) (hA : |(A : ℝ)| ≤ 2 * ρ) (hE : |(E : ℝ)| ≤ ρ) :
    |(PyNum.neg (F64.of x) +ₚ F64.of d).1 * p - E| ≤ 1 / 10 ^ 14 * ρ ∧
    (E = 0 → (PyNum.neg (F64.of x) +ₚ F64.of d).1 = 0) ∧
    (E = A → PyNum.neg (F64.of x) +ₚ F64.of d = PyNum.neg (F64.of x)) := by
  have hv : (PyNum.neg (F64.of x) +ₚ F64.of d).1 = fl (-fl x + fl d) := by
    rw [val_add, val_neg]; rfl
  refine ⟨?_, fun h0 => ?_, fun h0 => ?_⟩
  · have h1 := of_on_step hp hx
    have h2 := of_on_step hp hd
    have h3 := fl_near (-fl x + fl d)
    change |fl x * p - _| ≤ _ at h1
    change |fl d * p - _| ≤ _ at h2
    rw [hv]
    have n1 : |((-A : ℤ) : ℝ)| ≤ 2 * ρ := by push_cast; rw [abs_neg]; exact hA
    have n2 : |((E - A : ℤ) : ℝ)| ≤ 3 * ρ := by
      push_cast
      have := abs_sub (E : ℝ) A
      linarith
    have n3 : ((E - A : ℤ) : ℝ) - ((-A : ℤ) : ℝ) = E := by push_cast; ring
    generalize ((-A : ℤ) : ℝ) = a at *
    generalize ((E - A : ℤ) : ℝ) = b at *
    have h4 := mul_le_mul_of_nonneg_right h3 hp.le
    rw [← abs_of_pos hp, ← abs_mul, mul_right_comm, ← abs_mul, sub_mul] at h4
    have e : (-fl x + fl d) * p = fl d * p - fl x * p := by ring
    rw [e] at h4
    generalize fl (-fl x + fl d) * p = z at *
    generalize fl x * p = u at *
    generalize fl d * p = w at *
    obtain ⟨a1, a2⟩ := abs_le.1 h1
    obtain ⟨b1, b2⟩ := abs_le.1 h2
    have h5 : |w - u| ≤ 2 * ρ := by
      rw [abs_le]
      obtain ⟨c1, c2⟩ := abs_le.1 hE
      constructor <;> linarith
    obtain ⟨c1, c2⟩ := abs_le.1 h4
    rw [abs_le]
    constructor <;> linarith
  · have : d = x := by
      have : d * p = x * p := by rw [hx, hd, h0]; simp
      exact mul_right_cancel₀ hp.ne' this
    rw [hv, this, neg_add_cancel, fl_zero]
  · have : d = 0 := by
      rw [h0] at hd
      simpa [hp.ne'] using hd
    apply ext64
    rw [hv, this, fl_zero, add_zero, val_neg, fl_neg, fl_idem]
    rfl

/-- The end of an arc. -/
theorem pt_end {x y d e p : ℝ} {A B EA EB : ℤ} (hp : 0 < p) (hx : x * p = (-A : ℤ))
    (hy : y * p = (-B : ℤ)) (hd : d * p = (EA - A : ℤ)) (he : e * p = (EB - B : ℤ))
    (nz : EA ≠ 0 ∨ EB ≠ 0) (size : √((EA : ℝ) ^ 2 + (EB : ℝ) ^ 2) ≤ 10001)
    (hr : √((A : ℝ) ^ 2 + (B : ℝ) ^ 2) ≤ 2 * √((EA : ℝ) ^ 2 + (EB : ℝ) ^ 2)) :
    Pt64 p (PyNum.neg (F64.of x) +ₚ F64.of d) (PyNum.neg (F64.of y) +ₚ F64.of e) EA EB := by
  have hA : |(A : ℝ)| ≤ √((A : ℝ) ^ 2 + (B : ℝ) ^ 2) :=
    Real.abs_le_sqrt (by nlinarith [sq_nonneg (B : ℝ)])
  have hB : |(B : ℝ)| ≤ √((A : ℝ) ^ 2 + (B : ℝ) ^ 2) :=
    Real.abs_le_sqrt (by nlinarith [sq_nonneg (A : ℝ)])
  have hEA : |(EA : ℝ)| ≤ √((EA : ℝ) ^ 2 + (EB : ℝ) ^ 2) :=
    Real.abs_le_sqrt (by nlinarith [sq_nonneg (EB : ℝ)])
  have hEB : |(EB : ℝ)| ≤ √((EA : ℝ) ^ 2 + (EB : ℝ) ^ 2) :=
    Real.abs_le_sqrt (by nlinarith [sq_nonneg (EA : ℝ)])
  obtain ⟨a1, a2, -⟩ := end_on_step hp hx hd (hA.trans hr) hEA
  obtain ⟨b1, b2, -⟩ := end_on_step hp hy he (hB.trans hr) hEB
  exact ⟨hp, nz, size, a1, b1, a2, b2⟩

/-- `round(x * pulses_per_mm)`. -/
theorem round_near64 {x : F64} {p : ℚ} {N : ℤ} (hfp : fl p = p) (hN : |(N : ℝ)| ≤ 10 ^ 5)
    (h : |x.1 * p - N| ≤ 1 / 10 ^ 8) : PyNum.roundI (x *ₚ PyNum.ofRat p) = N := by
  change PyRound.rnd (fl (x.1 * fl p)) = N
  rw [hfp]
  apply rnd_unique
  have h1 := fl_near (x.1 * p)
  have h2 := abs_sub_abs_le_abs_sub (x.1 * (p : ℝ)) N
  have h3 := abs_sub_le (fl (x.1 * p)) (x.1 * p) N
  have h4 : |x.1 * (p : ℝ)| * (1 / 10 ^ 15) ≤ (10 ^ 5 + 1) * (1 / 10 ^ 15) := by
    gcongr; linarith
  norm_num at h4
  linarith

theorem abs_near64 {x : F64} {p : ℚ} {N : ℤ} {ε : ℝ} (hp : 0 < (p : ℝ)) (h : |x.1 * p - N| ≤ ε) :
    |(PyNum.abs x).1 * p - (|N| : ℤ)| ≤ ε := by
  have e : (PyNum.abs x).1 * (p : ℝ) = |x.1 * p| := by rw [val_abs, abs_mul, abs_of_pos hp]
  rw [e]
  push_cast
  exact (abs_abs_sub_abs_le_abs_sub _ _).trans h

theorem sub_near64 {x y : F64} {p : ℚ} {N M : ℤ} (hp : 0 < (p : ℝ)) (hN : |(N : ℝ)| ≤ 20000)
    (hM : |(M : ℝ)| ≤ 20000) (hx : |x.1 * p - N| ≤ 1 / 10 ^ 9) (hy : |y.1 * p - M| ≤ 1 / 10 ^ 9) :
    |(x -ₚ y).1 * p - (N - M : ℤ)| ≤ 1 / 10 ^ 8 := by
  have h1 := mul_le_mul_of_nonneg_right (fl_near (x.1 - y.1)) hp.le
  rw [← abs_of_pos hp, ← abs_mul, mul_right_comm, ← abs_mul, sub_mul, sub_mul] at h1
  rw [val_sub]
  push_cast
  generalize fl (x.1 - y.1) * (p : ℝ) = z at *
  generalize x.1 * (p : ℝ) = u at *
  generalize y.1 * (p : ℝ) = w at *
  have e : |u - w| ≤ 50000 := by
    rw [abs_le] at *
    constructor <;> linarith
  have e2 : |u - w| * (1 / 10 ^ 15) ≤ 50000 * (1 / 10 ^ 15) := by gcongr
  rw [abs_le] at *
  norm_num at *
  constructor <;> linarith

/-- Square roots of integers stay away from the middle between two integers. -/
theorem rnd_sqrt {N : ℤ} {x : ℝ} (h0 : 0 ≤ N) (hs : √(N : ℝ) ≤ 10001)
    (hx : |x - √(N : ℝ)| ≤ 1 / 10 ^ 6) : PyRound.rnd x = PyRound.rnd √(N : ℝ) := by
  have h0' : (0 : ℝ) ≤ N := by exact_mod_cast h0
  have hr0 := Real.sqrt_nonneg (N : ℝ)
  have hr2 := Real.sq_sqrt h0'
  have hn := abs_le.1 (PyRound.near √(N : ℝ))
  set R := PyRound.rnd √(N : ℝ) with hR
  have hR0 : 0 ≤ R := by rw [hR, ← rnd_zero]; exact rnd_mono hr0
  have hR0' : (0 : ℝ) ≤ R := by exact_mod_cast hR0
  apply rnd_unique
  generalize √(N : ℝ) = r at *
  obtain ⟨n1, n2⟩ := hn
  obtain ⟨x1, x2⟩ := abs_le.1 hx
  have hRl : (R : ℝ) ≤ 10002 := by linarith
  -- upper side
  have up : r ≤ R + 1 / 2 - 1 / 10 ^ 5 := by
    have h1 : N ≤ R ^ 2 + R := by
      have : (N : ℝ) < ((R ^ 2 + R + 1 : ℤ) : ℝ) := by
        push_cast
        nlinarith
      have : N < R ^ 2 + R + 1 := by exact_mod_cast this
      omega
    have h1' : (N : ℝ) ≤ R ^ 2 + R := by exact_mod_cast h1
    by_contra hc
    push Not at hc
    nlinarith
  have lo : R - 1 / 2 + 1 / 10 ^ 5 ≤ r := by
    rcases eq_or_lt_of_le hR0 with h | h
    · rw [← h]; push_cast; linarith
    have hR1 : (1 : ℝ) ≤ R := by exact_mod_cast h
    have h1 : R ^ 2 - R + 1 ≤ N := by
      have : ((R ^ 2 - R : ℤ) : ℝ) < (N : ℝ) := by
        push_cast
        nlinarith
      have : R ^ 2 - R < N := by exact_mod_cast this
      omega
    have h1' : (R : ℝ) ^ 2 - R + 1 ≤ N := by exact_mod_cast h1
    by_contra hc
    push Not at hc
    nlinarith
  rw [abs_lt]
  constructor <;> linarith

/-- `round(math.sqrt(a * a + b * b) * pulses_per_mm)`. -/
theorem dist64 {a b : F64} {p : ℚ} {A B : ℤ} (hfp : fl p = p) (h : Pt64 p a b A B) :
    PyNum.roundI (PyNum.sqrt (a *ₚ a +ₚ b *ₚ b) *ₚ (PyNum.ofRat p : F64)) =
      PyRound.rnd √((A : ℝ) ^ 2 + (B : ℝ) ^ 2) := by
  have hp := h.p_pos
  have hN : ((A ^ 2 + B ^ 2 : ℤ) : ℝ) = (A : ℝ) ^ 2 + (B : ℝ) ^ 2 := by push_cast; rfl
  change PyRound.rnd (fl ((PyNum.sqrt (a *ₚ a +ₚ b *ₚ b)).1 * fl p)) = _
  rw [hfp, ← hN]
  have hsz := h.size
  rw [← hN] at hsz
  refine rnd_sqrt (by positivity) hsz ?_
  rw [hN]
  have h1 := norm_near (by norm_num) (by norm_num) h.a_near h.b_near
  have h2 := hyp64_near a b
  have hroot : √((a.1 * p) ^ 2 + (b.1 * p) ^ 2) = √(a.1 ^ 2 + b.1 ^ 2) * p := by
    rw [mul_pow, mul_pow, ← add_mul, Real.sqrt_mul (by positivity), Real.sqrt_sq hp.le]
  rw [hroot] at h1
  have h3 := mul_le_mul_of_nonneg_right h2 hp.le
  rw [← abs_of_pos hp, ← abs_mul, mul_right_comm, abs_of_pos hp, sub_mul] at h3
  have h4 := fl_near ((PyNum.sqrt (a *ₚ a +ₚ b *ₚ b)).1 * p)
  have hρ := h.size
  generalize √((A : ℝ) ^ 2 + (B : ℝ) ^ 2) = ρ at *
  generalize √(a.1 ^ 2 + b.1 ^ 2) * (p : ℝ) = u at *
  generalize fl ((PyNum.sqrt (a *ₚ a +ₚ b *ₚ b)).1 * p) = z at *
  generalize (PyNum.sqrt (a *ₚ a +ₚ b *ₚ b)).1 * (p : ℝ) = w at *
  obtain ⟨a1, a2⟩ := abs_le.1 h1
  have hu : u ≤ 20000 := by linarith
  obtain ⟨b1, b2⟩ := abs_le.1 h3
  have hw : |w| ≤ 30000 := by rw [abs_le]; constructor <;> linarith
  obtain ⟨c1, c2⟩ := abs_le.1 h4
  rw [abs_le]
  constructor <;> linarith

/-- `int(x * pulses_per_mm)` of a number of steps that survives. -/
theorem trunc_survives {x : ℝ} {p : ℚ} {n : ℤ} (hp : 0 < (p : ℝ)) (hfp : fl p = p) (hx : x * p = n)
    (hn : |(n : ℝ)| ≤ 10 ^ 5) (h : Survives p n) :
    PyNum.truncI (F64.of x *ₚ PyNum.ofRat p) = n ∧
    PyNum.truncI (PyNum.neg (F64.of x) *ₚ PyNum.ofRat p) = -n := by
  have hxd : x = n / p := by rw [eq_div_iff hp.ne']; exact hx
  unfold Survives at h
  rw [← hxd] at h
  have hnear : |fl (fl x * p) - n| < 1 := by
    have h1 := of_on_step hp hx
    change |fl x * p - _| ≤ _ at h1
    have h2 := fl_near (fl x * p)
    generalize fl (fl x * p) = z at *
    generalize fl x * (p : ℝ) = w at *
    have h3 := abs_sub_abs_le_abs_sub w n
    have h4 := abs_sub_le z w n
    linarith
  have e1 : (F64.of x *ₚ PyNum.ofRat p).1 = fl (fl x * p) := by
    rw [val_mul, val_ofRat, hfp]; rfl
  have e2 : (PyNum.neg (F64.of x) *ₚ PyNum.ofRat p).1 = -fl (fl x * p) := by
    rw [val_mul, val_ofRat, hfp, val_neg, neg_mul, fl_neg]; rfl
  have hsg : (0 ≤ n → 0 ≤ fl (fl x * p)) ∧ (n ≤ 0 → fl (fl x * p) ≤ 0) := by
    constructor
    · intro h
      have : (0 : ℝ) ≤ n := by exact_mod_cast h
      have hx0 : 0 ≤ x := by rw [hxd]; positivity
      exact fl_nonneg (mul_nonneg (fl_nonneg hx0) hp.le)
    · intro h
      have : (n : ℝ) ≤ 0 := by exact_mod_cast h
      have hx0 : x ≤ 0 := by rw [hxd]; exact div_nonpos_of_nonpos_of_nonneg this hp.le
      have h1 : 0 ≤ fl (-x) := fl_nonneg (by linarith)
      have h2 : 0 ≤ fl (fl (-x) * p) := fl_nonneg (mul_nonneg h1 hp.le)
      rw [fl_neg, neg_mul, fl_neg] at h2
      linarith
  have key : ∀ {z : F64} {m : ℤ}, |z.1 - m| < 1 → |(m : ℝ)| ≤ |z.1| → (0 ≤ m → 0 ≤ z.1) →
      (m ≤ 0 → z.1 ≤ 0) → PyNum.truncI z = m := by
    intro z m h1 h2 h3 h4
    obtain ⟨k1, k2⟩ := abs_lt.1 h1
    change (if 0 ≤ z.1 then ⌊z.1⌋ else ⌈z.1⌉) = m
    rcases le_or_gt 0 m with hm | hm
    · have hm' : (0 : ℝ) ≤ m := by exact_mod_cast hm
      rw [if_pos (h3 hm), Int.floor_eq_iff]
      rw [abs_of_nonneg hm', abs_of_nonneg (h3 hm)] at h2
      exact ⟨h2, by linarith⟩
    · have hm' : (m : ℝ) < 0 := by exact_mod_cast hm
      rw [abs_of_neg hm', abs_of_nonpos (h4 hm.le)] at h2
      rw [if_neg (by linarith), Int.ceil_eq_iff]
      constructor <;> linarith
  constructor
  · refine key ?_ ?_ ?_ ?_ <;> rw [e1]
    exacts [hnear, h, hsg.1, hsg.2]
  · refine key ?_ ?_ ?_ ?_ <;> rw [e2]
    · push_cast
      rw [show -fl (fl x * p) - -(n : ℝ) = -(fl (fl x * p) - n) by ring, abs_neg]; exact hnear
    · push_cast
      rw [abs_neg, abs_neg]; exact h
    · intro h
      have := hsg.2 (by omega)
      linarith
    · intro h
      have := hsg.1 (by omega)
      linarith

end PyCNC
