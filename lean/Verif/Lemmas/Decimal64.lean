import Verif.Lemmas.Limit64
import Verif.Lemmas.Interp

/-!
# Decimal numbers in binary64

Positions are the binary64 numbers nearest to decimal numbers with ten digits after the point.
Sums, differences and comparisons of such numbers are exact up to 10^5.
-/

set_option linter.unusedSectionVars false

namespace PyCNC

open Spec

variable [PyRound]

theorem val_of (x : ℝ) : (F64.of x).1 = fl x := rfl

theorem fl_near3 (x : ℝ) : |fl x - x| ≤ |x| * (112 / 10 ^ 18) := by
  refine (fl_err x).trans ?_
  rw [div_eq_mul_inv]
  exact mul_le_mul_of_nonneg_left (by norm_num) (abs_nonneg x)

/-- `round(x, 10)` near a decimal number. -/
theorem round10_dec64 {a : F64} {x : ℝ} (hx : Grid x) (h : |a.1 - x| < 1 / 2 / 10 ^ 10) :
    PyNum.round10 a = F64.of x := by
  obtain ⟨n, rfl⟩ := hx
  apply ext64
  rw [val_round10, round10_of_near (n := n)]
  · rfl
  · rw [e10_val] at h ⊢; exact h

theorem grid_int {x : ℝ} (hx : Grid x) (bx : |x| ≤ 10 ^ 5) :
    ∃ k : ℤ, x = (k : ℝ) / 10 ^ 10 ∧ |k| ≤ 10 ^ 15 := by
  obtain ⟨k, rfl⟩ := hx
  rw [e10_val] at bx ⊢
  refine ⟨k, rfl, ?_⟩
  rw [abs_div, abs_of_pos (by positivity : (0 : ℝ) < 10 ^ 10), div_le_iff₀ (by positivity)] at bx
  have : ((|k| : ℤ) : ℝ) ≤ 10 ^ 15 := by push_cast; linarith
  exact_mod_cast this

theorem add64 {x y : ℝ} (hx : Grid x) (hy : Grid y) (bx : |x| ≤ 10 ^ 5) (hb : |y| ≤ 10 ^ 5) :
    PyNum.round10 (F64.of x +ₚ F64.of y) = F64.of (x + y) := by
  obtain ⟨k, rfl, hk⟩ := grid_int hx bx
  obtain ⟨l, rfl, hl⟩ := grid_int hy hb
  rw [dec_add k l hk hl]
  congr 1
  push_cast; ring

theorem sub64 {x y : ℝ} (hx : Grid x) (hy : Grid y) (bx : |x| ≤ 10 ^ 5) (hb : |y| ≤ 10 ^ 5) :
    PyNum.round10 (F64.of x -ₚ F64.of y) = F64.of (x - y) := by
  obtain ⟨k, rfl, hk⟩ := grid_int hx bx
  obtain ⟨l, rfl, hl⟩ := grid_int hy hb
  rw [dec_sub k l hk hl]
  congr 1
  push_cast; ring

/-- The nearest binary64 number of a number up to 10^5. -/
theorem of_near {x : ℝ} (bx : |x| ≤ 10 ^ 5) : |(F64.of x).1 - x| ≤ 12 / 10 ^ 12 := by
  rw [val_of]
  refine (fl_near3 x).trans ?_
  have := mul_le_mul_of_nonneg_right bx (by norm_num : (0 : ℝ) ≤ 112 / 10 ^ 18)
  refine this.trans (by norm_num)

theorem round10_of64 {x : ℝ} (hx : Grid x) (bx : |x| ≤ 10 ^ 5) :
    PyNum.round10 (F64.of x) = F64.of x := by
  refine round10_dec64 hx (lt_of_le_of_lt (of_near bx) (by norm_num))

theorem of_zero : F64.of 0 = zeroF := by
  apply ext64
  rw [val_zero, val_of, fl_zero]

theorem of_ofRat (q : ℚ) : (PyNum.ofRat q : F64) = F64.of (q : ℝ) := rfl

theorem grid_gap {x y : ℝ} (hx : Grid x) (hy : Grid y) (h : x < y) : x + 1 / 10 ^ 10 ≤ y := by
  obtain ⟨k, rfl⟩ := hx
  obtain ⟨l, rfl⟩ := hy
  rw [e10_val] at h ⊢
  have h0 : (0 : ℝ) < 10 ^ 10 := by positivity
  rw [div_lt_div_iff_of_pos_right h0] at h
  have h1 : k < l := by exact_mod_cast h
  have h2 : (k : ℝ) + 1 ≤ l := by exact_mod_cast h1
  rw [← add_div, div_le_div_iff_of_pos_right h0]
  exact h2

/-- Comparisons are exact. -/
theorem lt_of64 {x y : ℝ} (hx : Grid x) (hy : Grid y) (bx : |x| ≤ 10 ^ 5) (hb : |y| ≤ 10 ^ 5) :
    (F64.of x <ₚ F64.of y) = true ↔ x < y := by
  rw [lt64_iff]
  constructor
  · intro h
    by_contra hc
    exact absurd (fl_mono (not_lt.1 hc)) (not_le.2 h)
  · intro h
    have h1 := grid_gap hx hy h
    have h2 := (abs_le.1 (of_near bx)).2
    have h3 := (abs_le.1 (of_near hb)).1
    generalize (F64.of x).1 = X at *
    generalize (F64.of y).1 = Y at *
    norm_num at *
    linarith

theorem eq_zero64 {x : ℝ} : (F64.of x =ₚ zeroF) = true ↔ x = 0 := by
  rw [eq64_iff, val_zero, val_of]
  constructor
  · intro h
    by_contra hc
    exact fl_ne hc h
  · rintro rfl; exact fl_zero

/-- A coordinate word with at most nine digits, in mm or in inches. -/
theorem word64 {q : ℚ} (hq : NineDigits q) {u : ℝ} (hu : u = 1 ∨ u = 25.4) (hb : |(q : ℝ) * u| ≤ 10 ^ 5) :
    Grid (q * u) ∧ PyNum.round10 (PyNum.ofRat q *ₚ F64.of u) = F64.of (q * u) := by
  have hg : Grid (q * u) := by
    obtain ⟨k, hk⟩ := hq
    have hk' : (q : ℝ) * 10 ^ 9 = k := by exact_mod_cast hk
    rcases hu with h | h <;> rw [h]
    · refine ⟨k * 10, ?_⟩
      rw [e10_val]; push_cast; rw [← hk']; ring
    · refine ⟨k * 254, ?_⟩
      rw [e10_val]; push_cast; rw [← hk']; ring
  refine ⟨hg, round10_dec64 hg ?_⟩
  rw [val_mul, val_ofRat, val_of]
  have h1 := fl_near3 (q : ℝ)
  have h2 := fl_near3 u
  have h3 := fl_near3 (fl (q : ℝ) * fl u)
  have hu0 : 0 < u := by rcases hu with h | h <;> rw [h] <;> norm_num
  rw [abs_of_pos hu0] at h2
  have hu1 : |fl u| ≤ u * (1 + 112 / 10 ^ 18) := by
    have := abs_sub_abs_le_abs_sub (fl u) u
    rw [abs_of_pos hu0] at this
    linarith
  have e : fl (q : ℝ) * fl u - q * u = (fl (q : ℝ) - q) * fl u + q * (fl u - u) := by ring
  have h4 : |fl (q : ℝ) * fl u - q * u| ≤ |(q : ℝ) * u| * (225 / 10 ^ 18) := by
    rw [e]
    refine (abs_add_le _ _).trans ?_
    rw [abs_mul, abs_mul, abs_mul, abs_of_pos hu0]
    have a1 : |fl (q : ℝ) - q| * |fl u| ≤ |(q : ℝ)| * (112 / 10 ^ 18) * (u * (1 + 112 / 10 ^ 18)) :=
      mul_le_mul h1 hu1 (abs_nonneg _) (by positivity)
    have a2 : |(q : ℝ)| * |fl u - u| ≤ |(q : ℝ)| * (u * (112 / 10 ^ 18)) :=
      mul_le_mul_of_nonneg_left h2 (abs_nonneg _)
    have a3 : 0 ≤ |(q : ℝ)| * u := by positivity
    have e1 : |(q : ℝ)| * (112 / 10 ^ 18) * (u * (1 + 112 / 10 ^ 18)) =
      |(q : ℝ)| * u * (112 / 10 ^ 18 * (1 + 112 / 10 ^ 18)) := by ring
    have e2 : |(q : ℝ)| * (u * (112 / 10 ^ 18)) = |(q : ℝ)| * u * (112 / 10 ^ 18) := by ring
    rw [e1] at a1
    rw [e2] at a2
    generalize |(q : ℝ)| * u = X at *
    have : X * (112 / 10 ^ 18 * (1 + 112 / 10 ^ 18)) + X * (112 / 10 ^ 18) ≤ X * (225 / 10 ^ 18) := by
      rw [← mul_add]
      exact mul_le_mul_of_nonneg_left (by norm_num) a3
    linarith
  have h5 : |fl (q : ℝ) * fl u| ≤ |(q : ℝ) * u| * (1 + 225 / 10 ^ 18) := by
    have := abs_sub_abs_le_abs_sub (fl (q : ℝ) * fl u) (q * u)
    linarith
  have h6 := abs_sub_le (fl (fl (q : ℝ) * fl u)) (fl (q : ℝ) * fl u) (q * u)
  generalize |fl (fl (q : ℝ) * fl u) - q * u| = A at *
  generalize |(q : ℝ) * u| = B at *
  norm_num at *
  linarith

/-- One axis of `Coordinates.round` in binary64, exactly. -/
theorem roundTo_exact64 {x y : ℝ} {p : ℚ} {n : ℤ} (hp : 0 < p) (hp2 : p ≤ 1000) (bx : |x| ≤ 10 ^ 5)
    (hn : |x * p - n| ≤ 1 / 2 - 1 / 10 ^ 6) (hy : Grid y)
    (hb : |y - n / p| + |(n : ℝ) / p| * (35 / 10 ^ 17) < 1 / 2 / 10 ^ 10) :
    PyNum.round10 (Coord.roundTo (F64.of x) (PyNum.ofRat 1 /ₚ PyNum.ofRat p)) = F64.of y := by
  have hP : (0 : ℝ) < p := by exact_mod_cast hp
  have hP2 : (p : ℝ) ≤ 1000 := by exact_mod_cast hp2
  set b : F64 := PyNum.ofRat 1 /ₚ PyNum.ofRat p with hbd
  have hb1 : b.1 = fl (1 / fl p) := by
    rw [hbd, val_div, val_ofRat, val_ofRat]
    have : fl ((1 : ℚ) : ℝ) = 1 := by simp [fl_one]
    rw [this]
  have l1 := fl_near3 (p : ℝ)
  rw [abs_of_pos hP] at l1
  have hp0 : 0 < fl (p : ℝ) := fl_pos hP
  generalize fl (p : ℝ) = P at l1 hp0 hb1
  have hi0 : (0 : ℝ) ≤ 1 / P := by positivity
  have l3 := fl_near3 (1 / P)
  rw [abs_of_nonneg hi0, ← hb1] at l3
  have hq : |(p : ℝ) / P - 1| ≤ 113 / 10 ^ 18 := by
    obtain ⟨l1, l2⟩ := abs_le.1 l1
    rw [abs_le, le_sub_iff_add_le, sub_le_iff_le_add, le_div_iff₀ hp0, div_le_iff₀ hp0]
    constructor
    · nlinarith
    · nlinarith
  obtain ⟨q1, q2⟩ := abs_le.1 hq
  have hbp : |b.1 * p - 1| ≤ 226 / 10 ^ 18 := by
    obtain ⟨l3, l4⟩ := abs_le.1 l3
    have a1 := mul_le_mul_of_nonneg_right l3 hP.le
    have a2 := mul_le_mul_of_nonneg_right l4 hP.le
    have e1 : -(1 / P * (112 / 10 ^ 18)) * p = -(p / P * (112 / 10 ^ 18)) := by ring
    have e2 : 1 / P * (112 / 10 ^ 18) * p = p / P * (112 / 10 ^ 18) := by ring
    have e3 : (b.1 - 1 / P) * p = b.1 * p - p / P := by ring
    rw [e1, e3] at a1
    rw [e2, e3] at a2
    generalize (p : ℝ) / P = r at *
    rw [abs_le]
    norm_num at *
    constructor <;> linarith
  have hb0 : 0 < b.1 := by rw [hb1]; exact fl_pos (by positivity)
  clear_value b
  clear l1 hp0 hb1 hi0 l3 q1 q2 hq hbd P
  obtain ⟨b1, b2⟩ := abs_le.1 hbp
  have hbp0 : 0 < b.1 * p := mul_pos hb0 hP
  have hxp : |x * p| ≤ 10 ^ 8 := by
    rw [abs_mul, abs_of_pos hP]
    calc |x| * p ≤ 10 ^ 5 * 1000 := mul_le_mul bx hP2 hP.le (by norm_num)
      _ = 10 ^ 8 := by norm_num
  have hn8 : |(n : ℝ)| ≤ 10 ^ 8 + 1 := by
    have := abs_sub_abs_le_abs_sub (n : ℝ) (x * p)
    rw [abs_sub_comm] at this
    norm_num at hn
    linarith
  have hd := of_near bx
  set d := F64.of x with hdd
  have hdp : |d.1 * p - x * p| ≤ 2 / 10 ^ 8 := by
    rw [← sub_mul, abs_mul, abs_of_pos hP]
    calc |d.1 - x| * p ≤ 12 / 10 ^ 12 * 1000 := mul_le_mul hd hP2 hP.le (by norm_num)
      _ ≤ 2 / 10 ^ 8 := by norm_num
  have hdp8 : |d.1 * p| ≤ 10 ^ 8 + 1 := by
    have := abs_sub_abs_le_abs_sub (d.1 * p) (x * p); linarith
  have hdb : |d.1 / b.1 - d.1 * p| ≤ 3 / 10 ^ 8 := by
    have e : d.1 / b.1 - d.1 * p = d.1 * p * ((1 - b.1 * p) / (b.1 * p)) := by
      field_simp
    rw [e, abs_mul]
    have : |(1 - b.1 * p) / (b.1 * p)| ≤ 23 / 10 ^ 17 := by
      rw [abs_div, abs_of_pos hbp0, div_le_iff₀ hbp0, abs_sub_comm]
      nlinarith
    calc |d.1 * p| * |(1 - b.1 * p) / (b.1 * p)| ≤ (10 ^ 8 + 1) * (23 / 10 ^ 17) := by gcongr
      _ ≤ 3 / 10 ^ 8 := by norm_num
  have hrnd : PyNum.roundI (d /ₚ b) = n := by
    change PyRound.rnd (fl (d.1 / b.1)) = n
    apply rnd_unique
    have h1 := fl_near3 (d.1 / b.1)
    have h2 : |d.1 / b.1| ≤ 10 ^ 8 + 2 := by
      have := abs_sub_abs_le_abs_sub (d.1 / b.1) (d.1 * p); linarith
    have h3 := abs_sub_le (fl (d.1 / b.1)) (d.1 / b.1) n
    have h4 := abs_sub_le (d.1 / b.1) (d.1 * p) n
    have h5 := abs_sub_le (d.1 * p) (x * p) n
    generalize |fl (d.1 / b.1) - n| = A at *
    generalize |d.1 / b.1| = B at *
    norm_num at *
    linarith
  have hn53 : |n| ≤ 2 ^ 53 := by
    have h7 : ((|n| : ℤ) : ℝ) ≤ 10 ^ 8 + 1 := by push_cast; exact hn8
    have : |n| ≤ 10 ^ 8 + 1 := by exact_mod_cast h7
    omega
  have hval : (Coord.roundTo d b).1 = fl (n * b.1) := by
    unfold Coord.roundTo
    rw [hrnd, val_mul, val_ofInt, fl_int _ hn53]
  refine round10_dec64 hy ?_
  rw [hval]
  have h2 : |n * b.1 - n / p| ≤ |(n : ℝ) / p| * (226 / 10 ^ 18) := by
    have e : n * b.1 - n / p = n / p * (b.1 * p - 1) := by field_simp
    rw [e, abs_mul]
    exact mul_le_mul_of_nonneg_left hbp (abs_nonneg _)
  have h3 : |n * b.1| ≤ |(n : ℝ) / p| * (1 + 226 / 10 ^ 18) := by
    have := abs_sub_abs_le_abs_sub (n * b.1) (n / p); linarith
  have h4 := fl_near3 (n * b.1)
  have h6 := abs_sub_le (fl (n * b.1)) (n / p) y
  have h7 := abs_sub_le (fl (n * b.1)) (n * b.1) (n / p)
  rw [abs_sub_comm y] at hb
  have h8 := abs_nonneg ((n : ℝ) / p)
  generalize |(n : ℝ) / p| = N at *
  generalize |fl (n * b.1) - y| = A at *
  generalize |fl (n * b.1) - n / p| = B at *
  generalize |n / (p : ℝ) - y| = C at *
  norm_num at *
  linarith

end PyCNC
