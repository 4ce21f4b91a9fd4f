import Verif.Spec.Numbers
import Verif.Lemmas.Exact

/-!
# Lemmas about binary64
-/

namespace PyCNC

theorem fl_abs_le (x : ℝ) : |fl x| ≤ |x| + |x| / 2 ^ 53 := by
  have := fl_err x
  have h2 := abs_sub_abs_le_abs_sub (fl x) x
  linarith

variable [PyRound]

/-- A real number close to a decimal number is rounded to it by `round(x, 10)`. -/
theorem round10_of_near {x : ℝ} {n : ℤ} (h : |x - n / E10| < 1 / 2 / E10) :
    PyRound.rnd (x * E10) = n := by
  apply rnd_unique
  have : x * E10 - n = (x - n / E10) * E10 := by
    rw [sub_mul, div_mul_cancel₀ _ E10_ne]
  rw [this, abs_mul, abs_of_pos E10_pos]
  rwa [lt_div_iff₀ E10_pos] at h

/-- Adding two decimal numbers in binary64 and rounding to ten digits is exact. -/
theorem dec_add (a b : ℤ) (ha : |a| ≤ 10 ^ 15) (hb : |b| ≤ 10 ^ 15) :
    PyNum.round10 (F64.of ((a : ℝ) / 10 ^ 10) +ₚ F64.of ((b : ℝ) / 10 ^ 10)) =
      F64.of (((a + b : ℤ) : ℝ) / 10 ^ 10) := by
  have ha' : |(a : ℝ) / 10 ^ 10| ≤ 10 ^ 5 := by
    rw [abs_div, abs_of_pos (by positivity : (0 : ℝ) < 10 ^ 10), div_le_iff₀ (by positivity)]
    have : ((|a| : ℤ) : ℝ) ≤ 10 ^ 15 := by exact_mod_cast ha
    push_cast at this; linarith
  have hb' : |(b : ℝ) / 10 ^ 10| ≤ 10 ^ 5 := by
    rw [abs_div, abs_of_pos (by positivity : (0 : ℝ) < 10 ^ 10), div_le_iff₀ (by positivity)]
    have : ((|b| : ℤ) : ℝ) ≤ 10 ^ 15 := by exact_mod_cast hb
    push_cast at this; linarith
  set x : ℝ := (a : ℝ) / 10 ^ 10 with hx
  set y : ℝ := (b : ℝ) / 10 ^ 10 with hy
  have e1 := fl_err x
  have e2 := fl_err y
  have e3 := fl_err (fl x + fl y)
  have m1 := fl_abs_le x
  have m2 := fl_abs_le y
  have m3 := abs_add_le (fl x) (fl y)
  have hsum : ((a + b : ℤ) : ℝ) / E10 = x + y := by rw [hx, hy, E10]; push_cast; ring
  have hrnd : PyRound.rnd (fl (fl x + fl y) * E10) = a + b := by
    apply round10_of_near
    rw [hsum]
    have : fl (fl x + fl y) - (x + y) = (fl (fl x + fl y) - (fl x + fl y)) +
        ((fl x - x) + (fl y - y)) := by ring
    rw [this]
    have t1 := abs_add_le (fl (fl x + fl y) - (fl x + fl y)) ((fl x - x) + (fl y - y))
    have t2 := abs_add_le (fl x - x) (fl y - y)
    have hE : (1 : ℝ) / 2 / E10 = 1 / (2 * 10 ^ 10) := by rw [E10]; ring
    rw [hE]
    norm_num at e1 e2 e3 m1 m2 ha' hb' ⊢
    linarith
  show F64.of ((PyRound.rnd (fl (fl x + fl y) * E10) : ℝ) / E10) = _
  rw [hrnd, E10]

/-- Subtracting two decimal numbers in binary64 and rounding to ten digits is exact. -/
theorem dec_sub (a b : ℤ) (ha : |a| ≤ 10 ^ 15) (hb : |b| ≤ 10 ^ 15) :
    PyNum.round10 (F64.of ((a : ℝ) / 10 ^ 10) -ₚ F64.of ((b : ℝ) / 10 ^ 10)) =
      F64.of (((a - b : ℤ) : ℝ) / 10 ^ 10) := by
  have ha' : |(a : ℝ) / 10 ^ 10| ≤ 10 ^ 5 := by
    rw [abs_div, abs_of_pos (by positivity : (0 : ℝ) < 10 ^ 10), div_le_iff₀ (by positivity)]
    have : ((|a| : ℤ) : ℝ) ≤ 10 ^ 15 := by exact_mod_cast ha
    push_cast at this; linarith
  have hb' : |(b : ℝ) / 10 ^ 10| ≤ 10 ^ 5 := by
    rw [abs_div, abs_of_pos (by positivity : (0 : ℝ) < 10 ^ 10), div_le_iff₀ (by positivity)]
    have : ((|b| : ℤ) : ℝ) ≤ 10 ^ 15 := by exact_mod_cast hb
    push_cast at this; linarith
  set x : ℝ := (a : ℝ) / 10 ^ 10 with hx
  set y : ℝ := (b : ℝ) / 10 ^ 10 with hy
  have e1 := fl_err x
  have e2 := fl_err y
  have e3 := fl_err (fl x - fl y)
  have m1 := fl_abs_le x
  have m2 := fl_abs_le y
  have m3 := abs_sub (fl x) (fl y)
  have hsum : ((a - b : ℤ) : ℝ) / E10 = x - y := by rw [hx, hy, E10]; push_cast; ring
  have hrnd : PyRound.rnd (fl (fl x - fl y) * E10) = a - b := by
    apply round10_of_near
    rw [hsum]
    have : fl (fl x - fl y) - (x - y) = (fl (fl x - fl y) - (fl x - fl y)) +
        ((fl x - x) - (fl y - y)) := by ring
    rw [this]
    have t1 := abs_add_le (fl (fl x - fl y) - (fl x - fl y)) ((fl x - x) - (fl y - y))
    have t2 := abs_sub (fl x - x) (fl y - y)
    have hE : (1 : ℝ) / 2 / E10 = 1 / (2 * 10 ^ 10) := by rw [E10]; ring
    rw [hE]
    norm_num at e1 e2 e3 m1 m2 ha' hb' ⊢
    linarith
  show F64.of ((PyRound.rnd (fl (fl x - fl y) * E10) : ℝ) / E10) = _
  rw [hrnd, E10]

end PyCNC
