import Mathlib.Data.Int.Log
import Verif.Model.Exact

/-!
# IEEE binary64

Numbers with a 53 bit significand; every operation returns the exact result rounded to
nearest (ties to even).  Simplifications: the exponent is unbounded (no overflow, no
subnormals), there is no NaN, no infinity and no negative zero, and `acos` and `pi` are
correctly rounded (libm does not promise that for `acos`).
-/

namespace PyCNC

/-- Rounding of a real number to binary64: the exponent is that of the argument, the
significand is rounded to 53 bits, ties to even. -/
noncomputable def fl (x : ℝ) : ℝ :=
  if x = 0 then 0
  else (halfEven.rnd (x / 2 ^ (Int.log 2 |x| - 52)) : ℝ) * 2 ^ (Int.log 2 |x| - 52)

private theorem two_zpow_pos (k : ℤ) : (0 : ℝ) < 2 ^ k := by positivity

theorem fl_zero : fl 0 = 0 := if_pos rfl

/-- A number with at most 53 significant bits is not changed by rounding. -/
theorem fl_representable (m k : ℤ) (hm : |m| ≤ 2 ^ 53) : fl ((m : ℝ) * 2 ^ k) = (m : ℝ) * 2 ^ k := by
  have key : ∀ n : ℤ, halfEven.rnd (n : ℝ) = n := by
    intro n
    have h := abs_le.1 (halfEven.near (n : ℝ))
    have h1 : halfEven.rnd (n : ℝ) < n + 1 := by
      have : (halfEven.rnd (n : ℝ) : ℝ) < n + 1 := by linarith [h.2]
      exact_mod_cast this
    have h2 : n < halfEven.rnd (n : ℝ) + 1 := by
      have : (n : ℝ) < halfEven.rnd (n : ℝ) + 1 := by linarith [h.1]
      exact_mod_cast this
    omega
  by_cases h0 : (m : ℝ) * 2 ^ k = 0
  · rw [h0, fl_zero]
  · unfold fl
    rw [if_neg h0]
    set y : ℝ := (m : ℝ) * 2 ^ k with hy
    set e := Int.log 2 |y| with he
    have hpos : 0 < |y| := abs_pos.2 h0
    have hlo : (2 : ℝ) ^ e ≤ |y| := by
      have := Int.zpow_log_le_self (b := 2) (R := ℝ) (by norm_num) hpos
      simpa using this
    have hyabs : |y| = (|m| : ℤ) * 2 ^ k := by
      rw [hy, abs_mul, abs_of_pos (two_zpow_pos k)]; push_cast; rfl
    have hint : ∃ n : ℤ, y / 2 ^ (e - 52) = n := by
      by_cases hk : e - 52 ≤ k
      · refine ⟨m * 2 ^ (k - (e - 52)).toNat, ?_⟩
        have : (2 : ℝ) ^ k = 2 ^ (k - (e - 52)).toNat * 2 ^ (e - 52) := by
          rw [← zpow_natCast, Int.toNat_of_nonneg (by omega), ← zpow_add₀ (by norm_num)]
          congr 1; ring
        rw [hy, this, ← mul_assoc, mul_div_assoc, div_self (two_zpow_pos _).ne', mul_one]
        push_cast; ring
      · have hk' : k ≤ e - 53 := by omega
        have h1 : (2 : ℝ) ^ k ≤ 2 ^ (e - 53) := zpow_le_zpow_right₀ (by norm_num) hk'
        have h2 : ((|m| : ℤ) : ℝ) ≤ 2 ^ 53 := by exact_mod_cast hm
        have h3 : (2 : ℝ) ^ e = 2 ^ 53 * 2 ^ (e - 53) := by
          rw [← zpow_natCast, ← zpow_add₀ (by norm_num)]; congr 1; push_cast; ring
        have hm0 : (0 : ℝ) ≤ ((|m| : ℤ) : ℝ) := by exact_mod_cast abs_nonneg m
        have h4 : |y| ≤ 2 ^ 53 * 2 ^ (e - 53) := by
          rw [hyabs]; exact mul_le_mul h2 h1 (two_zpow_pos k).le (by positivity)
        have h5 : |y| = 2 ^ e := le_antisymm (by rw [h3]; exact h4) hlo
        have h6 : |y| / 2 ^ (e - 52) = 2 ^ 52 := by
          rw [h5, ← zpow_sub₀ (by norm_num)]
          have : e - (e - 52) = (52 : ℕ) := by push_cast; ring
          rw [this, zpow_natCast]
        rcases abs_choice y with h | h
        · exact ⟨2 ^ 52, by rw [← h, h6]; norm_num⟩
        · refine ⟨-2 ^ 52, ?_⟩
          have : y = -|y| := by rw [h]; ring
          rw [this, neg_div, h6]; norm_num
    obtain ⟨n, hn⟩ := hint
    rw [hn, key, ← hn, div_mul_cancel₀ _ (two_zpow_pos _).ne']

/-- The result of rounding has at most 53 significant bits. -/
theorem fl_form (x : ℝ) : ∃ m k : ℤ, |m| ≤ 2 ^ 53 ∧ fl x = (m : ℝ) * 2 ^ k := by
  by_cases h0 : x = 0
  · exact ⟨0, 0, by norm_num, by rw [h0, fl_zero]; simp⟩
  · refine ⟨halfEven.rnd (x / 2 ^ (Int.log 2 |x| - 52)), Int.log 2 |x| - 52, ?_, if_neg h0⟩
    set e := Int.log 2 |x| with he
    have hhi : |x| < 2 ^ (e + 1) := by
      have := Int.lt_zpow_succ_log_self (b := 2) (R := ℝ) (by norm_num) |x|
      simpa using this
    have h1 : |x / 2 ^ (e - 52)| < 2 ^ 53 := by
      rw [abs_div, abs_of_pos (two_zpow_pos _), div_lt_iff₀ (two_zpow_pos _)]
      have : (2 : ℝ) ^ (e + 1) = 2 ^ 53 * 2 ^ (e - 52) := by
        rw [← zpow_natCast, ← zpow_add₀ (by norm_num)]; congr 1; push_cast; ring
      rwa [← this]
    have h2 := abs_le.1 (halfEven.near (x / 2 ^ (e - 52)))
    have h3 := abs_lt.1 h1
    have h4 : halfEven.rnd (x / 2 ^ (e - 52)) < 2 ^ 53 + 1 := by
      have : (halfEven.rnd (x / 2 ^ (e - 52)) : ℝ) < 2 ^ 53 + 1 := by linarith [h2.2, h3.2]
      exact_mod_cast this
    have h5 : -2 ^ 53 - 1 < halfEven.rnd (x / 2 ^ (e - 52)) := by
      have : (-2 ^ 53 - 1 : ℝ) < halfEven.rnd (x / 2 ^ (e - 52)) := by linarith [h2.1, h3.1]
      exact_mod_cast this
    rw [abs_le]; constructor <;> omega

theorem fl_idem (x : ℝ) : fl (fl x) = fl x := by
  obtain ⟨m, k, hm, h⟩ := fl_form x
  rw [h, fl_representable m k hm]

/-- The relative error of rounding is at most `2^-53`. -/
theorem fl_err (x : ℝ) : |fl x - x| ≤ |x| / 2 ^ 53 := by
  by_cases h0 : x = 0
  · rw [h0, fl_zero]; simp
  · have hpos : 0 < |x| := abs_pos.2 h0
    unfold fl
    rw [if_neg h0]
    set e := Int.log 2 |x| with he
    have hlo : (2 : ℝ) ^ e ≤ |x| := by
      have := Int.zpow_log_le_self (b := 2) (R := ℝ) (by norm_num) hpos
      simpa using this
    have h2 := halfEven.near (x / 2 ^ (e - 52))
    have h3 : (halfEven.rnd (x / 2 ^ (e - 52)) : ℝ) * 2 ^ (e - 52) - x =
        ((halfEven.rnd (x / 2 ^ (e - 52)) : ℝ) - x / 2 ^ (e - 52)) * 2 ^ (e - 52) := by
      rw [sub_mul, div_mul_cancel₀ _ (two_zpow_pos _).ne']
    rw [h3, abs_mul, abs_of_pos (two_zpow_pos _)]
    have h4 : (2 : ℝ) ^ e = 2 ^ 52 * 2 ^ (e - 52) := by
      rw [← zpow_natCast, ← zpow_add₀ (by norm_num)]; congr 1; push_cast; ring
    rw [le_div_iff₀ (by positivity)]
    calc |(halfEven.rnd (x / 2 ^ (e - 52)) : ℝ) - x / 2 ^ (e - 52)| * 2 ^ (e - 52) * 2 ^ 53
        ≤ 1 / 2 * 2 ^ (e - 52) * 2 ^ 53 := by gcongr
      _ = 2 ^ 52 * 2 ^ (e - 52) := by ring
      _ ≤ |x| := by rw [← h4]; exact hlo

theorem fl_int (n : ℤ) (h : |n| ≤ 2 ^ 53) : fl n = n := by
  have := fl_representable n 0 h
  simpa using this

/-- The binary64 numbers. -/
def F64 : Type := { x : ℝ // fl x = x }

/-- The binary64 number nearest to a real number. -/
noncomputable def F64.of (x : ℝ) : F64 := ⟨fl x, fl_idem x⟩

open Classical in
/-- Arithmetic of binary64. -/
noncomputable instance instPyNumF64 [PyRound] : PyNum F64 where
  ofRat q := .of q
  add a b := .of (a.1 + b.1)
  sub a b := .of (a.1 - b.1)
  mul a b := .of (a.1 * b.1)
  div a b := .of (a.1 / b.1)
  neg a := .of (-a.1)
  abs a := .of |a.1|
  sqrt a := .of (Real.sqrt a.1)
  acos a := .of (Real.arccos a.1)
  pi := .of Real.pi
  lt a b := decide (a.1 < b.1)
  le a b := decide (a.1 ≤ b.1)
  eq a b := decide (a.1 = b.1)
  round10 a := .of ((PyRound.rnd (a.1 * E10) : ℝ) / E10)
  roundI a := PyRound.rnd a.1
  truncI a := if 0 ≤ a.1 then ⌊a.1⌋ else ⌈a.1⌉

end PyCNC
