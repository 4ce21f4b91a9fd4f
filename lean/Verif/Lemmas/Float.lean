import Verif.Lemmas.Rounding

/-!
# Monotonicity and values of rounding to binary64
-/

namespace PyCNC

theorem fl_two_zpow (k : ℤ) : fl ((2 : ℝ) ^ k) = 2 ^ k := by
  have := fl_representable 1 k (by norm_num)
  simpa using this

/-- Rounding is monotone. -/
theorem fl_mono {x y : ℝ} (h : x ≤ y) : fl x ≤ fl y := by
  have mid : ∀ z, fl z = z → x ≤ z → z ≤ y → fl x ≤ fl y := fun z hz h1 h2 =>
    (fl_le_of_le hz h1).trans (le_fl_of_le hz h2)
  have same : ∀ e : ℤ, x ≠ 0 → y ≠ 0 → Int.log 2 |x| = e → Int.log 2 |y| = e → fl x ≤ fl y := by
    intro e hx hy h1 h2
    unfold fl
    rw [if_neg hx, if_neg hy, h1, h2]
    have hu : (0 : ℝ) < 2 ^ (e - 52) := by positivity
    refine mul_le_mul_of_nonneg_right ?_ hu.le
    have := @rnd_mono halfEven (x / 2 ^ (e - 52)) (y / 2 ^ (e - 52)) (by gcongr)
    exact_mod_cast this
  have lo : ∀ z : ℝ, z ≠ 0 → (2 : ℝ) ^ (Int.log 2 |z|) ≤ |z| := fun z hz => by
    have := Int.zpow_log_le_self (b := 2) (R := ℝ) (by norm_num) (abs_pos.2 hz)
    simpa using this
  have hi : ∀ z : ℝ, |z| < (2 : ℝ) ^ (Int.log 2 |z| + 1) := fun z => by
    have := Int.lt_zpow_succ_log_self (b := 2) (R := ℝ) (by norm_num) |z|
    simpa using this
  rcases lt_trichotomy x 0 with hx | hx | hx
  · rcases lt_or_ge y 0 with hy | hy
    · rcases eq_or_ne (Int.log 2 |x|) (Int.log 2 |y|) with he | he
      · exact same _ hx.ne hy.ne rfl he.symm
      · have hle : Int.log 2 |y| ≤ Int.log 2 |x| := by
          apply Int.log_mono_right (abs_pos.2 hy.ne)
          rw [abs_of_neg hx, abs_of_neg hy]; linarith
        have h1 := lo x hx.ne
        have h2 := hi y
        have h3 : (2 : ℝ) ^ (Int.log 2 |y| + 1) ≤ 2 ^ (Int.log 2 |x|) :=
          zpow_le_zpow_right₀ (by norm_num) (by omega)
        rw [abs_of_neg hx] at h1
        rw [abs_of_neg hy] at h2
        refine mid (-2 ^ (Int.log 2 |x|)) (fl_neg_rep (fl_two_zpow _)) ?_ ?_
        · rw [abs_of_neg hx]; linarith
        · rw [abs_of_neg hx, abs_of_neg hy] at h3
          rw [abs_of_neg hx]; linarith
    · exact mid 0 fl_zero hx.le hy
  · exact mid 0 fl_zero hx.le (hx ▸ h)
  · have hy : 0 < y := hx.trans_le h
    rcases eq_or_ne (Int.log 2 |x|) (Int.log 2 |y|) with he | he
    · exact same _ hx.ne' hy.ne' rfl he.symm
    · have hle : Int.log 2 |x| ≤ Int.log 2 |y| := by
        apply Int.log_mono_right (abs_pos.2 hx.ne')
        rwa [abs_of_pos hx, abs_of_pos hy]
      have h1 := lo y hy.ne'
      have h2 := hi x
      have h3 : (2 : ℝ) ^ (Int.log 2 |x| + 1) ≤ 2 ^ (Int.log 2 |y|) :=
        zpow_le_zpow_right₀ (by norm_num) (by omega)
      rw [abs_of_pos hy] at h1
      rw [abs_of_pos hx] at h2
      rw [abs_of_pos hx, abs_of_pos hy] at h3
      refine mid (2 ^ (Int.log 2 y)) (fl_two_zpow _) ?_ h1
      linarith

theorem fl_nonneg {x : ℝ} (h : 0 ≤ x) : 0 ≤ fl x := le_fl_of_le fl_zero h

theorem fl_nonpos {x : ℝ} (h : x ≤ 0) : fl x ≤ 0 := fl_le_of_le fl_zero h

theorem fl_pos {x : ℝ} (h : 0 < x) : 0 < fl x := by
  have h1 := (abs_le.1 (fl_err x)).1
  rw [abs_of_pos h] at h1
  have : x / 2 ^ 53 < x := div_lt_self h (by norm_num)
  linarith

theorem fl_neg' {x : ℝ} (h : x < 0) : fl x < 0 := by
  have h1 := (abs_le.1 (fl_err x)).2
  rw [abs_of_neg h] at h1
  have : -x / 2 ^ 53 < -x := div_lt_self (by linarith) (by norm_num)
  linarith

theorem fl_ne {x : ℝ} (h : x ≠ 0) : fl x ≠ 0 := by
  rcases lt_or_gt_of_ne h with h | h
  · exact (fl_neg' h).ne
  · exact (fl_pos h).ne'

/-- Ties to even is symmetric. -/
theorem halfEven_neg (y : ℝ) : halfEven.rnd (-y) = -halfEven.rnd y := by
  have hu : ∀ {z : ℝ} {n : ℤ}, |z - n| < 1 / 2 → halfEven.rnd z = n :=
    fun h => @rnd_unique halfEven _ _ h
  have e1 := Int.self_sub_floor y
  have f0 := Int.fract_nonneg y
  have f1 := Int.fract_lt_one y
  rcases lt_trichotomy (Int.fract y) (1 / 2) with h | h | h
  · have g1 := hu (z := y) (n := ⌊y⌋) (by rw [e1, abs_of_nonneg f0]; exact h)
    have g2 := hu (z := -y) (n := -⌊y⌋) (by push_cast; rw [abs_lt]; constructor <;> linarith)
    rw [g1, g2]
  · have hf : ⌊-y⌋ = -⌊y⌋ - 1 := by
      rw [Int.floor_eq_iff]; push_cast; constructor <;> linarith
    have hfr : Int.fract (-y) = 1 / 2 := by
      have := Int.self_sub_floor (-y)
      rw [hf] at this
      push_cast at this
      linarith
    have h1 : halfEven.rnd y = if Even ⌊y⌋ then ⌊y⌋ else ⌊y⌋ + 1 := by
      change (if _ then _ else if _ then _ else _) = _
      rw [if_neg (by linarith), if_neg (by linarith)]
    have h2 : halfEven.rnd (-y) = if Even ⌊-y⌋ then ⌊-y⌋ else ⌊-y⌋ + 1 := by
      change (if _ then _ else if _ then _ else _) = _
      rw [if_neg (by linarith), if_neg (by linarith)]
    rw [h1, h2, hf]
    by_cases hev : Even ⌊y⌋
    · rw [if_pos hev, if_neg]
      · ring
      · rw [Int.even_sub, _root_.even_neg]; simp [hev]
    · rw [if_neg hev, if_pos]
      · ring
      · rw [Int.even_sub, _root_.even_neg]; simp [hev]
  · have g1 := hu (z := y) (n := ⌊y⌋ + 1) (by push_cast; rw [abs_lt]; constructor <;> linarith)
    have g2 := hu (z := -y) (n := -(⌊y⌋ + 1))
      (by push_cast; rw [abs_lt]; constructor <;> linarith)
    rw [g1, g2]

/-- Rounding is symmetric. -/
theorem fl_neg (x : ℝ) : fl (-x) = -fl x := by
  by_cases h : x = 0
  · rw [h, neg_zero, fl_zero, neg_zero]
  · unfold fl
    rw [if_neg (neg_ne_zero.2 h), if_neg h, abs_neg, neg_div, halfEven_neg]
    push_cast; ring

theorem fl_abs (x : ℝ) : fl |x| = |fl x| := by
  rcases le_total 0 x with h | h
  · rw [abs_of_nonneg h, abs_of_nonneg (fl_nonneg h)]
  · rw [abs_of_nonpos h, abs_of_nonpos (fl_nonpos h), fl_neg]

theorem fl_one : fl 1 = 1 := by
  have := fl_int 1 (by norm_num)
  simpa using this

/-- The result of rounding, from the exponent and the nearest significand. -/
theorem fl_val {x : ℝ} {k m : ℤ} (h1 : (2 : ℝ) ^ (k + 52) ≤ |x|) (h2 : |x| < (2 : ℝ) ^ (k + 53))
    (h3 : |x - m * 2 ^ k| < 2 ^ k / 2) : fl x = m * 2 ^ k := by
  have hu : (0 : ℝ) < 2 ^ k := by positivity
  have h0 : x ≠ 0 := by
    rintro rfl
    have : (0 : ℝ) < 2 ^ (k + 52) := by positivity
    rw [abs_zero] at h1; linarith
  have he : Int.log 2 |x| = k + 52 := by
    have a1 := (Int.zpow_le_iff_le_log (b := 2) (R := ℝ) (by norm_num) (abs_pos.2 h0)
      (x := k + 52)).1 (by simpa using h1)
    have a2 := (Int.lt_zpow_iff_log_lt (b := 2) (R := ℝ) (by norm_num) (abs_pos.2 h0)
      (x := k + 53)).1 (by simpa using h2)
    omega
  unfold fl
  rw [if_neg h0, he, show k + 52 - 52 = k by ring]
  congr 2
  refine @rnd_unique halfEven _ _ ?_
  have : x / 2 ^ k - m = (x - m * 2 ^ k) / 2 ^ k := by
    rw [sub_div, mul_div_assoc, div_self hu.ne', mul_one]
  rw [this, abs_div, abs_of_pos hu, div_lt_iff₀ hu]
  linarith

/-- `sqrt(b * b)` is exact in binary64. -/
theorem fl_sqrt_sq {b : ℝ} (hb : fl b = b) : fl (√(fl (b * b))) = |b| := by
  rcases eq_or_ne b 0 with rfl | h0
  · simp [fl_zero]
  have hpos : 0 < |b| := abs_pos.2 h0
  have hbb : b * b = |b| * |b| := (abs_mul_abs_self b).symm
  have hrep : fl |b| = |b| := fl_abs_rep hb
  rw [hbb]
  generalize |b| = c at *
  clear hb h0 hbb b
  set k := Int.log 2 c - 52 with hk
  have hu : (0 : ℝ) < 2 ^ k := by positivity
  have hlo : (2 : ℝ) ^ (k + 52) ≤ c := by
    have := Int.zpow_log_le_self (b := 2) (R := ℝ) (by norm_num) hpos
    rw [hk]; simpa using this
  have hhi : c < (2 : ℝ) ^ (k + 53) := by
    have := Int.lt_zpow_succ_log_self (b := 2) (R := ℝ) (by norm_num) c
    rw [show k + 53 = Int.log 2 c + 1 by rw [hk]; ring]
    simpa using this
  obtain ⟨m, hm⟩ := rep_int (e := k + 52) hrep (by rwa [abs_of_pos hpos])
  rw [show k + 52 - 52 = k by ring] at hm
  have e52 : (2 : ℝ) ^ (k + 52) = 2 ^ 52 * 2 ^ k := by
    rw [← zpow_natCast, ← zpow_add₀ (by norm_num)]; congr 1; push_cast; ring
  have e53 : (2 : ℝ) ^ (k + 53) = 2 ^ 53 * 2 ^ k := by
    rw [← zpow_natCast, ← zpow_add₀ (by norm_num)]; congr 1; push_cast; ring
  have hm2 : m ≤ 2 ^ 53 - 1 := by
    rw [e53, hm] at hhi
    have : (m : ℝ) < 2 ^ 53 := lt_of_mul_lt_mul_right hhi hu.le
    have : m < 2 ^ 53 := by exact_mod_cast this
    omega
  have hm1 : 2 ^ 52 ≤ m := by
    rw [e52, hm] at hlo
    have := le_of_mul_le_mul_right hlo hu
    exact_mod_cast this
  rcases hm1.eq_or_lt with hm1 | hm1
  · -- a power of two
    have hc : c = 2 ^ (k + 52) := by rw [e52, hm, ← hm1]; push_cast; ring
    have : fl (c * c) = c * c := by
      rw [hc, ← zpow_add₀ (by norm_num), fl_two_zpow]
    rw [this, Real.sqrt_mul_self hpos.le, hrep]
  have hm1' : (2 : ℝ) ^ 52 + 1 ≤ m := by exact_mod_cast hm1
  have hm2' : (m : ℝ) ≤ 2 ^ 53 - 1 := by exact_mod_cast hm2
  have hy := fl_err (c * c)
  rw [abs_of_pos (mul_pos hpos hpos)] at hy
  obtain ⟨y1, y2⟩ := abs_le.1 hy
  set y := fl (c * c) with hyd
  -- the square root is within half a unit of `c`
  have up : √y < (m + 1 / 2) * 2 ^ k := by
    rw [Real.sqrt_lt' (by positivity)]
    have h4 : c * c = m * m * (2 ^ k * 2 ^ k) := by rw [hm]; ring
    have h5 : (m : ℝ) * m / 2 ^ 53 ≤ m := by
      rw [div_le_iff₀ (by positivity)]
      nlinarith
    have h6 : c * c / 2 ^ 53 = m * m / 2 ^ 53 * (2 ^ k * 2 ^ k) := by rw [h4]; ring
    have h7 : 0 < (2 : ℝ) ^ k * 2 ^ k := by positivity
    have h8 : c * c / 2 ^ 53 ≤ m * (2 ^ k * 2 ^ k) := by
      rw [h6]; exact mul_le_mul_of_nonneg_right h5 h7.le
    nlinarith
  have down : (m - 1 / 2) * 2 ^ k < √y := by
    apply Real.lt_sqrt_of_sq_lt
    have h4 : c * c = m * m * (2 ^ k * 2 ^ k) := by rw [hm]; ring
    have h5 : (m : ℝ) * m / 2 ^ 53 ≤ m - 1 / 2 := by
      rw [div_le_iff₀ (by positivity)]
      have h9 : (m : ℝ) * m ≤ m * (2 ^ 53 - 1) :=
        mul_le_mul_of_nonneg_left hm2' (by linarith)
      linarith
    have h6 : c * c / 2 ^ 53 = m * m / 2 ^ 53 * (2 ^ k * 2 ^ k) := by rw [h4]; ring
    have h7 : 0 < (2 : ℝ) ^ k * 2 ^ k := by positivity
    have h8 : c * c / 2 ^ 53 ≤ (m - 1 / 2) * (2 ^ k * 2 ^ k) := by
      rw [h6]; exact mul_le_mul_of_nonneg_right h5 h7.le
    nlinarith
  have hs0 : 0 ≤ √y := Real.sqrt_nonneg _
  have key : fl (√y) = m * 2 ^ k := by
    apply fl_val
    · rw [abs_of_nonneg hs0, e52]
      have : (2 : ℝ) ^ 52 * 2 ^ k ≤ (m - 1 / 2) * 2 ^ k := by
        refine mul_le_mul_of_nonneg_right ?_ hu.le
        linarith
      linarith
    · rw [abs_of_nonneg hs0, e53]
      have : (m + 1 / 2) * (2 : ℝ) ^ k ≤ 2 ^ 53 * 2 ^ k := by
        refine mul_le_mul_of_nonneg_right ?_ hu.le
        linarith
      linarith
    · rw [abs_lt]; constructor <;> linarith
  rw [key, ← hm]

end PyCNC
