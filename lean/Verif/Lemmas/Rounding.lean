import Verif.Lemmas.Binary64

/-!
# Order properties of rounding to binary64
-/

namespace PyCNC

/-- A binary64 number is a multiple of the unit in the last place of every smaller power. -/
theorem rep_int {y : ℝ} {e : ℤ} (hy : fl y = y) (h : (2 : ℝ) ^ e ≤ |y|) :
    ∃ n : ℤ, y = n * 2 ^ (e - 52) := by
  have h0 : y ≠ 0 := by
    rintro rfl
    have : (0 : ℝ) < 2 ^ e := by positivity
    simp at h; linarith
  have hle : e ≤ Int.log 2 |y| := by
    have := (Int.zpow_le_iff_le_log (b := 2) (R := ℝ) (by norm_num) (abs_pos.2 h0) (x := e)).1
      (by simpa using h)
    exact this
  rw [fl, if_neg h0] at hy
  refine ⟨halfEven.rnd (y / 2 ^ (Int.log 2 |y| - 52)) * 2 ^ (Int.log 2 |y| - e).toNat, ?_⟩
  have : (2 : ℝ) ^ (Int.log 2 |y| - 52) = 2 ^ (Int.log 2 |y| - e).toNat * 2 ^ (e - 52) := by
    rw [← zpow_natCast, Int.toNat_of_nonneg (by omega), ← zpow_add₀ (by norm_num)]
    congr 1; ring
  conv_lhs => rw [← hy]
  rw [this]
  push_cast
  ring

/-- Rounding does not cross a binary64 number. -/
theorem fl_le_of_le {x y : ℝ} (hy : fl y = y) (h : x ≤ y) : fl x ≤ y := by
  by_cases h0 : x = 0
  · rw [h0, fl_zero, ← h0]; exact h
  have hpos : 0 < |x| := abs_pos.2 h0
  unfold fl
  rw [if_neg h0]
  set e := Int.log 2 |x| with he
  have hlo : (2 : ℝ) ^ e ≤ |x| := by
    have := Int.zpow_log_le_self (b := 2) (R := ℝ) (by norm_num) hpos
    simpa using this
  have hu : (0 : ℝ) < 2 ^ (e - 52) := by positivity
  have h4 : (2 : ℝ) ^ e = 2 ^ 52 * 2 ^ (e - 52) := by
    rw [← zpow_natCast, ← zpow_add₀ (by norm_num)]; congr 1; push_cast; ring
  have hn := abs_le.1 (halfEven.near (x / 2 ^ (e - 52)))
  set n := halfEven.rnd (x / 2 ^ (e - 52)) with hnd
  by_contra hc
  rw [not_le] at hc
  have hbig : (2 : ℝ) ^ e ≤ |y| := by
    rcases lt_or_gt_of_ne h0 with hx | hx
    · by_contra hy2
      rw [not_le] at hy2
      have h5 : x / 2 ^ (e - 52) ≤ -2 ^ 52 := by
        rw [div_le_iff₀ hu]; rw [abs_of_neg hx] at hlo; linarith
      have h6 : n ≤ -2 ^ 52 := by
        have : (n : ℝ) < -2 ^ 52 + 1 := by linarith [hn.2]
        have : n < -2 ^ 52 + 1 := by exact_mod_cast this
        omega
      have : (n : ℝ) * 2 ^ (e - 52) ≤ -2 ^ 52 * 2 ^ (e - 52) := by
        have : (n : ℝ) ≤ -2 ^ 52 := by exact_mod_cast h6
        exact mul_le_mul_of_nonneg_right this hu.le
      have := (abs_lt.1 hy2).1
      linarith
    · rw [abs_of_pos hx] at hlo
      rw [abs_of_pos (by linarith)]; linarith
  obtain ⟨k, hk⟩ := rep_int hy hbig
  have h7 : k < n := by
    rw [hk] at hc
    exact_mod_cast lt_of_mul_lt_mul_right hc hu.le
  have h8 : x / 2 ^ (e - 52) ≤ k := by rw [div_le_iff₀ hu, ← hk]; exact h
  have h9 : (k : ℝ) + 1 ≤ n := by exact_mod_cast h7
  linarith [hn.2]

theorem le_fl_of_le {x y : ℝ} (hx : fl x = x) (h : x ≤ y) : x ≤ fl y := by
  by_cases h0 : y = 0
  · rw [h0, fl_zero, ← h0]; exact h
  have hpos : 0 < |y| := abs_pos.2 h0
  unfold fl
  rw [if_neg h0]
  set e := Int.log 2 |y| with he
  have hlo : (2 : ℝ) ^ e ≤ |y| := by
    have := Int.zpow_log_le_self (b := 2) (R := ℝ) (by norm_num) hpos
    simpa using this
  have hu : (0 : ℝ) < 2 ^ (e - 52) := by positivity
  have h4 : (2 : ℝ) ^ e = 2 ^ 52 * 2 ^ (e - 52) := by
    rw [← zpow_natCast, ← zpow_add₀ (by norm_num)]; congr 1; push_cast; ring
  have hn := abs_le.1 (halfEven.near (y / 2 ^ (e - 52)))
  set n := halfEven.rnd (y / 2 ^ (e - 52)) with hnd
  by_contra hc
  rw [not_le] at hc
  have hbig : (2 : ℝ) ^ e ≤ |x| := by
    rcases lt_or_gt_of_ne h0 with hy | hy
    · rw [abs_of_neg hy] at hlo
      rw [abs_of_neg (by linarith)]; linarith
    · by_contra hy2
      rw [not_le] at hy2
      have h5 : 2 ^ 52 ≤ y / 2 ^ (e - 52) := by
        rw [le_div_iff₀ hu]; rw [abs_of_pos hy] at hlo; linarith
      have h6 : 2 ^ 52 ≤ n := by
        have : (2 : ℝ) ^ 52 < n + 1 := by linarith [hn.1]
        have : 2 ^ 52 < n + 1 := by exact_mod_cast this
        omega
      have : (2 : ℝ) ^ 52 * 2 ^ (e - 52) ≤ (n : ℝ) * 2 ^ (e - 52) := by
        have : (2 : ℝ) ^ 52 ≤ n := by exact_mod_cast h6
        exact mul_le_mul_of_nonneg_right this hu.le
      have := (abs_lt.1 hy2).2
      linarith
  obtain ⟨k, hk⟩ := rep_int hx hbig
  have h7 : n < k := by
    rw [hk] at hc
    exact_mod_cast lt_of_mul_lt_mul_right hc hu.le
  have h8 : k ≤ y / 2 ^ (e - 52) := by rw [le_div_iff₀ hu, ← hk]; exact h
  have h9 : (n : ℝ) + 1 ≤ k := by exact_mod_cast h7
  linarith [hn.1]

theorem fl_neg_rep {x : ℝ} (hx : fl x = x) : fl (-x) = -x := by
  obtain ⟨m, k, hm, h⟩ := fl_form x
  rw [hx] at h
  rw [h, ← neg_mul, ← Int.cast_neg, fl_representable (-m) k (by rwa [abs_neg])]

theorem fl_abs_rep {x : ℝ} (hx : fl x = x) : fl |x| = |x| := by
  rcases abs_choice x with h | h <;> rw [h]
  · exact hx
  · exact fl_neg_rep hx

end PyCNC
