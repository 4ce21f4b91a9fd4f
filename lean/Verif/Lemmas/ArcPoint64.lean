import Verif.Lemmas.ArcInterp64
import Verif.Lemmas.ArcAnyStep
import Verif.Spec.ArcAny

/-!
# The point on the circle in binary64
-/

set_option linter.unusedSectionVars false

namespace PyCNC

open Spec

variable [PyRound] {c : Cfg}

/-- One axis of `Coordinates.round` in binary64, wherever the number is between the steps. -/
theorem roundTo_any64 {d : F64} {p : ℚ} (hp : 1 ≤ p) (hp2 : p ≤ 1000) (bx : |d.1| ≤ 10 ^ 4) :
    ∃ n : ℤ, |d.1 * p - n| ≤ 1 / 2 + 1 / 10 ^ 6 ∧
      (Grid ((n : ℝ) / p) →
      PyNum.round10 (Coord.roundTo d (PyNum.ofRat 1 /ₚ PyNum.ofRat p)) = F64.of ((n : ℝ) / p)) := by
  have hP1 : (1 : ℝ) ≤ p := by exact_mod_cast hp
  have hP : (0 : ℝ) < p := by linarith
  have hP2 : (p : ℝ) ≤ 1000 := by exact_mod_cast hp2
  set b : F64 := PyNum.ofRat 1 /ₚ PyNum.ofRat p with hbd
  have hb1 : b.1 = fl (1 / fl p) := by
    rw [hbd, val_div, val_ofRat, val_ofRat]
    have : fl ((1 : ℚ) : ℝ) = 1 := by simp [fl_one]
    rw [this]
  have l1 := fl_near3 (p : ℝ)
  rw [abs_of_pos hP] at l1
  have hp0 : 0 < fl (p : ℝ) := fl_pos hP
  generalize fl (p : ℝ) = P at l1 hp0 hb1
  have hi0 : (0 : ℝ) ≤ 1 / P := by positivity
  have l3 := fl_near3 (1 / P)
  rw [abs_of_nonneg hi0, ← hb1] at l3
  have hq : |(p : ℝ) / P - 1| ≤ 113 / 10 ^ 18 := by
    obtain ⟨l1, l2⟩ := abs_le.1 l1
    rw [abs_le, le_sub_iff_add_le, sub_le_iff_le_add, le_div_iff₀ hp0, div_le_iff₀ hp0]
    constructor
    · nlinarith
    · nlinarith
  obtain ⟨q1, q2⟩ := abs_le.1 hq
  have hbp : |b.1 * p - 1| ≤ 226 / 10 ^ 18 := by
    obtain ⟨l3, l4⟩ := abs_le.1 l3
    have a1 := mul_le_mul_of_nonneg_right l3 hP.le
    have a2 := mul_le_mul_of_nonneg_right l4 hP.le
    have e1 : -(1 / P * (112 / 10 ^ 18)) * p = -(p / P * (112 / 10 ^ 18)) := by ring
    have e2 : 1 / P * (112 / 10 ^ 18) * p = p / P * (112 / 10 ^ 18) := by ring
    have e3 : (b.1 - 1 / P) * p = b.1 * p - p / P := by ring
    rw [e1, e3] at a1
    rw [e2, e3] at a2
    generalize (p : ℝ) / P = r at *
    rw [abs_le]
    norm_num at *
    constructor <;> linarith
  have hb0 : 0 < b.1 := by rw [hb1]; exact fl_pos (by positivity)
  clear_value b
  clear l1 hp0 hb1 hi0 l3 q1 q2 hq hbd P
  obtain ⟨b1, b2⟩ := abs_le.1 hbp
  have hbp0 : 0 < b.1 * p := mul_pos hb0 hP
  have hdp8 : |d.1 * p| ≤ 10 ^ 7 := by
    rw [abs_mul, abs_of_pos hP]
    calc |d.1| * p ≤ 10 ^ 4 * 1000 := mul_le_mul bx hP2 hP.le (by norm_num)
      _ = 10 ^ 7 := by norm_num
  have hdb : |d.1 / b.1 - d.1 * p| ≤ 3 / 10 ^ 8 := by
    have e : d.1 / b.1 - d.1 * p = d.1 * p * ((1 - b.1 * p) / (b.1 * p)) := by
      field_simp
    rw [e, abs_mul]
    have : |(1 - b.1 * p) / (b.1 * p)| ≤ 23 / 10 ^ 17 := by
      rw [abs_div, abs_of_pos hbp0, div_le_iff₀ hbp0, abs_sub_comm]
      nlinarith
    calc |d.1 * p| * |(1 - b.1 * p) / (b.1 * p)| ≤ 10 ^ 7 * (23 / 10 ^ 17) := by gcongr
      _ ≤ 3 / 10 ^ 8 := by norm_num
  set n : ℤ := PyNum.roundI (d /ₚ b) with hnd
  have hn : |d.1 * p - n| ≤ 1 / 2 + 1 / 10 ^ 6 := by
    have h0 : |(n : ℝ) - fl (d.1 / b.1)| ≤ 1 / 2 := PyRound.near (fl (d.1 / b.1))
    have h1 := fl_near3 (d.1 / b.1)
    have h2 : |d.1 / b.1| ≤ 10 ^ 7 + 2 := by
      have := abs_sub_abs_le_abs_sub (d.1 / b.1) (d.1 * p)
      norm_num at *; linarith
    rw [abs_le] at *
    have h3 := mul_le_mul_of_nonneg_right (abs_le.2 h2) (by norm_num : (0 : ℝ) ≤ 112 / 10 ^ 18)
    norm_num at *
    constructor <;> linarith [h0.1, h0.2, h1.1, h1.2, hdb.1, hdb.2]
  refine ⟨n, hn, fun hy => ?_⟩
  have hn8 : |(n : ℝ)| ≤ 10 ^ 7 + 1 := by
    have := abs_sub_abs_le_abs_sub (n : ℝ) (d.1 * p)
    rw [abs_sub_comm] at this
    generalize |d.1 * (p : ℝ)| = D at *
    norm_num at hn hdp8 ⊢
    linarith
  have hnp : |(n : ℝ) / p| ≤ 10 ^ 4 + 1 := by
    have e : d.1 - n / p = (d.1 * p - n) / p := by field_simp
    have h1 : |d.1 - n / p| ≤ 1 := by
      rw [e, abs_div, abs_of_pos hP, div_le_iff₀ hP]
      norm_num at hn ⊢
      linarith
    have h2 := abs_sub_abs_le_abs_sub ((n : ℝ) / p) d.1
    rw [abs_sub_comm] at h2
    linarith
  have hn53 : |n| ≤ 2 ^ 53 := by
    have h7 : ((|n| : ℤ) : ℝ) ≤ 10 ^ 7 + 1 := by push_cast; exact hn8
    have : |n| ≤ 10 ^ 7 + 1 := by exact_mod_cast h7
    omega
  have hval : (Coord.roundTo d b).1 = fl (n * b.1) := by
    unfold Coord.roundTo
    rw [← hnd, val_mul, val_ofInt, fl_int _ hn53]
  refine round10_dec64 hy ?_
  rw [hval]
  have h2 : |n * b.1 - n / p| ≤ |(n : ℝ) / p| * (226 / 10 ^ 18) := by
    have e : n * b.1 - n / p = n / p * (b.1 * p - 1) := by field_simp
    rw [e, abs_mul]
    exact mul_le_mul_of_nonneg_left hbp (abs_nonneg _)
  have h3 : |n * b.1| ≤ |(n : ℝ) / p| * (1 + 226 / 10 ^ 18) := by
    have := abs_sub_abs_le_abs_sub (n * b.1) (n / p); linarith
  have h4 := fl_near3 (n * b.1)
  have h7 := abs_sub_le (fl (n * b.1)) (n * b.1) (n / p)
  have h8 := abs_nonneg ((n : ℝ) / p)
  generalize |(n : ℝ) / p| = N at *
  generalize |fl (n * b.1) - n / p| = B at *
  norm_num at *
  linarith

/-- The squares of the coordinates of the point on the circle. -/
theorem point_squares64 {r u t root : F64} {R : ℝ} (hR : 0 < R) (hr : |r.1 - R| ≤ R * (1 / 10 ^ 13))
    (hu : u.1 ≠ 0)
    (hroot : psqrt (r *ₚ r -ₚ
      copysign (PyNum.sqrt (r *ₚ r /ₚ (PyNum.ofRat 1 +ₚ PyNum.abs (t /ₚ u)))) u *ₚ
      copysign (PyNum.sqrt (r *ₚ r /ₚ (PyNum.ofRat 1 +ₚ PyNum.abs (t /ₚ u)))) u) = .ok root) :
    |(PyNum.sqrt (r *ₚ r /ₚ (PyNum.ofRat 1 +ₚ PyNum.abs (t /ₚ u)))).1 ^ 2 -
      R ^ 2 * (|u.1| / (|u.1| + |t.1|))| ≤ R ^ 2 * (|u.1| / (|u.1| + |t.1|)) * (1 / 10 ^ 12) ∧
    |root.1 ^ 2 - R ^ 2 * (|t.1| / (|u.1| + |t.1|))| ≤ R ^ 2 * (2 / 10 ^ 12) ∧
    0 ≤ (PyNum.sqrt (r *ₚ r /ₚ (PyNum.ofRat 1 +ₚ PyNum.abs (t /ₚ u)))).1 ∧ 0 ≤ root.1 := by
  set s := PyNum.sqrt (r *ₚ r /ₚ (PyNum.ofRat 1 +ₚ PyNum.abs (t /ₚ u))) with hsd
  have flp : ∀ {z : ℝ}, 0 ≤ z → z * (1 - 1 / 10 ^ 15) ≤ fl z ∧ fl z ≤ z * (1 + 1 / 10 ^ 15) := by
    intro z hz
    have := fl_near z
    rw [abs_of_nonneg hz, abs_le] at this
    constructor <;> linarith [this.1, this.2]
  have fls : ∀ {z : ℝ}, 0 ≤ z → z * (1 - 3 / 10 ^ 15) ≤ fl (√z) ^ 2 ∧ fl (√z) ^ 2 ≤ z * (1 + 3 / 10 ^ 15) := by
    intro z hz
    obtain ⟨h1, h2⟩ := flp (Real.sqrt_nonneg z)
    have h0 : 0 ≤ √z := Real.sqrt_nonneg z
    have e : z = √z ^ 2 := (Real.sq_sqrt hz).symm
    have k1 := pow_le_pow_left₀ (mul_nonneg h0 (by norm_num)) h1 2
    have k2 := pow_le_pow_left₀ (fl_nonneg h0) h2 2
    rw [mul_pow, ← e] at k1 k2
    constructor
    · exact (mul_le_mul_of_nonneg_left (by norm_num) hz).trans k1
    · exact k2.trans (mul_le_mul_of_nonneg_left (by norm_num) hz)
  have hU : 0 < |u.1| := abs_pos.2 hu
  have hT : 0 ≤ |t.1| := abs_nonneg _
  have hUT : 0 < |u.1| + |t.1| := by linarith
  set k := |u.1| / (|u.1| + |t.1|) with hk
  have hk0 : 0 < k := div_pos hU hUT
  have hk1 : |t.1| / (|u.1| + |t.1|) = 1 - k := by rw [hk]; field_simp; ring
  have hk2 : k ≤ 1 := by
    have : 0 ≤ |t.1| / (|u.1| + |t.1|) := by positivity
    linarith
  have hki : (1 + |t.1| / |u.1|) * k = 1 := by rw [hk]; field_simp
  rw [hk1]
  have hR2 : 0 < R ^ 2 := by positivity
  -- the square of the radius
  have hA : R ^ 2 * (1 - 3 / 10 ^ 13) ≤ (r *ₚ r).1 ∧ (r *ₚ r).1 ≤ R ^ 2 * (1 + 3 / 10 ^ 13) := by
    rw [val_mul]
    obtain ⟨h1, h2⟩ := abs_le.1 hr
    have h3 : R * (1 - 1 / 10 ^ 13) ≤ r.1 := by linarith
    have h4 : r.1 ≤ R * (1 + 1 / 10 ^ 13) := by linarith
    have h5 : 0 ≤ R * (1 - 1 / 10 ^ 13) := mul_nonneg hR.le (by norm_num)
    have k1 := mul_le_mul h3 h3 h5 (h5.trans h3)
    have k2 := mul_le_mul h4 h4 (h5.trans h3) ((h5.trans h3).trans h4)
    obtain ⟨m1, m2⟩ := flp (mul_self_nonneg r.1)
    have e1 : R * (1 - 1 / 10 ^ 13) * (R * (1 - 1 / 10 ^ 13)) = R ^ 2 * (1 - 1 / 10 ^ 13) ^ 2 := by ring
    have e2 : R * (1 + 1 / 10 ^ 13) * (R * (1 + 1 / 10 ^ 13)) = R ^ 2 * (1 + 1 / 10 ^ 13) ^ 2 := by ring
    rw [e1] at k1
    rw [e2] at k2
    constructor
    · refine le_trans ?_ m1
      have := mul_le_mul_of_nonneg_right k1 (by norm_num : (0 : ℝ) ≤ 1 - 1 / 10 ^ 15)
      refine le_trans ?_ this
      rw [mul_assoc]
      exact mul_le_mul_of_nonneg_left (by norm_num) hR2.le
    · refine m2.trans ?_
      have := mul_le_mul_of_nonneg_right k2 (by norm_num : (0 : ℝ) ≤ 1 + 1 / 10 ^ 15)
      refine this.trans ?_
      rw [mul_assoc]
      exact mul_le_mul_of_nonneg_left (by norm_num) hR2.le
  set A := (r *ₚ r).1 with hAd
  have hA0 : 0 ≤ A := le_trans (mul_nonneg hR2.le (by norm_num)) hA.1
  -- the denominator
  set w := (PyNum.ofRat 1 +ₚ PyNum.abs (t /ₚ u) : F64) with hwd
  have hw : (1 - 3 / 10 ^ 15) ≤ w.1 * k ∧ w.1 * k ≤ 1 + 3 / 10 ^ 15 := by
    have e1 : fl ((1 : ℚ) : ℝ) = 1 := by simp [fl_one]
    rw [hwd, val_add, val_ofRat, e1, val_abs, val_div]
    have h1 := fl_near (t.1 / u.1)
    have h2 := abs_abs_sub_abs_le (fl (t.1 / u.1)) (t.1 / u.1)
    rw [abs_div] at h1 h2
    have h3 := abs_le.1 (h2.trans h1)
    have hq : 0 ≤ |t.1| / |u.1| := by positivity
    generalize |t.1| / |u.1| = q at *
    obtain ⟨m1, m2⟩ := flp (z := 1 + |fl (t.1 / u.1)|) (by positivity)
    generalize |fl (t.1 / u.1)| = z at *
    have n1 : (1 + q) * (1 - 1 / 10 ^ 15) ≤ 1 + z := by linarith [h3.1]
    have n2 : 1 + z ≤ (1 + q) * (1 + 1 / 10 ^ 15) := by linarith [h3.2]
    constructor
    · have k1 := mul_le_mul_of_nonneg_right m1 hk0.le
      refine le_trans ?_ k1
      have k2 := mul_le_mul_of_nonneg_right n1 hk0.le
      have e : (1 + q) * (1 - 1 / 10 ^ 15) * k = 1 - 1 / 10 ^ 15 := by
        rw [mul_right_comm, hki, one_mul]
      rw [e] at k2
      rw [mul_right_comm]
      have := mul_le_mul_of_nonneg_right k2 (by norm_num : (0 : ℝ) ≤ 1 - 1 / 10 ^ 15)
      refine le_trans (by norm_num) this
    · have k1 := mul_le_mul_of_nonneg_right m2 hk0.le
      refine k1.trans ?_
      have k2 := mul_le_mul_of_nonneg_right n2 hk0.le
      have e : (1 + q) * (1 + 1 / 10 ^ 15) * k = 1 + 1 / 10 ^ 15 := by
        rw [mul_right_comm, hki, one_mul]
      rw [e] at k2
      rw [mul_right_comm]
      have := mul_le_mul_of_nonneg_right k2 (by norm_num : (0 : ℝ) ≤ 1 + 1 / 10 ^ 15)
      refine this.trans (by norm_num)
  have hw0 : 0 < w.1 := by
    by_contra hn
    have := mul_nonpos_of_nonpos_of_nonneg (not_lt.1 hn) hk0.le
    norm_num at *
    linarith [hw.1]
  have hB : R ^ 2 * k * (1 - 4 / 10 ^ 13) ≤ A / w.1 ∧ A / w.1 ≤ R ^ 2 * k * (1 + 4 / 10 ^ 13) := by
    constructor
    · rw [le_div_iff₀ hw0]
      have e : R ^ 2 * k * (1 - 4 / 10 ^ 13) * w.1 = R ^ 2 * (1 - 4 / 10 ^ 13) * (w.1 * k) := by ring
      rw [e]
      have := mul_le_mul_of_nonneg_left hw.2 (mul_nonneg hR2.le (by norm_num : (0 : ℝ) ≤ 1 - 4 / 10 ^ 13))
      refine this.trans (le_trans ?_ hA.1)
      rw [mul_assoc]
      exact mul_le_mul_of_nonneg_left (by norm_num) hR2.le
    · rw [div_le_iff₀ hw0]
      have e : R ^ 2 * k * (1 + 4 / 10 ^ 13) * w.1 = R ^ 2 * (1 + 4 / 10 ^ 13) * (w.1 * k) := by ring
      rw [e]
      have := mul_le_mul_of_nonneg_left hw.1 (mul_nonneg hR2.le (by norm_num : (0 : ℝ) ≤ 1 + 4 / 10 ^ 13))
      refine hA.2.trans (le_trans ?_ this)
      rw [mul_assoc]
      exact mul_le_mul_of_nonneg_left (by norm_num) hR2.le
  have hRk : 0 < R ^ 2 * k := by positivity
  have hsv : s.1 = fl √(fl (A / w.1)) := by rw [hsd, val_sqrt, val_div]
  have hD0 : 0 ≤ A / w.1 := div_nonneg hA0 hw0.le
  have hS : R ^ 2 * k * (1 - 5 / 10 ^ 13) ≤ s.1 ^ 2 ∧ s.1 ^ 2 ≤ R ^ 2 * k * (1 + 5 / 10 ^ 13) := by
    obtain ⟨m1, m2⟩ := flp hD0
    obtain ⟨n1, n2⟩ := fls (fl_nonneg hD0)
    rw [hsv]
    generalize A / w.1 = D at *
    generalize fl D = D' at *
    generalize R ^ 2 * k = X at *
    constructor
    · refine le_trans ?_ n1
      have k1 := mul_le_mul_of_nonneg_right (le_trans (mul_le_mul_of_nonneg_right hB.1
        (by norm_num : (0 : ℝ) ≤ 1 - 1 / 10 ^ 15)) m1) (by norm_num : (0 : ℝ) ≤ 1 - 3 / 10 ^ 15)
      refine le_trans ?_ k1
      rw [mul_assoc, mul_assoc]
      exact mul_le_mul_of_nonneg_left (by norm_num) hRk.le
    · refine n2.trans ?_
      have k1 := mul_le_mul_of_nonneg_right (m2.trans (mul_le_mul_of_nonneg_right hB.2
        (by norm_num : (0 : ℝ) ≤ 1 + 1 / 10 ^ 15))) (by norm_num : (0 : ℝ) ≤ 1 + 3 / 10 ^ 15)
      refine k1.trans ?_
      rw [mul_assoc, mul_assoc]
      exact mul_le_mul_of_nonneg_left (by norm_num) hRk.le
  have hs0 : 0 ≤ s.1 := by rw [hsv]; exact fl_nonneg (Real.sqrt_nonneg _)
  -- the second coordinate
  have hss : (copysign s u *ₚ copysign s u).1 = fl (s.1 ^ 2) := by
    rw [val_mul, ← abs_mul_abs_self (copysign s u).1, copysign_abs, abs_mul_abs_self, sq]
  set Z := r *ₚ r -ₚ copysign s u *ₚ copysign s u with hZd
  have hZ : Z.1 = fl (A - fl (s.1 ^ 2)) := by rw [hZd, val_sub, hss]
  obtain ⟨hZ0, hrv⟩ : 0 ≤ Z.1 ∧ root = PyNum.sqrt Z := by
    unfold psqrt at hroot
    split at hroot
    · cases hroot
    · rename_i h
      rw [lt64_iff, val_ofRat0, not_lt] at h
      cases hroot
      exact ⟨h, rfl⟩
  have hrt : root.1 = fl √Z.1 := by rw [hrv, val_sqrt]
  have hr0 : 0 ≤ root.1 := by rw [hrt]; exact fl_nonneg (Real.sqrt_nonneg _)
  refine ⟨?_, ?_, hs0, hr0⟩
  · rw [abs_le]
    generalize R ^ 2 * k = X at *
    constructor <;> norm_num at * <;> linarith [hS.1, hS.2]
  · obtain ⟨n1, n2⟩ := fls hZ0
    rw [← hrt] at n1 n2
    obtain ⟨m1, m2⟩ := flp (sq_nonneg s.1)
    have hZn := fl_near (A - fl (s.1 ^ 2))
    rw [← hZ] at hZn
    have hXk : R ^ 2 * k ≤ R ^ 2 := by nlinarith
    have e : R ^ 2 * (1 - k) = R ^ 2 - R ^ 2 * k := by ring
    rw [e]
    have hd : |A - fl (s.1 ^ 2) - (R ^ 2 - R ^ 2 * k)| ≤ R ^ 2 * (9 / 10 ^ 13) := by
      rw [abs_le]
      generalize fl (s.1 ^ 2) = S' at *
      generalize s.1 ^ 2 = S at *
      generalize R ^ 2 * k = X at *
      generalize R ^ 2 = Q at *
      obtain ⟨a1, a2⟩ := hA
      obtain ⟨s1, s2⟩ := hS
      norm_num at *
      constructor <;> linarith
    have hd2 : |A - fl (s.1 ^ 2)| ≤ 2 * R ^ 2 := by
      have h3 := abs_sub_abs_le_abs_sub (A - fl (s.1 ^ 2)) (R ^ 2 - R ^ 2 * k)
      rw [abs_of_nonneg (by linarith : (0 : ℝ) ≤ R ^ 2 - R ^ 2 * k)] at h3
      norm_num at *
      linarith
    have hZn' : |Z.1 - (A - fl (s.1 ^ 2))| ≤ R ^ 2 * (2 / 10 ^ 15) := by
      refine hZn.trans ?_
      have := mul_le_mul_of_nonneg_right hd2 (by norm_num : (0 : ℝ) ≤ 1 / 10 ^ 15)
      refine this.trans (le_of_eq (by ring))
    have hZ2 : Z.1 ≤ 2 * R ^ 2 := by
      have := abs_le.1 hZn'
      have := abs_le.1 hd
      norm_num at *
      linarith
    rw [abs_le] at hZn' hd ⊢
    generalize A - fl (s.1 ^ 2) = Y at *
    generalize R ^ 2 * k = X at *
    generalize R ^ 2 = Q at *
    generalize root.1 ^ 2 = W at *
    norm_num at *
    constructor <;> linarith [hZn'.1, hZn'.2, hd.1, hd.2]

/-- A coordinate on the side of `x`, almost two steps away, or zero. -/
structure Beside (ea : F64) (x P : ℝ) : Prop where
  zero : x = 0 → ea.1 = 0
  pos : 0 < x → 19 / 10 ≤ ea.1 * P
  neg : x < 0 → ea.1 * P ≤ -(19 / 10)

theorem beside_zero (P : ℝ) : Beside zeroF 0 P :=
  ⟨fun _ => val_zero, fun h => absurd h (lt_irrefl _), fun h => absurd h (lt_irrefl _)⟩

theorem beside_copysign {s u : F64} {x P : ℝ} (hP : 0 < P) (hx : x ≠ 0)
    (hu : |u.1 - x| ≤ |x| * (1 / 10 ^ 7)) (hs : 0 ≤ s.1) (h : (19 / 10) ^ 2 ≤ (s.1 * P) ^ 2) :
    Beside (copysign s u) x P := by
  have h1 : 19 / 10 ≤ s.1 * P := by
    have := sq_le_sq.1 h
    rwa [abs_of_nonneg (mul_nonneg hs hP.le), abs_of_pos (by norm_num)] at this
  refine ⟨fun h => absurd h hx, fun h0 => ?_, fun h0 => ?_⟩
  · have hn : ¬ (u <ₚ PyNum.ofRat 0) = true := by
      rw [lt64_iff, val_ofRat0, not_lt]
      rw [abs_of_pos h0, abs_le] at hu
      norm_num at *
      linarith [hu.1]
    unfold copysign
    rw [if_neg hn]
    exact h1
  · have hn : (u <ₚ PyNum.ofRat 0) = true := by
      rw [lt64_iff, val_ofRat0]
      rw [abs_of_neg h0, abs_le] at hu
      norm_num at *
      linarith [hu.2]
    unfold copysign
    rw [if_pos hn, val_neg]
    linarith

/-- The difference of two numbers of steps. -/
theorem off64 {x y : ℝ} (hx : |x| ≤ 10 ^ 4) (hy : |y| ≤ 10 ^ 4) (h : x = y ∨ 1 / 1000 ≤ |x - y|) :
    |(F64.of x -ₚ F64.of y).1 - (x - y)| ≤ |x - y| * (1 / 10 ^ 7) := by
  rcases h with rfl | h
  · rw [val_sub, sub_self, sub_self, fl_zero]
    simp
  · have := diff64 (m := 30000) (of_near (hx.trans (by norm_num))) (of_near (hy.trans (by norm_num)))
      (by norm_num at *; linarith)
    have h2 := mul_le_mul_of_nonneg_right h (by norm_num : (0 : ℝ) ≤ 1 / 10 ^ 7)
    norm_num at *
    linarith

/-- The end of an arc that is accepted. -/
theorem adjust_point64 {xa xb ya yb : ℝ} {rot : Rot} {pa pb ma mb a b : F64}
    (h : adjustCircle (F64.of xa) (F64.of xb) (F64.of ya) (F64.of yb) rot pa pb ma mb = .ok (a, b))
    (h0 : ¬ (xa = 0 ∧ xb = 0)) {P : ℝ} (hP : 0 < P)
    (hR1 : 2 ≤ √(ya ^ 2 + yb ^ 2) * P) (hR2 : √(ya ^ 2 + yb ^ 2) * P ≤ 10000)
    (hxa : |(F64.of xa -ₚ F64.of ya).1 - (xa - ya)| ≤ |xa - ya| * (1 / 10 ^ 7))
    (hxb : |(F64.of xb -ₚ F64.of yb).1 - (xb - yb)| ≤ |xb - yb| * (1 / 10 ^ 7))
    (he : (xa - ya = 0 ∧ xb - yb ≠ 0) ∨ (xa - ya ≠ 0 ∧ xb - yb = 0) ∨
      (xa - ya ≠ 0 ∧ xb - yb ≠ 0 ∧
        4 * (|xa - ya| + |xb - yb|) ≤ (√(ya ^ 2 + yb ^ 2) * P) ^ 2 * |xa - ya| ∧
        4 * (|xa - ya| + |xb - yb|) ≤ (√(ya ^ 2 + yb ^ 2) * P) ^ 2 * |xb - yb|)) :
    ∃ ea eb : F64, a = ea +ₚ F64.of ya ∧ b = eb +ₚ F64.of yb ∧ Beside ea (xa - ya) P ∧
      Beside eb (xb - yb) P ∧
      |ea.1 ^ 2 + eb.1 ^ 2 - √(ya ^ 2 + yb ^ 2) ^ 2| ≤ √(ya ^ 2 + yb ^ 2) ^ 2 * (1 / 10 ^ 11) := by
  have hyp := hypot64 (ya := ya) (yb := yb)
  set R := √(ya ^ 2 + yb ^ 2) with hRd
  have hR : 0 < R := by
    by_contra hn
    have := mul_nonpos_of_nonpos_of_nonneg (not_lt.1 hn) hP.le
    linarith
  have hRsq : 0 < R ^ 2 := by positivity
  set r : F64 := PyNum.sqrt (F64.of ya *ₚ F64.of ya +ₚ F64.of yb *ₚ F64.of yb) with hrd
  have hr : |r.1 - R| ≤ R * (1 / 10 ^ 13) := by
    rw [hrd, val_sqrt, val_add, val_mul, val_mul, val_of, val_of]
    exact hyp
  have hr1 : R * (1 - 1 / 10 ^ 13) ≤ r.1 := by linarith [(abs_le.1 hr).1]
  have hr2 : r.1 ≤ R * (1 + 1 / 10 ^ 13) := by linarith [(abs_le.1 hr).2]
  have hr0 : 0 < r.1 := lt_of_lt_of_le (mul_pos hR (by norm_num)) hr1
  have hrsq : |r.1 ^ 2 - R ^ 2| ≤ R ^ 2 * (1 / 10 ^ 11) := by
    have k1 := pow_le_pow_left₀ (mul_pos hR (by norm_num)).le hr1 2
    have k2 := pow_le_pow_left₀ hr0.le hr2 2
    rw [mul_pow] at k1 k2
    generalize R ^ 2 = Q at *
    rw [abs_le]
    norm_num at *
    constructor <;> linarith
  have hrP : (19 / 10) ^ 2 ≤ (r.1 * P) ^ 2 := by
    refine pow_le_pow_left₀ (by norm_num) ?_ 2
    have := mul_le_mul_of_nonneg_right hr1 hP.le
    have e : R * (1 - 1 / 10 ^ 13) * P = R * P * (1 - 1 / 10 ^ 13) := by ring
    rw [e] at this
    have := mul_le_mul_of_nonneg_right hR1 (by norm_num : (0 : ℝ) ≤ 1 - 1 / 10 ^ 13)
    norm_num at *
    linarith
  have hrne : (r =ₚ zeroF) = false := by
    rw [← Bool.not_eq_true, eq64_iff, val_zero]; exact hr0.ne'
  have hrr : PyNum.sqrt (r *ₚ r) = r := ext64 (by
    rw [val_sqrt, val_mul, fl_sqrt_sq r.2, abs_of_pos hr0])
  have e1 : (F64.of xa =ₚ zeroF && F64.of xb =ₚ zeroF) = false := by
    rw [← Bool.not_eq_true, Bool.and_eq_true, eq_zero64, eq_zero64]; exact h0
  have okb : ∀ {α β : Type} (x : α) (f : α → Except PyErr β), (Except.ok x >>= f) = f x :=
    fun _ _ => rfl
  have hz0 : ∀ {z x : ℝ}, |z - x| ≤ |x| * (1 / 10 ^ 7) → x = 0 → z = 0 := by
    intro z x hz hx
    rw [hx, sub_zero, abs_zero, zero_mul] at hz
    exact abs_nonpos_iff.1 hz
  have hzn : ∀ {z x : ℝ}, |z - x| ≤ |x| * (1 / 10 ^ 7) → x ≠ 0 → z ≠ 0 := by
    intro z x hz hx h
    rw [h, zero_sub, abs_neg] at hz
    have := abs_pos.2 hx
    norm_num at hz
    linarith
  unfold adjustCircle at h
  rw [← hrd] at h
  simp only [hrne, Bool.false_eq_true, if_false, e1] at h
  rcases he with ⟨ha, hb⟩ | ⟨ha, hb⟩ | ⟨ha, hb, q1, q2⟩
  · -- above or below the centre
    have hu0 : F64.of xa -ₚ F64.of ya = zeroF := ext64 (by rw [hz0 hxa ha, val_zero])
    have hz : ((F64.of xa -ₚ F64.of ya) =ₚ (zeroF : F64)) = true := by
      rw [hu0]; exact (eq64_iff _ _).2 rfl
    have hq : r *ₚ r -ₚ (zeroF : F64) *ₚ zeroF = r *ₚ r := ext64 (by
      rw [val_sub, val_mul zeroF, val_zero, mul_zero, fl_zero, sub_zero]; exact (r *ₚ r).2)
    have hsq : psqrt (r *ₚ r) = .ok r := by
      rw [psqrt64_ok (by rw [val_mul]; exact fl_nonneg (mul_self_nonneg _)), hrr]
    simp only [hz, if_true, pure_bind, hq, hsq, okb] at h
    obtain ⟨-, -, h⟩ := bindE_ok h
    cases h
    refine ⟨_, _, rfl, rfl, ha ▸ beside_zero P, beside_copysign hP hb hxb hr0.le hrP, ?_⟩
    rw [val_zero, ← sq_abs (copysign r _).1, copysign_abs, sq_abs]
    simpa using hrsq
  · -- beside the centre
    have ht0 : F64.of xb -ₚ F64.of yb = zeroF := ext64 (by rw [hz0 hxb hb, val_zero])
    have hne := hzn hxa ha
    have hz : ((F64.of xa -ₚ F64.of ya) =ₚ (zeroF : F64)) = false := by
      rw [← Bool.not_eq_true, eq64_iff, val_zero]; exact hne
    have hq1 : r *ₚ r /ₚ (PyNum.ofRat 1 +ₚ PyNum.abs (zeroF /ₚ (F64.of xa -ₚ F64.of ya))) = r *ₚ r :=
      ext64 (by
        have : fl ((1 : ℚ) : ℝ) = 1 := by simp [fl_one]
        rw [val_div, val_add, val_abs, val_div, val_zero, val_ofRat, this, zero_div, fl_zero, abs_zero,
          add_zero, fl_one, div_one]
        exact (r *ₚ r).2)
    have hq2 : r *ₚ r -ₚ copysign r (F64.of xa -ₚ F64.of ya) *ₚ copysign r (F64.of xa -ₚ F64.of ya) =
        zeroF := ext64 (by
      rw [val_sub, val_mul, val_mul, ← abs_mul_abs_self (copysign r _).1, copysign_abs,
        abs_mul_abs_self, sub_self, fl_zero, val_zero])
    have hsq : psqrt (zeroF : F64) = .ok zeroF := by
      rw [psqrt64_ok (by rw [val_zero])]
      exact congrArg _ (ext64 (by rw [val_sqrt, val_zero, Real.sqrt_zero, fl_zero]))
    have hcz : copysign (zeroF : F64) zeroF = zeroF := by
      unfold copysign
      rw [if_neg (by rw [lt64_iff, val_zero, val_ofRat0]; exact lt_irrefl _)]
    simp only [hz, Bool.false_eq_true, if_false, ht0, pdiv64_ok hne, okb, pure_bind, hq1, hrr, hq2, hsq,
      hcz] at h
    obtain ⟨-, -, h⟩ := bindE_ok h
    cases h
    refine ⟨_, _, rfl, rfl, beside_copysign hP ha hxa hr0.le hrP, hb ▸ beside_zero P, ?_⟩
    rw [val_zero, ← sq_abs (copysign r _).1, copysign_abs, sq_abs]
    simpa using hrsq
  · -- elsewhere
    have hne := hzn hxa ha
    have hz : ((F64.of xa -ₚ F64.of ya) =ₚ (zeroF : F64)) = false := by
      rw [← Bool.not_eq_true, eq64_iff, val_zero]; exact hne
    simp only [hz, Bool.false_eq_true, if_false, pdiv64_ok hne, okb, pure_bind] at h
    obtain ⟨root, hroot, h⟩ := bindE_ok h
    obtain ⟨-, -, h⟩ := bindE_ok h
    cases h
    obtain ⟨s1, s2, s3, s4⟩ := point_squares64 hR hr hne hroot
    set u := F64.of xa -ₚ F64.of ya with hud
    set t := F64.of xb -ₚ F64.of yb with htd
    set s := PyNum.sqrt (r *ₚ r /ₚ (PyNum.ofRat 1 +ₚ PyNum.abs (t /ₚ u))) with hsd
    have uv : ∀ {z x : ℝ}, |z - x| ≤ |x| * (1 / 10 ^ 7) →
        |x| * (1 - 1 / 10 ^ 7) ≤ |z| ∧ |z| ≤ |x| * (1 + 1 / 10 ^ 7) := by
      intro z x hzx
      have := abs_abs_sub_abs_le z x
      have := abs_le.1 (this.trans hzx)
      constructor <;> linarith [this.1, this.2]
    obtain ⟨u1, u2⟩ := uv hxa
    obtain ⟨t1, t2⟩ := uv hxb
    have hU : 0 < |u.1| := abs_pos.2 hne
    have hT := abs_nonneg t.1
    have hUT : 0 < |u.1| + |t.1| := by linarith
    have part : ∀ {z x : ℝ}, |x| * (1 - 1 / 10 ^ 7) ≤ |z| →
        4 * (|xa - ya| + |xb - yb|) ≤ (R * P) ^ 2 * |x| →
        399 / 100 ≤ (R * P) ^ 2 * (|z| / (|u.1| + |t.1|)) := by
      intro z x hz hq
      rw [mul_div_assoc', le_div_iff₀ hUT]
      have k1 := mul_le_mul_of_nonneg_left hz (sq_nonneg (R * P))
      have k2 := mul_le_mul_of_nonneg_right hq (by norm_num : (0 : ℝ) ≤ 1 - 1 / 10 ^ 7)
      generalize (R * P) ^ 2 = Q at *
      have k3 : Q * (|x| * (1 - 1 / 10 ^ 7)) = Q * |x| * (1 - 1 / 10 ^ 7) := by ring
      rw [k3] at k1
      have := abs_nonneg (xa - ya)
      have := abs_nonneg (xb - yb)
      norm_num at *
      linarith
    have pA := part u1 q1
    have pB := part t1 q2
    have hRP : (R * P) ^ 2 ≤ 10 ^ 8 := by
      have := pow_le_pow_left₀ (mul_pos hR hP).le hR2 2
      norm_num at *
      linarith
    have hP2 : 0 < P ^ 2 := by positivity
    refine ⟨_, _, rfl, rfl, beside_copysign hP ha hxa s3 ?_, beside_copysign hP hb hxb s4 ?_, ?_⟩
    · have k := mul_le_mul_of_nonneg_right (abs_le.1 s1).1 hP2.le
      have e2 : (s.1 ^ 2 - R ^ 2 * (|u.1| / (|u.1| + |t.1|))) * P ^ 2 =
        (s.1 * P) ^ 2 - (R * P) ^ 2 * (|u.1| / (|u.1| + |t.1|)) := by ring
      have e3 : -(R ^ 2 * (|u.1| / (|u.1| + |t.1|)) * (1 / 10 ^ 12)) * P ^ 2 =
        -((R * P) ^ 2 * (|u.1| / (|u.1| + |t.1|)) * (1 / 10 ^ 12)) := by ring
      rw [e2, e3] at k
      generalize (R * P) ^ 2 * (|u.1| / (|u.1| + |t.1|)) = Y at *
      norm_num at *
      linarith
    · have k := mul_le_mul_of_nonneg_right (abs_le.1 s2).1 hP2.le
      have e2 : (root.1 ^ 2 - R ^ 2 * (|t.1| / (|u.1| + |t.1|))) * P ^ 2 =
        (root.1 * P) ^ 2 - (R * P) ^ 2 * (|t.1| / (|u.1| + |t.1|)) := by ring
      have e3 : -(R ^ 2 * (2 / 10 ^ 12)) * P ^ 2 = -((R * P) ^ 2 * (2 / 10 ^ 12)) := by ring
      rw [e2, e3] at k
      generalize (R * P) ^ 2 * (|t.1| / (|u.1| + |t.1|)) = Y at *
      generalize (R * P) ^ 2 = Q at *
      norm_num at *
      linarith
    · rw [← sq_abs (copysign s _).1, copysign_abs, sq_abs, ← sq_abs (copysign root _).1, copysign_abs,
        sq_abs]
      have e2 : |t.1| / (|u.1| + |t.1|) = 1 - |u.1| / (|u.1| + |t.1|) := by field_simp; ring
      have e3 : |u.1| / (|u.1| + |t.1|) ≤ 1 := by
        rw [div_le_one hUT]; linarith
      rw [e2] at s2
      generalize |u.1| / (|u.1| + |t.1|) = k at *
      have k1 : R ^ 2 * k ≤ R ^ 2 := by nlinarith
      have e4 : R ^ 2 * (1 - k) = R ^ 2 - R ^ 2 * k := by ring
      rw [e4] at s2
      generalize R ^ 2 * k = X at *
      generalize R ^ 2 = Q at *
      rw [abs_le] at *
      norm_num at *
      constructor <;> linarith [s1.1, s1.2, s2.1, s2.2]

end PyCNC
