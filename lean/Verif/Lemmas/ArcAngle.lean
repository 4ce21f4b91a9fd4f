import Verif.Lemmas.LinearNew
import Verif.Lemmas.Arc

/-!
# Angles and quarters in exact arithmetic
-/

set_option linter.unusedSectionVars false

namespace PyCNC

open Spec Real

variable [PyRound]

theorem pacos_ok {x : ℝ} (h1 : -1 ≤ x) (h2 : x ≤ 1) : pacos x = .ok (Real.arccos x) := by
  unfold pacos
  have : ¬ ((x <ₚ PyNum.ofRat (-1)) || ((PyNum.ofRat 1 : ℝ) <ₚ x)) = true := by
    simp; constructor <;> linarith
  rw [if_neg this]
  rfl

theorem psqrt_ok {x : ℝ} (h : 0 ≤ x) : psqrt x = .ok (Real.sqrt x) := by
  unfold psqrt
  rw [if_neg (by simpa [zeroF] using h)]
  rfl

/-- The angle of a point, measured from the second axis towards the first. -/
theorem angle_spec {a b : ℝ} (h : a ^ 2 + b ^ 2 ≠ 0) : ∃ φ, angle a b = .ok φ ∧ 0 ≤ φ ∧ φ < 2 * π ∧
    a = √(a ^ 2 + b ^ 2) * sin φ ∧ b = √(a ^ 2 + b ^ 2) * cos φ := by
  have hpos : 0 < a ^ 2 + b ^ 2 := lt_of_le_of_ne (by positivity) (Ne.symm h)
  set r := √(a ^ 2 + b ^ 2) with hr
  have hr0 : 0 < r := Real.sqrt_pos.2 hpos
  have hsq : r ^ 2 = a ^ 2 + b ^ 2 := Real.sq_sqrt hpos.le
  have hb : |b| ≤ r := Real.abs_le_sqrt (by nlinarith)
  obtain ⟨hb1, hb2⟩ := abs_le.1 hb
  have h1 : -1 ≤ b / r := by rw [le_div_iff₀ hr0]; linarith
  have h2 : b / r ≤ 1 := by rw [div_le_iff₀ hr0]; linarith
  have hang : angle a b = .ok (if a < 0 then 2 * π - arccos (b / r) else arccos (b / r)) := by
    unfold angle
    have e1 : PyNum.sqrt (a *ₚ a +ₚ b *ₚ b) = r := by simp [hr, pow_two]
    rw [e1, pdiv_ok hr0.ne']
    change (pacos (b / r) >>= _) = _
    rw [pacos_ok h1 h2]
    change Except.ok _ = _
    simp
  have hcos : cos (arccos (b / r)) = b / r := cos_arccos h1 h2
  have hsin : r * sin (arccos (b / r)) = |a| := by
    rw [sin_arccos]
    have : 1 - (b / r) ^ 2 = (a / r) ^ 2 := by
      field_simp; linarith
    rw [this, Real.sqrt_sq_eq_abs, abs_div, abs_of_pos hr0]
    field_simp
  rw [hang]
  refine ⟨_, rfl, ?_, ?_, ?_, ?_⟩
  · split
    · have := arccos_le_pi (b / r); linarith [pi_pos]
    · exact arccos_nonneg _
  · split
    · next ha =>
      have : 0 < arccos (b / r) := by
        rw [arccos_pos, div_lt_one hr0]
        nlinarith
      linarith
    · have := arccos_le_pi (b / r); linarith [pi_pos]
  · split
    · next ha =>
      rw [sin_two_pi_sub, mul_neg, hsin, abs_of_neg ha, neg_neg]
    · next ha =>
      rw [hsin, abs_of_nonneg (not_lt.1 ha)]
  · split
    · rw [cos_two_pi_sub, hcos]; field_simp
    · rw [hcos]; field_simp

/-- Where the angle of a point of a quarter lies. -/
theorem quarter_range {a b r φ : ℝ} (hr : 0 < r) (h0 : 0 ≤ φ) (h2 : φ < 2 * π)
    (ha : a = r * sin φ) (hb : b = r * cos φ) :
    (arcQuarter a b : ℝ) * (π / 2) ≤ φ ∧ φ < ((arcQuarter a b : ℝ) + 1) * (π / 2) := by
  have hp := pi_pos
  have sa : 0 ≤ a ↔ 0 ≤ sin φ := by rw [ha]; exact mul_nonneg_iff_of_pos_left hr
  have sa' : 0 < a ↔ 0 < sin φ := by rw [ha]; exact mul_pos_iff_of_pos_left hr
  have sb : 0 ≤ b ↔ 0 ≤ cos φ := by rw [hb]; exact mul_nonneg_iff_of_pos_left hr
  have sb' : 0 < b ↔ 0 < cos φ := by rw [hb]; exact mul_pos_iff_of_pos_left hr
  -- the four quarters
  rcases lt_or_ge φ (π / 2) with c1 | c1
  · have h3 : 0 ≤ sin φ := sin_nonneg_of_nonneg_of_le_pi h0 (by linarith)
    have h4 : 0 < cos φ := cos_pos_of_mem_Ioo ⟨by linarith, c1⟩
    have : arcQuarter a b = 0 := by unfold arcQuarter; rw [if_pos ⟨sa.2 h3, sb'.2 h4⟩]
    rw [this]; constructor <;> push_cast <;> linarith
  rcases lt_or_ge φ π with c2 | c2
  · have h3 : 0 < sin φ := sin_pos_of_pos_of_lt_pi (by linarith) c2
    have h4 : cos φ ≤ 0 := cos_nonpos_of_pi_div_two_le_of_le c1 (by linarith)
    have : arcQuarter a b = 1 := by
      unfold arcQuarter
      rw [if_neg (fun h => absurd (sb'.1 h.2) (not_lt.2 h4)),
        if_pos ⟨sa'.2 h3, not_lt.1 fun h => absurd (sb'.1 h) (not_lt.2 h4)⟩]
    rw [this]; constructor <;> push_cast <;> linarith
  rcases lt_or_ge φ (3 * (π / 2)) with c3 | c3
  · have h3 : sin φ ≤ 0 := by
      have := sin_nonneg_of_nonneg_of_le_pi (x := φ - π) (by linarith) (by linarith)
      rw [sin_sub_pi] at this; linarith
    have h4 : cos φ < 0 := by
      have := cos_pos_of_mem_Ioo (x := φ - π) ⟨by linarith, by linarith⟩
      rw [cos_sub_pi] at this; linarith
    have hb0 : b < 0 := by rw [hb]; exact mul_neg_of_pos_of_neg hr h4
    have ha0 : a ≤ 0 := by rw [ha]; exact mul_nonpos_of_nonneg_of_nonpos hr.le h3
    have : arcQuarter a b = 2 := by
      unfold arcQuarter
      rw [if_neg (fun h => by linarith [h.2]), if_neg (fun h => by linarith [h.1]), if_pos ⟨ha0, hb0⟩]
    rw [this]; constructor <;> push_cast <;> linarith
  · have h3 : sin φ < 0 := by
      have := sin_pos_of_pos_of_lt_pi (x := φ - π) (by linarith) (by linarith)
      rw [sin_sub_pi] at this; linarith
    have h4 : 0 ≤ cos φ := by
      have := cos_nonneg_of_mem_Icc (x := φ - 2 * π) ⟨by linarith, by linarith⟩
      rw [cos_sub_two_pi] at this; exact this
    have ha0 : a < 0 := by rw [ha]; exact mul_neg_of_pos_of_neg hr h3
    have hb0 : 0 ≤ b := sb.2 h4
    have : arcQuarter a b = 3 := by
      unfold arcQuarter
      rw [if_neg (fun h => by linarith [h.1]), if_neg (fun h => by linarith [h.1]),
        if_neg (fun h => by linarith [h.2])]
    rw [this]; constructor <;> push_cast <;> linarith

/-- The program's number of the quarter. -/
theorem truncI_quarter {q : ℤ} {φ : ℝ} (hq : 0 ≤ q) (h1 : (q : ℝ) * (π / 2) ≤ φ)
    (h2 : φ < ((q : ℝ) + 1) * (π / 2)) : (PyNum.truncI (φ /ₚ (PyNum.pi /ₚ PyNum.ofRat 2)) : ℤ) = q := by
  have hp := pi_pos
  have hh : (0 : ℝ) < π / 2 := by linarith
  have hq' : (0 : ℝ) ≤ q := by exact_mod_cast hq
  simp only [div_eq, pi_eq, ofRat_eq, truncI_eq, Rat.cast_ofNat]
  rw [if_pos (div_nonneg (le_trans (mul_nonneg hq' hh.le) h1) hh.le), Int.floor_eq_iff]
  constructor
  · rw [le_div_iff₀ hh]; exact h1
  · rw [div_lt_iff₀ hh]; exact h2

theorem arcQuarter_cases (a b : ℝ) : arcQuarter a b = 0 ∨ arcQuarter a b = 1 ∨ arcQuarter a b = 2 ∨
    arcQuarter a b = 3 := by
  unfold arcQuarter; split_ifs <;> simp

theorem arcQuarter_zero {a b : ℝ} (h : arcQuarter a b = 0) : 0 ≤ a ∧ 0 < b := by
  unfold arcQuarter at h; split_ifs at h <;> first | assumption | omega

theorem arcQuarter_one {a b : ℝ} (h : arcQuarter a b = 1) : 0 < a ∧ b ≤ 0 := by
  unfold arcQuarter at h; split_ifs at h <;> first | assumption | omega

theorem arcQuarter_two {a b : ℝ} (h : arcQuarter a b = 2) : a ≤ 0 ∧ b < 0 := by
  unfold arcQuarter at h; split_ifs at h <;> first | assumption | omega

theorem arcQuarter_three {a b : ℝ} (hne : a ^ 2 + b ^ 2 ≠ 0) (h : arcQuarter a b = 3) :
    a < 0 ∧ 0 ≤ b := by
  unfold arcQuarter at h
  split_ifs at h with h1 h2 h3 <;> try omega
  rcases lt_trichotomy a 0 with ha | ha | ha
  · exact ⟨ha, not_lt.1 fun hb => h3 ⟨ha.le, hb⟩⟩
  · exfalso
    subst ha
    rcases lt_trichotomy b 0 with hb | hb | hb
    · exact h3 ⟨le_refl _, hb⟩
    · subst hb; simp at hne
    · exact h1 ⟨le_refl _, hb⟩
  · exfalso
    rcases lt_or_ge 0 b with hb | hb
    · exact h1 ⟨ha.le, hb⟩
    · exact h2 ⟨ha, hb⟩

/-- Inside a quarter the order of the angles is the sign of the cross product. -/
theorem angle_lt_iff {a b r φ a' b' r' φ' : ℝ} (hr : 0 < r) (hr' : 0 < r')
    (ha : a = r * sin φ) (hb : b = r * cos φ) (ha' : a' = r' * sin φ') (hb' : b' = r' * cos φ')
    {q : ℝ} (h1 : q * (π / 2) ≤ φ) (h2 : φ < (q + 1) * (π / 2)) (h1' : q * (π / 2) ≤ φ')
    (h2' : φ' < (q + 1) * (π / 2)) : φ < φ' ↔ a * b' < a' * b := by
  have hp := pi_pos
  have hx : a' * b - a * b' = r * r' * sin (φ' - φ) := by
    rw [sin_sub, ha, hb, ha', hb']; ring
  have hrr : 0 < r * r' := mul_pos hr hr'
  constructor
  · intro h
    have : 0 < sin (φ' - φ) := sin_pos_of_pos_of_lt_pi (by linarith) (by nlinarith)
    have := mul_pos hrr this
    linarith
  · intro h
    by_contra hn
    have : sin (φ' - φ) ≤ 0 := by
      have := sin_nonneg_of_nonneg_of_le_pi (x := φ - φ') (by linarith) (by nlinarith)
      rw [← neg_sub, sin_neg]; linarith
    have := mul_nonpos_of_nonneg_of_nonpos hrr.le this
    linarith

end PyCNC
