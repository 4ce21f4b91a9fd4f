import Verif.Lemmas.ArcExact
import Verif.Lemmas.Linear64
import Mathlib.Analysis.Real.Pi.Bounds

/-!
# Quarters of the circle in binary64
-/

set_option linter.unusedSectionVars false

namespace PyCNC

open Spec

variable [PyRound]

/-- Half of `math.pi`. -/
noncomputable def halfPi : ℝ := 884279719003555 / 2 ^ 49

theorem halfPi_lo : 157 / 100 < halfPi := by unfold halfPi; norm_num
theorem halfPi_hi : halfPi < 158 / 100 := by unfold halfPi; norm_num

theorem halfPi_near : |halfPi - Real.pi / 2| ≤ 1 / 10 ^ 15 := by
  have h1 := Real.pi_gt_d20
  have h2 := Real.pi_lt_d20
  unfold halfPi
  rw [abs_le]
  constructor <;> norm_num at h1 h2 ⊢ <;> linarith

/-- The value of `math.pi`. -/
theorem pi64 : fl Real.pi = 2 * halfPi := by
  have h1 := Real.pi_gt_d20
  have h2 := Real.pi_lt_d20
  have h0 := Real.pi_pos
  have := fl_val (x := Real.pi) (k := -51) (m := 7074237752028440)
    (by rw [abs_of_pos h0]; norm_num at h1 ⊢; linarith)
    (by rw [abs_of_pos h0]; norm_num at h2 ⊢; linarith)
    (by rw [abs_lt]; constructor <;> norm_num at h1 h2 ⊢ <;> linarith)
  rw [this]
  unfold halfPi
  norm_num

/-- Small multiples of it are exact. -/
theorem fl_halfPi (n : ℤ) (h0 : 0 ≤ n) (h1 : n ≤ 8) : fl (n * halfPi) = n * halfPi := by
  have e : (n : ℝ) * halfPi = ((n * 884279719003555 : ℤ) : ℝ) * 2 ^ (-49 : ℤ) := by
    unfold halfPi
    push_cast
    norm_num
    ring
  rw [e]
  refine fl_representable _ _ ?_
  rw [abs_of_nonneg (by positivity)]
  omega

theorem fl_halfPi_half (n : ℤ) (h0 : 0 ≤ n) (h1 : n ≤ 8) : fl (n * halfPi / 2) = n * halfPi / 2 := by
  have e : (n : ℝ) * halfPi / 2 = ((n * 884279719003555 : ℤ) : ℝ) * 2 ^ (-50 : ℤ) := by
    unfold halfPi
    push_cast
    norm_num
    ring
  rw [e]
  refine fl_representable _ _ ?_
  rw [abs_of_nonneg (by positivity)]
  omega

theorem fl_rat2 : fl ((2 : ℚ) : ℝ) = 2 := by
  have := fl_int 2 (by norm_num)
  simpa using this

theorem fl_rat3 : fl ((3 : ℚ) : ℝ) = 3 := by
  have := fl_int 3 (by norm_num)
  simpa using this

theorem half64 : ((PyNum.pi : F64) /ₚ PyNum.ofRat 2).1 = halfPi := by
  rw [val_div, val_ofRat, val_pi, fl_rat2, pi64]
  have := fl_halfPi 1 (by norm_num) (by norm_num)
  rw [Int.cast_one, one_mul] at this
  rw [show 2 * halfPi / 2 = halfPi by ring, this]

theorem three64 : ((PyNum.ofRat 3 : F64) *ₚ PyNum.pi /ₚ PyNum.ofRat 2).1 = 3 * halfPi := by
  rw [val_div, val_mul, val_ofRat, val_ofRat, val_pi, fl_rat2, fl_rat3, pi64]
  have h1 := fl_halfPi 6 (by norm_num) (by norm_num)
  have h2 := fl_halfPi 3 (by norm_num) (by norm_num)
  push_cast at h1 h2
  rw [show 3 * (2 * halfPi) = 6 * halfPi by ring, h1, show 6 * halfPi / 2 = 3 * halfPi by ring, h2]

theorem full64 : ((PyNum.ofRat 2 : F64) *ₚ PyNum.pi).1 = 4 * halfPi := by
  rw [two_pi64, pi64]; ring

/-- The angle of a point of the quarter `q` on steps, as the program computes it: exact for points
on the axes, and away from the borders of the quarter otherwise. -/
structure Quart (q A B : ℤ) (φ : ℝ) : Prop where
  border : A = 0 ∨ B = 0 → φ = q * halfPi
  lo : A ≠ 0 → B ≠ 0 → q * halfPi + 1 / 10 ^ 6 ≤ φ
  hi : A ≠ 0 → B ≠ 0 → φ ≤ (q + 1) * halfPi - 1 / 10 ^ 6

theorem Quart.le {q A B : ℤ} {φ : ℝ} (h : Quart q A B φ) : q * halfPi ≤ φ := by
  by_cases hA : A = 0
  · exact (h.border (.inl hA)).ge
  by_cases hB : B = 0
  · exact (h.border (.inr hB)).ge
  have := h.lo hA hB
  linarith

theorem Quart.lt {q A B : ℤ} {φ : ℝ} (h : Quart q A B φ) : φ ≤ (q + 1) * halfPi - 1 / 10 ^ 6 := by
  have h0 := halfPi_lo
  by_cases hA : A = 0
  · have := h.border (.inl hA); linarith
  by_cases hB : B = 0
  · have := h.border (.inr hB); linarith
  exact h.hi hA hB

/-- `int(angle / (math.pi / 2))`. -/
theorem trunc_quarter64 {φ : F64} {q : ℤ} (h0 : 0 ≤ q) (h8 : q ≤ 8) (h1 : q * halfPi ≤ φ.1)
    (h2 : φ.1 ≤ (q + 1) * halfPi - 1 / 10 ^ 7) :
    PyNum.truncI (φ /ₚ ((PyNum.pi : F64) /ₚ PyNum.ofRat 2)) = q := by
  have l := halfPi_lo
  have u := halfPi_hi
  have hq : (0 : ℝ) ≤ q := by exact_mod_cast h0
  have hq8 : (q : ℝ) ≤ 8 := by exact_mod_cast h8
  set x : F64 := φ /ₚ ((PyNum.pi : F64) /ₚ PyNum.ofRat 2) with hx
  have hv : x.1 = fl (φ.1 / halfPi) := by rw [hx, val_div, half64]
  have a1 : (q : ℝ) ≤ φ.1 / halfPi := by rw [le_div_iff₀ (by linarith)]; exact h1
  have a2 : φ.1 / halfPi ≤ q + 1 - 1 / 10 ^ 8 := by
    rw [div_le_iff₀ (by linarith)]
    nlinarith
  have b1 : (q : ℝ) ≤ x.1 := by
    rw [hv]
    exact le_fl_of_le (fl_int q (by rw [abs_of_nonneg h0]; omega)) a1
  have b2 : x.1 < q + 1 := by
    rw [hv]
    have := fl_hi (hq.trans a1)
    linarith
  change (if 0 ≤ x.1 then ⌊x.1⌋ else ⌈x.1⌉) = q
  rw [if_pos (hq.trans b1), Int.floor_eq_iff]
  exact ⟨b1, b2⟩

/-- The directions at the start of an arc. -/
theorem startDirs64 {q A B : ℤ} {φ : F64} (hs : Signs q A B) (h : Quart q A B φ.1) (rot : Rot) :
    startDirs rot φ = (dirA rot q B, dirB rot q A) := by
  have l := halfPi_lo
  have hb := h.border
  have h1 := h.lo
  have h2 := h.hi
  unfold startDirs dirA dirB
  cases rot <;> simp only [Prod.mk.injEq, Bool.and_eq_true, Bool.or_eq_true, le64_iff, lt64_iff,
    half64, three64, val_pi, pi64, val_zero]
  all_goals
    rcases hs with ⟨rfl, s1, s2⟩ | ⟨rfl, s1, s2⟩ | ⟨rfl, s1, s2⟩ | ⟨rfl, s1, s2⟩
  all_goals
    by_cases hA : A = 0
  all_goals
    by_cases hB : B = 0
  all_goals
    first
      | omega
      | (simp only [hA, hB, or_true, or_false, true_imp_iff, false_imp_iff, not_true, not_false_iff,
          ne_eq] at hb h1 h2
         push_cast at hb h1 h2
         norm_num [hA, hB]
         try (repeat' apply And.intro) <;> (try intros) <;> linarith)

end PyCNC
