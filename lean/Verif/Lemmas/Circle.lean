import Verif.Lemmas.MachineExact
import Verif.Lemmas.LinearNew
import Verif.Spec.Arc

/-!
# `__adjust_circle` in exact arithmetic
-/

set_option linter.unusedSectionVars false

namespace PyCNC

open Spec Real

variable [PyRound]

/-- The end point that the code computes for the direction `(x, y)`, relative to the centre. -/
noncomputable def circlePoint (x y r2 : ℝ) : ℝ × ℝ :=
  let ea := if x = 0 then 0 else (if x < 0 then -1 else 1) * √(r2 / (1 + |y / x|))
  (ea, (if y < 0 then -1 else 1) * √(r2 - ea ^ 2))

theorem copysign_eq (m s : ℝ) : copysign m s = (if s < 0 then -1 else 1) * m := by
  unfold copysign
  simp only [lt_iff, ofRat_eq, Rat.cast_zero, neg_eq]
  split <;> simp

omit [PyRound] in
theorem circlePoint_sq {x y r2 : ℝ} (h : 0 ≤ r2) : 0 ≤ r2 - (circlePoint x y r2).1 ^ 2 := by
  unfold circlePoint
  simp only
  split
  · simpa using h
  · rw [mul_pow, Real.sq_sqrt (by positivity)]
    have h1 : ((if x < 0 then -1 else 1 : ℝ)) ^ 2 = 1 := by split <;> norm_num
    rw [h1, one_mul, sub_nonneg]
    exact div_le_self h (by linarith [abs_nonneg (y / x)])

theorem adjustCircle_eq {da db ra rb pa pb ma mb : ℝ} {rot : Rot} (h : ra ^ 2 + rb ^ 2 ≠ 0) :
    adjustCircle da db ra rb rot pa pb ma mb =
      (fitLoop rot (if da = 0 ∧ db = 0 then 5 else
          quarter (circlePoint (da - ra) (db - rb) (ra ^ 2 + rb ^ 2)).1
            (circlePoint (da - ra) (db - rb) (ra ^ 2 + rb ^ 2)).2)
        pa pb ra rb (√(ra ^ 2 + rb ^ 2)) ma mb 4 (quarter (-ra) (-rb)) (quarter (-ra) (-rb))).bind
      fun _ => .ok (if da = 0 ∧ db = 0 then (0, 0) else
        ((circlePoint (da - ra) (db - rb) (ra ^ 2 + rb ^ 2)).1 + ra,
         (circlePoint (da - ra) (db - rb) (ra ^ 2 + rb ^ 2)).2 + rb)) := by
  have hpos : 0 < ra ^ 2 + rb ^ 2 := lt_of_le_of_ne (by positivity) (Ne.symm h)
  have hr : √(ra ^ 2 + rb ^ 2) ≠ 0 := (Real.sqrt_pos.2 hpos).ne'
  have hrr : √(ra ^ 2 + rb ^ 2) * √(ra ^ 2 + rb ^ 2) = ra ^ 2 + rb ^ 2 := Real.mul_self_sqrt hpos.le
  have hsq := circlePoint_sq (x := da - ra) (y := db - rb) hpos.le
  unfold adjustCircle
  have e1 : (PyNum.sqrt (ra *ₚ ra +ₚ rb *ₚ rb) : ℝ) = √(ra ^ 2 + rb ^ 2) := by
    simp only [sqrt_eq, add_eq, mul_eq, pow_two]
  have e2 : ¬ ((√(ra ^ 2 + rb ^ 2) =ₚ zeroF) = true) := by simpa using hr
  simp only [e1, if_neg e2]
  by_cases h0 : da = 0 ∧ db = 0
  · obtain ⟨rfl, rfl⟩ := h0
    have e3 : (((0 : ℝ) =ₚ zeroF) && ((0 : ℝ) =ₚ zeroF)) = true := by simp
    rw [if_pos e3]
    simp only [and_self, if_true, neg_eq]
    rfl
  · have e3 : ¬ ((da =ₚ zeroF && db =ₚ zeroF) = true) := by simpa using h0
    rw [if_neg e3]
    simp only [if_neg h0, neg_eq]
    have e4 : ∀ ea, ea = (circlePoint (da - ra) (db - rb) (ra ^ 2 + rb ^ 2)).1 →
        psqrt (√(ra ^ 2 + rb ^ 2) *ₚ √(ra ^ 2 + rb ^ 2) -ₚ ea *ₚ ea) =
        .ok (√(ra ^ 2 + rb ^ 2 - ea ^ 2)) := by
      intro ea hea
      rw [← hea] at hsq
      simp only [mul_eq, sub_eq, hrr, ← pow_two]
      unfold psqrt
      rw [if_neg (by simpa using hsq)]
      simp
    have e6 : ∀ ea, ea = (circlePoint (da - ra) (db - rb) (ra ^ 2 + rb ^ 2)).1 →
        copysign (√(ra ^ 2 + rb ^ 2 - ea ^ 2)) (db -ₚ rb) =
        (circlePoint (da - ra) (db - rb) (ra ^ 2 + rb ^ 2)).2 := by
      intro ea hea
      rw [copysign_eq, hea]; simp only [sub_eq]; rfl
    by_cases hx : da - ra = 0
    · rw [if_pos (by simpa using hx)]
      have e5 : (zeroF : ℝ) = (circlePoint (da - ra) (db - rb) (ra ^ 2 + rb ^ 2)).1 := by
        unfold circlePoint; simp [hx]
      change (psqrt (_ -ₚ zeroF *ₚ zeroF) >>= _) = _
      rw [e4 _ e5]
      change (fitLoop rot (quarter zeroF (copysign _ _)) pa pb ra rb _ ma mb 4 _ _).bind _ = _
      rw [e6 _ e5, e5]
      rfl
    · rw [if_neg (by simpa using hx)]
      have e7 : pdiv (db -ₚ rb) (da -ₚ ra) = .ok ((db - rb) / (da - ra)) := by
        simp only [sub_eq]; exact pdiv_ok hx
      rw [e7]
      have e5 : copysign (PyNum.sqrt (√(ra ^ 2 + rb ^ 2) *ₚ √(ra ^ 2 + rb ^ 2) /ₚ
          (PyNum.ofRat 1 +ₚ PyNum.abs ((db - rb) / (da - ra))))) (da -ₚ ra) =
          (circlePoint (da - ra) (db - rb) (ra ^ 2 + rb ^ 2)).1 := by
        rw [copysign_eq]
        simp only [sqrt_eq, mul_eq, div_eq, add_eq, abs_eq, ofRat_eq, Rat.cast_one, hrr, sub_eq]
        unfold circlePoint
        simp only [if_neg hx]
      change (psqrt (_ -ₚ copysign _ _ *ₚ copysign _ _) >>= _) = _
      rw [e4 _ e5]
      change (fitLoop rot (quarter (copysign _ _) (copysign _ _)) pa pb ra rb _ ma mb 4 _ _).bind _ = _
      rw [e6 _ e5, e5]
      rfl

omit [PyRound] in
/-- The code finds the end point when it lies on an axis or on a diagonal. -/
theorem circlePoint_good {x y r2 : ℝ} (h : x ^ 2 + y ^ 2 = r2) (hs : x = 0 ∨ y = 0 ∨ |x| = |y|) :
    circlePoint x y r2 = (x, y) := by
  have sg : ∀ z : ℝ, (if z < 0 then -1 else 1 : ℝ) * |z| = z := by
    intro z
    split
    · next hz => rw [abs_of_neg hz]; ring
    · next hz => rw [abs_of_nonneg (not_lt.1 hz)]; ring
  have h1 : (circlePoint x y r2).1 = x := by
    unfold circlePoint
    simp only
    by_cases hx : x = 0
    · rw [if_pos hx, hx]
    · rw [if_neg hx]
      have : r2 / (1 + |y / x|) = x ^ 2 := by
        have hx2 : x ^ 2 ≠ 0 := pow_ne_zero _ hx
        rcases hs with h0 | h0 | h0
        · exact absurd h0 hx
        · rw [← h, h0]; simp
        · rw [abs_div, ← h0, div_self (abs_ne_zero.2 hx), ← h, ← sq_abs y, ← h0, sq_abs]
          ring
      rw [this, Real.sqrt_sq_eq_abs, sg]
  have h2 : (circlePoint x y r2).2 = (if y < 0 then -1 else 1) * √(r2 - (circlePoint x y r2).1 ^ 2) := rfl
  rw [h1, ← h, add_sub_cancel_left, Real.sqrt_sq_eq_abs, sg] at h2
  rw [h] at h2
  exact Prod.ext h1 h2

end PyCNC
