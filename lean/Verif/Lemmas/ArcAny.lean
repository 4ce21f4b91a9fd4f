import Verif.Spec.ArcAny
import Verif.Lemmas.ArcInterp
import Verif.Lemmas.ArcEnds

/-!
# Arcs whose ends are not on their circles
-/

set_option linter.unusedSectionVars false

namespace PyCNC

open Spec

section

/-! ## The point on the circle -/

/-- The two numbers have the same sign, or both are zero. -/
def SameSign (x y : ℝ) : Prop := (0 < x ∧ 0 < y) ∨ (x < 0 ∧ y < 0) ∨ (x = 0 ∧ y = 0)

theorem arcQuarter_sign {a b a' b' : ℝ} (ha : SameSign a a') (hb : SameSign b b') :
    arcQuarter a b = arcQuarter a' b' := by
  have key : ∀ {x y : ℝ}, SameSign x y → (0 ≤ x ↔ 0 ≤ y) ∧ (0 < x ↔ 0 < y) ∧ (x ≤ 0 ↔ y ≤ 0) ∧
      (x < 0 ↔ y < 0) := by
    rintro x y (⟨h1, h2⟩ | ⟨h1, h2⟩ | ⟨rfl, rfl⟩)
    · exact ⟨⟨fun _ => h2.le, fun _ => h1.le⟩, ⟨fun _ => h2, fun _ => h1⟩,
        ⟨fun h => absurd h (not_le.2 h1), fun h => absurd h (not_le.2 h2)⟩,
        ⟨fun h => absurd h (not_lt.2 h1.le), fun h => absurd h (not_lt.2 h2.le)⟩⟩
    · exact ⟨⟨fun h => absurd h (not_le.2 h1), fun h => absurd h (not_le.2 h2)⟩,
        ⟨fun h => absurd h (not_lt.2 h1.le), fun h => absurd h (not_lt.2 h2.le)⟩,
        ⟨fun _ => h2.le, fun _ => h1.le⟩, ⟨fun _ => h2, fun _ => h1⟩⟩
    · exact ⟨Iff.rfl, Iff.rfl, Iff.rfl, Iff.rfl⟩
  obtain ⟨a1, a2, a3, a4⟩ := key ha
  obtain ⟨b1, b2, b3, b4⟩ := key hb
  unfold arcQuarter
  simp only [a1, a2, a3, b2, b3, b4]

theorem point_first {x y r2 : ℝ} (hx : x ≠ 0) (h : 0 ≤ r2) :
    (circlePoint x y r2).1 ^ 2 * (|x| + |y|) = r2 * |x| := by
  have hx' := abs_pos.2 hx
  have h1 : ((if x < 0 then -1 else 1 : ℝ)) ^ 2 = 1 := by split <;> norm_num
  simp only [circlePoint, if_neg hx]
  rw [mul_pow, h1, one_mul, Real.sq_sqrt (by positivity), abs_div]
  field_simp

theorem point_second {x y r2 : ℝ} (h : 0 ≤ r2) :
    (circlePoint x y r2).2 ^ 2 = r2 - (circlePoint x y r2).1 ^ 2 := by
  have h0 := circlePoint_sq (x := x) (y := y) h
  have h1 : ((if y < 0 then -1 else 1 : ℝ)) ^ 2 = 1 := by split <;> norm_num
  have h2 : (circlePoint x y r2).2 = (if y < 0 then -1 else 1) * √(r2 - (circlePoint x y r2).1 ^ 2) := rfl
  rw [h2, mul_pow, h1, one_mul, Real.sq_sqrt h0]

theorem point_sign1 {x y r2 : ℝ} :
    (0 ≤ x → 0 ≤ (circlePoint x y r2).1) ∧ (x ≤ 0 → (circlePoint x y r2).1 ≤ 0) := by
  have := Real.sqrt_nonneg (r2 / (1 + |y / x|))
  simp only [circlePoint]
  split
  · exact ⟨fun _ => le_rfl, fun _ => le_rfl⟩
  · next hx =>
    split
    · next h => exact ⟨fun h' => absurd h (not_lt.2 h'), fun _ => by linarith⟩
    · next h => exact ⟨fun _ => by linarith, fun h' => absurd (le_antisymm h' (not_lt.1 h)) hx⟩

theorem point_sign2 {x y r2 : ℝ} :
    (0 < y → 0 ≤ (circlePoint x y r2).2) ∧ (y < 0 → (circlePoint x y r2).2 ≤ 0) := by
  have h2 : (circlePoint x y r2).2 = (if y < 0 then -1 else 1) * √(r2 - (circlePoint x y r2).1 ^ 2) := rfl
  have := Real.sqrt_nonneg (r2 - (circlePoint x y r2).1 ^ 2)
  rw [h2]
  split
  · next h => exact ⟨fun h' => absurd h (not_lt.2 h'.le), fun _ => by linarith⟩
  · next h => exact ⟨fun _ => by linarith, fun h' => absurd h' h⟩

/-- A coordinate of the point that is two steps at least away from zero, or zero. -/
def Away (t z x : ℝ) : Prop := (x = 0 ∧ z = 0) ∨ (0 < x ∧ t ≤ z) ∨ (x < 0 ∧ z ≤ -t)

theorem away_of_sq {t z x : ℝ} (ht : 0 ≤ t) (hx : x ≠ 0) (h1 : 0 < x → 0 ≤ z) (h2 : x < 0 → z ≤ 0)
    (h : t ^ 2 ≤ z ^ 2) : Away t z x := by
  rcases lt_or_gt_of_ne hx with hx | hx
  · have := h2 hx
    exact .inr (.inr ⟨hx, by nlinarith⟩)
  · have := h1 hx
    exact .inr (.inl ⟨hx, by nlinarith⟩)

/-- The point on the circle for an end that is aside. -/
theorem point_away {x y r P : ℝ} (hP : 0 < P) (hr : 2 ≤ r * P)
    (h : (x = 0 ∧ y ≠ 0) ∨ (x ≠ 0 ∧ y = 0) ∨
      (x ≠ 0 ∧ y ≠ 0 ∧ 4 * (|x| + |y|) ≤ (r * P) ^ 2 * |x| ∧ 4 * (|x| + |y|) ≤ (r * P) ^ 2 * |y|)) :
    Away 2 ((circlePoint x y (r ^ 2)).1 * P) x ∧ Away 2 ((circlePoint x y (r ^ 2)).2 * P) y := by
  have hr2 : 0 ≤ r ^ 2 := by positivity
  have h4 : (2 : ℝ) ^ 2 ≤ (r * P) ^ 2 := by
    have := mul_self_le_mul_self (by norm_num : (0 : ℝ) ≤ 2) hr
    nlinarith
  have s1 := point_sign1 (x := x) (y := y) (r2 := r ^ 2)
  have s2 := point_sign2 (x := x) (y := y) (r2 := r ^ 2)
  have e2 := point_second (x := x) (y := y) hr2
  have m1 : ∀ {z : ℝ}, 0 ≤ z → 0 ≤ z * P := fun h => mul_nonneg h hP.le
  have m2 : ∀ {z : ℝ}, z ≤ 0 → z * P ≤ 0 := fun h => mul_nonpos_of_nonpos_of_nonneg h hP.le
  rcases h with ⟨rfl, hy⟩ | ⟨hx, rfl⟩ | ⟨hx, hy, h1, h2⟩
  · have e1 : (circlePoint 0 y (r ^ 2)).1 = 0 := by simp [circlePoint]
    rw [e1] at e2
    refine ⟨.inl ⟨rfl, by rw [e1, zero_mul]⟩, away_of_sq (by norm_num) hy (fun h => m1 (s2.1 h))
      (fun h => m2 (s2.2 h)) ?_⟩
    rw [mul_pow, e2, zero_pow two_ne_zero, sub_zero, ← mul_pow]
    exact h4
  · have e1 := point_first (y := 0) hx hr2
    rw [abs_zero, add_zero] at e1
    have e1' := mul_right_cancel₀ (abs_pos.2 hx).ne' e1
    rw [e1', sub_self] at e2
    refine ⟨away_of_sq (by norm_num) hx (fun h => m1 (s1.1 h.le)) (fun h => m2 (s1.2 h.le)) ?_,
      .inl ⟨rfl, by rw [pow_eq_zero_iff two_ne_zero] at e2; rw [e2, zero_mul]⟩⟩
    rw [mul_pow, e1', ← mul_pow]
    exact h4
  · have e1 := point_first (y := y) hx hr2
    have hs : 0 < |x| + |y| := add_pos (abs_pos.2 hx) (abs_pos.2 hy)
    refine ⟨away_of_sq (by norm_num) hx (fun h => m1 (s1.1 h.le)) (fun h => m2 (s1.2 h.le)) ?_,
      away_of_sq (by norm_num) hy (fun h => m1 (s2.1 h)) (fun h => m2 (s2.2 h)) ?_⟩
    · refine le_of_mul_le_mul_right ?_ hs
      calc _ = 4 * (|x| + |y|) := by ring
        _ ≤ _ := h1
        _ = (r ^ 2 * |x|) * P ^ 2 := by ring
        _ = _ := by rw [← e1]; ring
    · refine le_of_mul_le_mul_right ?_ hs
      calc _ = 4 * (|x| + |y|) := by ring
        _ ≤ _ := h2
        _ = (r ^ 2 * (|x| + |y|) - r ^ 2 * |x|) * P ^ 2 := by ring
        _ = _ := by rw [← e1, mul_pow, e2]; ring

theorem point_le {x y r : ℝ} (hr : 0 ≤ r) :
    |(circlePoint x y (r ^ 2)).1| ≤ r ∧ |(circlePoint x y (r ^ 2)).2| ≤ r := by
  have h0 := circlePoint_sq (x := x) (y := y) (sq_nonneg r)
  have h1 := point_second (x := x) (y := y) (sq_nonneg r)
  constructor
  · exact abs_le_of_sq_le_sq (by linarith) hr
  · exact abs_le_of_sq_le_sq (by nlinarith [sq_nonneg (circlePoint x y (r ^ 2)).1]) hr

end

variable [PyRound] {c : Cfg} {env : Env ℝ}

/-- Rounding to steps keeps a coordinate away from zero. -/
theorem rnd_away {n : ℤ} {z x : ℝ} (h : Away 2 z x) : Away 2 ((PyRound.rnd (n + z) : ℝ) - n) x := by
  rcases h with ⟨h1, h2⟩ | ⟨h1, h2⟩ | ⟨h1, h2⟩
  · exact .inl ⟨h1, by rw [h2, add_zero, rnd_int, sub_self]⟩
  · refine .inr (.inl ⟨h1, ?_⟩)
    have h3 := rnd_mono (show ((n + 2 : ℤ) : ℝ) ≤ n + z by push_cast; linarith)
    rw [rnd_int] at h3
    have : ((n + 2 : ℤ) : ℝ) ≤ PyRound.rnd (n + z) := by exact_mod_cast h3
    push_cast at this
    linarith
  · refine .inr (.inr ⟨h1, ?_⟩)
    have h3 := rnd_mono (show (n : ℝ) + z ≤ ((n - 2 : ℤ) : ℝ) by push_cast; linarith)
    rw [rnd_int] at h3
    have : (PyRound.rnd (n + z) : ℝ) ≤ ((n - 2 : ℤ) : ℝ) := by exact_mod_cast h3
    push_cast at this
    linarith

omit [PyRound] in
theorem away_sign {z x : ℝ} (h : Away 2 z x) : SameSign z x := by
  rcases h with ⟨h1, h2⟩ | ⟨h1, h2⟩ | ⟨h1, h2⟩
  · exact .inr (.inr ⟨h2, h1⟩)
  · exact .inl ⟨by linarith, h1⟩
  · exact .inr (.inl ⟨by linarith, h1⟩)

omit [PyRound] in
/-- Two points in different quarters, one of them away from the borders. -/
theorem quarters_apart {a b x y ea eb : ℝ} (hA : Away 2 ea x) (hB : Away 2 eb y)
    (hq : arcQuarter a b ≠ arcQuarter ea eb) (h1 : x = 0 → 2 ≤ |a|) (h2 : y = 0 → 2 ≤ |b|) :
    4 ≤ (ea - a) ^ 2 + (eb - b) ^ 2 := by
  have s1 := sq_nonneg (ea - a)
  have s2 := sq_nonneg (eb - b)
  have sq : ∀ {u : ℝ}, 2 ≤ |u| → 4 ≤ u ^ 2 := fun {u} h => by
    rw [← sq_abs]; nlinarith [abs_nonneg u]
  rcases hA with ⟨hx, hA⟩ | ⟨hx, hA⟩ | ⟨hx, hA⟩
  · have := sq (h1 hx)
    rw [hA]; rw [hA] at s1; nlinarith
  all_goals
    rcases hB with ⟨hy, hB⟩ | ⟨hy, hB⟩ | ⟨hy, hB⟩
    · have := sq (h2 hy)
      rw [hB]; rw [hB] at s2; nlinarith
  · by_contra hlt
    have k1 : ¬ (a ≤ 0) := fun h => hlt (by nlinarith)
    have k2 : ¬ (b ≤ 0) := fun h => hlt (by nlinarith)
    push Not at k1 k2
    exact hq (arcQuarter_sign (.inl ⟨k1, by linarith⟩) (.inl ⟨k2, by linarith⟩))
  · by_contra hlt
    have k1 : ¬ (a ≤ 0) := fun h => hlt (by nlinarith)
    have k2 : ¬ (0 ≤ b) := fun h => hlt (by nlinarith)
    push Not at k1 k2
    exact hq (arcQuarter_sign (.inl ⟨k1, by linarith⟩) (.inr (.inl ⟨k2, by linarith⟩)))
  · by_contra hlt
    have k1 : ¬ (0 ≤ a) := fun h => hlt (by nlinarith)
    have k2 : ¬ (b ≤ 0) := fun h => hlt (by nlinarith)
    push Not at k1 k2
    exact hq (arcQuarter_sign (.inr (.inl ⟨k1, by linarith⟩)) (.inl ⟨k2, by linarith⟩))
  · by_contra hlt
    have k1 : ¬ (0 ≤ a) := fun h => hlt (by nlinarith)
    have k2 : ¬ (0 ≤ b) := fun h => hlt (by nlinarith)
    push Not at k1 k2
    exact hq (arcQuarter_sign (.inr (.inl ⟨k1, by linarith⟩)) (.inr (.inl ⟨k2, by linarith⟩)))

end PyCNC
