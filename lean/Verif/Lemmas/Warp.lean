import Verif.Lemmas.Exact
import Mathlib.Analysis.Calculus.Deriv.Pow
import Mathlib.Analysis.Calculus.Deriv.Add
import Mathlib.Analysis.Calculus.Deriv.Mul
import Mathlib.Analysis.Calculus.Deriv.MeanValue
import Mathlib.Analysis.Calculus.Deriv.Shift

set_option linter.unusedVariables false

/-!
# The map from uniform to accelerated time

`warp k A B` is `_to_accelerated_time` in exact arithmetic: `k` is `2 * Vmax / a`, `A` the
acceleration time, `B` the time of uniform motion.  `travel k A B` is its inverse, the
distance (in units of uniform time) as a function of time.
-/

namespace PyCNC

/-- `_to_accelerated_time` in exact arithmetic, without the exceptions. -/
noncomputable def warp (k A B p : ℝ) : ℝ :=
  if √(p * k) ≤ A then √(p * k)
  else if A + p - A * A / k - A - B ≤ 0 then A + p - A * A / k
  else 2 * A + B - √(A * A - k * (A + p - A * A / k - A - B))

/-- The part of a number above zero. -/
noncomputable def pos (x : ℝ) : ℝ := max x 0

/-- Distance as a function of time. -/
noncomputable def travel (k A B t : ℝ) : ℝ :=
  (t ^ 2 - pos (t - A) ^ 2 - pos (t - A - B) ^ 2) / k

/-- Speed as a function of time. -/
noncomputable def speed (k A B t : ℝ) : ℝ :=
  2 * (t - pos (t - A) - pos (t - A - B)) / k

theorem pos_of_nonneg {x : ℝ} (h : 0 ≤ x) : pos x = x := max_eq_left h
theorem pos_of_nonpos {x : ℝ} (h : x ≤ 0) : pos x = 0 := max_eq_right h
theorem pos_nonneg (x : ℝ) : 0 ≤ pos x := le_max_right _ _
theorem le_pos (x : ℝ) : x ≤ pos x := le_max_left _ _

theorem pos_mono {x y : ℝ} (h : x ≤ y) : pos x ≤ pos y := max_le_max h (le_refl _)

theorem pos_lip {x y : ℝ} (h : x ≤ y) : pos y ≤ pos x + (y - x) := by
  rcases le_total y 0 with h0 | h0
  · rw [pos_of_nonpos h0]; have := pos_nonneg x; linarith
  · rw [pos_of_nonneg h0]; have := le_pos x; linarith

theorem hasDerivAt_pos_sq (x : ℝ) : HasDerivAt (fun x => pos x ^ 2) (2 * pos x) x := by
  rcases lt_trichotomy x 0 with h | rfl | h
  · rw [pos_of_nonpos h.le, mul_zero]
    refine (hasDerivAt_const x (0 : ℝ)).congr_of_eventuallyEq ?_
    filter_upwards [gt_mem_nhds h] with y hy
    rw [pos_of_nonpos hy.le]; norm_num
  · rw [pos_of_nonpos le_rfl, mul_zero]
    rw [hasDerivAt_iff_isLittleO_nhds_zero]
    simp only [zero_add, pos_of_nonpos (le_refl (0 : ℝ)), smul_zero, sub_zero]
    norm_num
    rw [Asymptotics.isLittleO_iff]
    intro c hc
    filter_upwards [Metric.ball_mem_nhds (0 : ℝ) hc] with y hy
    rw [Metric.mem_ball, dist_zero_right] at hy
    rw [norm_pow, pow_two]
    have h1 : ‖pos y‖ ≤ ‖y‖ := by
      rw [Real.norm_of_nonneg (pos_nonneg y), Real.norm_eq_abs]
      exact max_le (le_abs_self y) (abs_nonneg y)
    have h2 := norm_nonneg (pos y)
    calc ‖pos y‖ * ‖pos y‖ ≤ c * ‖pos y‖ := by
          apply mul_le_mul_of_nonneg_right _ h2; linarith
      _ ≤ c * ‖y‖ := by apply mul_le_mul_of_nonneg_left h1 hc.le
  · rw [pos_of_nonneg h.le]
    have : HasDerivAt (fun x : ℝ => x ^ 2) (2 * x) x := by simpa using hasDerivAt_pow 2 x
    refine this.congr_of_eventuallyEq ?_
    filter_upwards [lt_mem_nhds h] with y hy
    rw [pos_of_nonneg hy.le]

theorem hasDerivAt_travel (k A B t : ℝ) : HasDerivAt (travel k A B) (speed k A B t) t := by
  have h0 : HasDerivAt (fun x : ℝ => x ^ 2) (2 * t) t := by simpa using hasDerivAt_pow 2 t
  have h1 : HasDerivAt (fun x : ℝ => pos (x - A) ^ 2) (2 * pos (t - A)) t := by
    simpa using (hasDerivAt_pos_sq (t - A)).comp_sub_const t A
  have h2 : HasDerivAt (fun x : ℝ => pos (x - A - B) ^ 2) (2 * pos (t - A - B)) t := by
    have := (hasDerivAt_pos_sq (t - (A + B))).comp_sub_const t (A + B)
    simpa [sub_sub] using this
  have := ((h0.sub h1).sub h2).div_const k
  have e : speed k A B t = (2 * t - 2 * pos (t - A) - 2 * pos (t - A - B)) / k := by
    unfold speed; ring
  rw [e]
  exact this

/-- The speed changes by at most `2 / k` per unit of time. -/
theorem speed_lip {k A B : ℝ} (hk : 0 < k) (hB : 0 ≤ B) (s t : ℝ) :
    |speed k A B s - speed k A B t| ≤ 2 / k * |s - t| := by
  wlog h : s ≤ t generalizing s t with H
  · rw [abs_sub_comm, abs_sub_comm s]; exact H t s (le_of_not_ge h)
  have h1 := pos_mono (show s - A ≤ t - A by linarith)
  have h2 := pos_lip (show s - A ≤ t - A by linarith)
  have h3 := pos_mono (show s - A - B ≤ t - A - B by linarith)
  have h4 := pos_lip (show s - A - B ≤ t - A - B by linarith)
  have h6 : |s - t| = t - s := by rw [abs_of_nonpos (by linarith)]; ring
  have h5 : speed k A B s - speed k A B t = 2 / k * ((s - pos (s - A) - pos (s - A - B)) -
    (t - pos (t - A) - pos (t - A - B))) := by unfold speed; ring
  rw [h5, h6, _root_.abs_mul, abs_of_pos (by positivity : (0 : ℝ) < 2 / k)]
  refine mul_le_mul_of_nonneg_left ?_ (by positivity)
  rw [abs_le]
  constructor <;> linarith

theorem speed_zero {k A B : ℝ} (hA : 0 ≤ A) (hB : 0 ≤ B) : speed k A B 0 = 0 := by
  unfold speed
  rw [pos_of_nonpos (by linarith), pos_of_nonpos (by linarith)]; simp

theorem travel_zero {k A B : ℝ} (hA : 0 ≤ A) (hB : 0 ≤ B) : travel k A B 0 = 0 := by
  unfold travel
  rw [pos_of_nonpos (by linarith), pos_of_nonpos (by linarith)]; simp

/-- At the end of the braking phase the speed is zero. -/
theorem speed_end {k A B : ℝ} (hA : 0 ≤ A) (hB : 0 ≤ B) : speed k A B (2 * A + B) = 0 := by
  unfold speed
  rw [pos_of_nonneg (by linarith), pos_of_nonneg (by linarith)]; ring

/-- The whole distance. -/
theorem travel_end {k A B : ℝ} (hk : 0 < k) (hA : 0 ≤ A) (hB : 0 ≤ B) (h : k = 2 * A ∨ B = 0) :
    travel k A B (2 * A + B) = 2 * (A * A / k) + B := by
  unfold travel
  rw [pos_of_nonneg (by linarith), pos_of_nonneg (by linarith)]
  rcases h with rfl | rfl
  · have : A ≠ 0 := by rintro rfl; simp at hk
    field_simp; ring
  · field_simp; ring

theorem warp_zero {k A B : ℝ} (hA : 0 ≤ A) : warp k A B 0 = 0 := by
  unfold warp
  rw [zero_mul, Real.sqrt_zero, if_pos hA]

/-- The three phases. -/
theorem warp_cases {k A B p : ℝ} (hk : 0 ≤ k) (hA : 0 ≤ A) (hp : 0 ≤ p) :
    (p * k ≤ A * A ∧ warp k A B p = √(p * k)) ∨
    (0 < k ∧ A * A / k < p ∧ p ≤ A * A / k + B ∧ warp k A B p = A + (p - A * A / k)) ∨
    (0 < k ∧ A * A / k < p ∧ A * A / k + B < p ∧
      warp k A B p = 2 * A + B - √(A * A - k * (p - A * A / k - B))) := by
  unfold warp
  by_cases h : √(p * k) ≤ A
  · rw [if_pos h]
    refine .inl ⟨?_, rfl⟩
    have := Real.sqrt_le_iff.1 h
    nlinarith [this.2]
  · rw [if_neg h]
    push Not at h
    have h1 : A * A < p * k := by
      have := Real.lt_sqrt hA |>.1 h
      nlinarith
    have hk : 0 < k := by
      rcases hk.lt_or_eq with h | h
      · exact h
      · subst h; nlinarith [mul_self_nonneg A]
    have h2 : A * A / k < p := by rw [div_lt_iff₀ hk]; exact h1
    split
    · exact .inr (.inl ⟨hk, h2, by linarith, by ring⟩)
    · refine .inr (.inr ⟨hk, h2, by linarith, ?_⟩)
      congr 3; ring

theorem warp_nonneg {k A B p : ℝ} (hk : 0 ≤ k) (hA : 0 ≤ A) (hB : 0 ≤ B) (hp : 0 ≤ p) :
    0 ≤ warp k A B p := by
  rcases warp_cases (B := B) hk hA hp with ⟨_, h⟩ | ⟨hk, h1, h2, h⟩ | ⟨hk, h1, h2, h⟩ <;> rw [h]
  · exact Real.sqrt_nonneg _
  · linarith
  · have : √(A * A - k * (p - A * A / k - B)) ≤ A := by
      rw [Real.sqrt_le_iff]; exact ⟨hA, by nlinarith⟩
    linarith

theorem warp_le_total {k A B p : ℝ} (hk : 0 ≤ k) (hA : 0 ≤ A) (hB : 0 ≤ B) (hp : 0 ≤ p) :
    warp k A B p ≤ 2 * A + B := by
  rcases warp_cases (B := B) hk hA hp with ⟨h1, h⟩ | ⟨hk, h1, h2, h⟩ | ⟨hk, h1, h2, h⟩ <;> rw [h]
  · have : √(p * k) ≤ A := by rw [Real.sqrt_le_iff]; exact ⟨hA, by nlinarith⟩
    linarith
  · linarith
  · have := Real.sqrt_nonneg (A * A - k * (p - A * A / k - B)); linarith

theorem warp_mono {k A B p q : ℝ} (hk : 0 ≤ k) (hA : 0 ≤ A) (hB : 0 ≤ B) (hp : 0 ≤ p)
    (hpq : p ≤ q) : warp k A B p ≤ warp k A B q := by
  have hq := hp.trans hpq
  have key : ∀ q, 0 < k → A * A / k < q → A * A / k + B < q →
      √(A * A - k * (q - A * A / k - B)) ≤ A := by
    intro q hk _ h2
    rw [Real.sqrt_le_iff]; exact ⟨hA, by nlinarith⟩
  rcases warp_cases (B := B) hk hA hp with ⟨h1, h⟩ | ⟨hk', h1, h2, h⟩ | ⟨hk', h1, h2, h⟩ <;>
  rcases warp_cases (B := B) hk hA hq with ⟨g1, g⟩ | ⟨hk', g1, g2, g⟩ | ⟨hk', g1, g2, g⟩ <;>
  rw [h, g]
  · exact Real.sqrt_le_sqrt (mul_le_mul_of_nonneg_right hpq hk)
  · have : √(p * k) ≤ A := by rw [Real.sqrt_le_iff]; exact ⟨hA, by nlinarith⟩
    linarith
  · have : √(p * k) ≤ A := by rw [Real.sqrt_le_iff]; exact ⟨hA, by nlinarith⟩
    have := key q hk' g1 g2
    linarith
  · rw [div_lt_iff₀ hk'] at h1
    nlinarith
  · linarith
  · have := key q hk' g1 g2
    linarith
  · rw [div_lt_iff₀ hk'] at h1
    nlinarith
  · linarith
  · have : √(A * A - k * (q - A * A / k - B)) ≤ √(A * A - k * (p - A * A / k - B)) :=
      Real.sqrt_le_sqrt (by nlinarith)
    linarith

/-- `travel` is the inverse of `warp`, up to the end of the braking phase. -/
theorem travel_warp {k A B p : ℝ} (hk : 0 < k) (hA : 0 ≤ A) (hB : 0 ≤ B)
    (h : k = 2 * A ∨ B = 0) (hp : 0 ≤ p) (hpe : p ≤ 2 * (A * A / k) + B) :
    travel k A B (warp k A B p) = p := by
  rcases warp_cases (B := B) hk.le hA hp with ⟨h1, g⟩ | ⟨_, h1, h2, g⟩ | ⟨_, h1, h2, g⟩ <;>
    rw [g] <;> unfold travel
  · have h2 : √(p * k) ≤ A := by rw [Real.sqrt_le_iff]; exact ⟨hA, by nlinarith⟩
    rw [pos_of_nonpos (by linarith), pos_of_nonpos (by linarith), Real.sq_sqrt (by positivity)]
    field_simp; ring
  · rcases h with rfl | rfl
    · have : A ≠ 0 := by rintro rfl; simp at hk
      rw [pos_of_nonneg (by linarith), pos_of_nonpos (by linarith)]
      field_simp; ring
    · linarith
  · have h4 : 0 ≤ A * A - k * (p - A * A / k - B) := by
      have h5 : k * (A * A / k) = A * A := by field_simp
      nlinarith
    have h3 : √(A * A - k * (p - A * A / k - B)) ≤ A := by
      rw [Real.sqrt_le_iff]; exact ⟨hA, by nlinarith⟩
    have h5 := Real.sq_sqrt h4
    generalize √(A * A - k * (p - A * A / k - B)) = r at *
    have h6 : k * (A * A / k) = A * A := by field_simp
    rw [pos_of_nonneg (by linarith), pos_of_nonneg (by linarith), div_eq_iff hk.ne']
    rcases h with rfl | rfl
    · linear_combination -h5 - h6
    · linear_combination -h5 - h6

/-- The speed never exceeds `2 * A / k`. -/
theorem travel_slope {k A B s t : ℝ} (hk : 0 < k) (hA : 0 ≤ A) (hB : 0 ≤ B) (hs : 0 ≤ s)
    (hst : s ≤ t) : travel k A B t - travel k A B s ≤ 2 * A / k * (t - s) := by
  have h3 := pos_mono (show s - A - B ≤ t - A - B by linarith)
  have h4 := pos_nonneg (s - A - B)
  have h5 : pos (s - A - B) ^ 2 ≤ pos (t - A - B) ^ 2 := by nlinarith
  have h6 : (t ^ 2 - pos (t - A) ^ 2) - (s ^ 2 - pos (s - A) ^ 2) ≤ 2 * A * (t - s) := by
    rcases le_total s A with h | h <;> rcases le_total t A with g | g
    · rw [pos_of_nonpos (by linarith), pos_of_nonpos (by linarith)]; nlinarith
    · rw [pos_of_nonneg (by linarith), pos_of_nonpos (by linarith)]; nlinarith
    · rw [pos_of_nonpos (by linarith), pos_of_nonneg (by linarith)]; nlinarith
    · rw [pos_of_nonneg (by linarith), pos_of_nonneg (by linarith)]; nlinarith
  have : travel k A B t - travel k A B s = ((t ^ 2 - pos (t - A) ^ 2) - (s ^ 2 - pos (s - A) ^ 2) -
    (pos (t - A - B) ^ 2 - pos (s - A - B) ^ 2)) / k := by unfold travel; ring
  rw [this, div_mul_eq_mul_div]
  exact div_le_div_of_nonneg_right (by linarith) hk.le

/-- Without uniform motion the speed is at its maximum only for a moment. -/
theorem travel_slope2 {k A s t : ℝ} (hk : 0 < k) (hst : s ≤ t) :
    travel k A 0 t - travel k A 0 s ≤ (2 * A * (t - s) - (t - s) ^ 2 / 2) / k := by
  have h6 : (t ^ 2 - 2 * pos (t - A) ^ 2) - (s ^ 2 - 2 * pos (s - A) ^ 2) ≤
      2 * A * (t - s) - (t - s) ^ 2 / 2 := by
    rcases le_total s A with h | h <;> rcases le_total t A with g | g
    · rw [pos_of_nonpos (by linarith), pos_of_nonpos (by linarith)]; nlinarith
    · rw [pos_of_nonneg (by linarith), pos_of_nonpos (by linarith)]
      nlinarith [sq_nonneg (t + s - 2 * A)]
    · obtain rfl : s = A := by linarith
      obtain rfl : t = s := by linarith
      rw [pos_of_nonpos (by linarith)]; nlinarith
    · rw [pos_of_nonneg (by linarith), pos_of_nonneg (by linarith)]; nlinarith
  have : travel k A 0 t - travel k A 0 s =
      ((t ^ 2 - 2 * pos (t - A) ^ 2) - (s ^ 2 - 2 * pos (s - A) ^ 2)) / k := by
    unfold travel; rw [sub_zero, sub_zero]; ring
  rw [this]
  exact div_le_div_of_nonneg_right h6 hk.le

theorem warp_gap2 {k A p q : ℝ} (hk : 0 < k) (hA : 0 ≤ A) (hp : 0 ≤ p) (hpq : p ≤ q)
    (hq : q ≤ 2 * (A * A / k)) :
    q - p ≤ (2 * A * (warp k A 0 q - warp k A 0 p) - (warp k A 0 q - warp k A 0 p) ^ 2 / 2) / k := by
  have h1 := travel_slope2 (A := A) hk (warp_mono hk.le hA le_rfl hp hpq)
  rwa [travel_warp hk hA le_rfl (.inr rfl) (hp.trans hpq) (by linarith),
    travel_warp hk hA le_rfl (.inr rfl) hp (by linarith)] at h1

/-- Two points are at least their distance divided by the top speed apart in time. -/
theorem warp_gap {k A B p q : ℝ} (hk : 0 < k) (hA : 0 ≤ A) (hB : 0 ≤ B)
    (h : k = 2 * A ∨ B = 0) (hp : 0 ≤ p) (hpq : p ≤ q) (hq : q ≤ 2 * (A * A / k) + B) :
    q - p ≤ 2 * A / k * (warp k A B q - warp k A B p) := by
  have h1 := travel_slope (B := B) hk hA hB (warp_nonneg hk.le hA hB hp)
    (warp_mono hk.le hA hB hp hpq)
  rwa [travel_warp hk hA hB h (hp.trans hpq) hq, travel_warp hk hA hB h hp (hpq.trans hq)] at h1

end PyCNC
