import Mathlib.Analysis.SpecialFunctions.Trigonometric.Inverse
import Mathlib.Algebra.Order.Floor.Ring

/-!
# The angle of an axis that has travelled a distance along a circle

An axis that follows a circle of radius `R` goes to and fro between `-R` and `R`.  `Psi R u` is the
angle (whose sine is the position divided by `R`) at which it has travelled the distance `u`.
-/

namespace PyCNC

open Real

/-- The sign of a half turn. -/
def sg (k : ℤ) : ℤ := if k % 2 = 0 then 1 else -1

theorem sg_or (k : ℤ) : sg k = 1 ∨ sg k = -1 := by unfold sg; split <;> simp

theorem sg_succ (k : ℤ) : sg (k + 1) = -sg k := by unfold sg; split_ifs <;> omega

theorem sg_pred (k : ℤ) : sg (k - 1) = -sg k := by unfold sg; split_ifs <;> omega

theorem sg_neg (k : ℤ) : sg (-k) = sg k := by unfold sg; split_ifs <;> omega

theorem sg_sq (k : ℤ) : sg k * sg k = 1 := by rcases sg_or k with h | h <;> rw [h] <;> norm_num

theorem sg_pow (k : ℤ) : ((-1 : ℝ)) ^ k = sg k := by
  unfold sg
  split
  · next h => rw [Even.neg_one_zpow (Int.even_iff.2 h)]; simp
  · next h => rw [Odd.neg_one_zpow (Int.odd_iff.2 (by omega))]; simp

theorem sin_half (x : ℝ) (k : ℤ) : sin (x + k * π) = sg k * sin x := by
  rw [sin_add_int_mul_pi, sg_pow]

theorem cos_half (x : ℝ) (k : ℤ) : cos (x + k * π) = sg k * cos x := by
  rw [cos_add_int_mul_pi, sg_pow]

theorem sgr_sq (k : ℤ) : (sg k : ℝ) * sg k = 1 := by exact_mod_cast sg_sq k

/-- The angle after the distance `u`. -/
noncomputable def Psi (R u : ℝ) : ℝ :=
  (⌊(u + R) / (2 * R)⌋ : ℝ) * π + arcsin ((u - 2 * ⌊(u + R) / (2 * R)⌋ * R) / R)

section

variable {R : ℝ} (hR : 0 < R)

include hR

theorem psi_eq {u : ℝ} {k : ℤ} (h1 : 2 * k * R - R ≤ u) (h2 : u ≤ 2 * k * R + R) :
    Psi R u = k * π + arcsin ((u - 2 * k * R) / R) := by
  rcases h2.lt_or_eq with h | h
  · have : ⌊(u + R) / (2 * R)⌋ = k := by
      rw [Int.floor_eq_iff, le_div_iff₀ (by linarith), div_lt_iff₀ (by linarith)]
      constructor <;> linarith
    unfold Psi; rw [this]
  · have : ⌊(u + R) / (2 * R)⌋ = k + 1 := by
      rw [Int.floor_eq_iff, le_div_iff₀ (by linarith), div_lt_iff₀ (by linarith)]
      push_cast
      constructor <;> linarith
    unfold Psi; rw [this]
    push_cast
    rw [show (u - 2 * ((k : ℝ) + 1) * R) / R = -1 by rw [h]; field_simp; ring,
      show (u - 2 * (k : ℝ) * R) / R = 1 by rw [h]; field_simp; ring, arcsin_neg_one, arcsin_one]
    ring

/-- Every distance lies in a half turn. -/
theorem half_turn (u : ℝ) : ∃ k : ℤ, 2 * k * R - R ≤ u ∧ u < 2 * k * R + R := by
  refine ⟨⌊(u + R) / (2 * R)⌋, ?_, ?_⟩
  · have := Int.floor_le ((u + R) / (2 * R))
    rw [le_div_iff₀ (by linarith)] at this
    linarith
  · have := Int.lt_floor_add_one ((u + R) / (2 * R))
    rw [div_lt_iff₀ (by linarith)] at this
    linarith

theorem psi_range {u : ℝ} {k : ℤ} (h1 : 2 * k * R - R ≤ u) (h2 : u ≤ 2 * k * R + R) :
    k * π - π / 2 ≤ Psi R u ∧ Psi R u ≤ k * π + π / 2 := by
  rw [psi_eq hR h1 h2]
  have := neg_pi_div_two_le_arcsin ((u - 2 * k * R) / R)
  have := arcsin_le_pi_div_two ((u - 2 * k * R) / R)
  constructor <;> linarith

theorem psi_lt {u w : ℝ} (h : u < w) : Psi R u < Psi R w := by
  obtain ⟨k, h1, h2⟩ := half_turn hR u
  obtain ⟨l, h3, h4⟩ := half_turn hR w
  have hkl : k ≤ l := by
    by_contra hc
    have : (l : ℝ) + 1 ≤ k := by exact_mod_cast not_le.1 hc
    nlinarith
  rcases hkl.lt_or_eq with hkl | rfl
  · have hkl' : (k : ℝ) + 1 ≤ l := by exact_mod_cast hkl
    have h5 := (psi_range hR h3 h4.le).1
    have h6 : Psi R u < k * π + π / 2 := by
      rw [psi_eq hR h1 h2.le]
      have : arcsin ((u - 2 * k * R) / R) < π / 2 := by
        rw [arcsin_lt_pi_div_two, div_lt_one hR]; linarith
      linarith
    nlinarith [pi_pos]
  · rw [psi_eq hR h1 h2.le, psi_eq hR h3 h4.le]
    have : arcsin ((u - 2 * k * R) / R) < arcsin ((w - 2 * k * R) / R) := by
      refine strictMonoOn_arcsin ⟨?_, ?_⟩ ⟨?_, ?_⟩ (by gcongr)
      · rw [le_div_iff₀ hR]; linarith
      · rw [div_le_one hR]; linarith
      · rw [le_div_iff₀ hR]; linarith
      · rw [div_le_one hR]; linarith
    linarith

theorem psi_lt_iff {u w : ℝ} : Psi R u < Psi R w ↔ u < w :=
  ⟨fun h => by
    by_contra hc
    rcases (not_lt.1 hc).lt_or_eq with h' | h'
    · exact absurd (psi_lt hR h') (not_lt.2 h.le)
    · rw [h'] at h; exact lt_irrefl _ h, psi_lt hR⟩

theorem psi_le {u w : ℝ} (h : u ≤ w) : Psi R u ≤ Psi R w := by
  rcases h.lt_or_eq with h | h
  · exact (psi_lt hR h).le
  · rw [h]

theorem psi_neg (u : ℝ) : Psi R (-u) = -Psi R u := by
  obtain ⟨k, h1, h2⟩ := half_turn hR u
  rw [psi_eq hR h1 h2.le, psi_eq hR (k := -k) (by push_cast; linarith) (by push_cast; linarith)]
  push_cast
  rw [show (-u - 2 * -(k : ℝ) * R) / R = -((u - 2 * k * R) / R) by ring, arcsin_neg]
  ring

theorem psi_turn (u : ℝ) (w : ℤ) : Psi R (u + 4 * w * R) = Psi R u + 2 * w * π := by
  obtain ⟨k, h1, h2⟩ := half_turn hR u
  rw [psi_eq hR h1 h2.le, psi_eq hR (k := k + 2 * w) (by push_cast; linarith) (by push_cast; linarith)]
  push_cast
  rw [show (u + 4 * (w : ℝ) * R - 2 * ((k : ℝ) + 2 * w) * R) / R = (u - 2 * k * R) / R by
    congr 1; ring]
  ring

/-- The position. -/
theorem psi_sin {u : ℝ} {k : ℤ} (h1 : 2 * k * R - R ≤ u) (h2 : u ≤ 2 * k * R + R) :
    R * sin (Psi R u) = sg k * (u - 2 * k * R) := by
  rw [psi_eq hR h1 h2, add_comm, sin_half, sin_arcsin]
  · field_simp
  · rw [le_div_iff₀ hR]; linarith
  · rw [div_le_one hR]; linarith

/-- The position of the other axis. -/
theorem psi_cos {u : ℝ} {k : ℤ} (h1 : 2 * k * R - R ≤ u) (h2 : u ≤ 2 * k * R + R) :
    R * cos (Psi R u) = sg k * √(R ^ 2 - (u - 2 * k * R) ^ 2) := by
  rw [psi_eq hR h1 h2, add_comm, cos_half, cos_arcsin]
  have : √(R ^ 2 - (u - 2 * k * R) ^ 2) = R * √(1 - ((u - 2 * k * R) / R) ^ 2) := by
    rw [show R ^ 2 - (u - 2 * k * R) ^ 2 = R ^ 2 * (1 - ((u - 2 * k * R) / R) ^ 2) by
      field_simp, Real.sqrt_mul (sq_nonneg R), Real.sqrt_sq hR.le]
  rw [this]; ring

/-- Inside a half turn the order of the angles is that of the positions. -/
theorem half_mono {k : ℤ} {φ ψ : ℝ} (h1 : k * π - π / 2 ≤ φ) (h2 : φ ≤ ψ) (h3 : ψ ≤ k * π + π / 2) :
    sg k * (R * sin φ) ≤ sg k * (R * sin ψ) := by
  have key : ∀ x, sg k * (R * sin x) = R * sin (x - k * π) := by
    intro x
    have := sin_half (x - k * π) k
    rw [sub_add_cancel] at this
    rw [this]
    linear_combination (R * sin (x - k * π)) * sgr_sq k
  rw [key, key]
  refine mul_le_mul_of_nonneg_left ?_ hR.le
  exact sin_le_sin_of_le_of_le_pi_div_two (by linarith) (by linarith) (by linarith)

end

/-- A step of one lies in one half turn. -/
theorem unit_half {R : ℤ} (hR : 0 < R) (u : ℤ) :
    ∃ k : ℤ, 2 * k * R - R ≤ u ∧ u + 1 ≤ 2 * k * R + R := by
  refine ⟨(u + R) / (2 * R), ?_, ?_⟩
  · have := Int.mul_ediv_self_le (x := u + R) (k := 2 * R) (by omega)
    nlinarith
  · have := Int.lt_mul_ediv_self_add (x := u + R) (k := 2 * R) (by omega)
    nlinarith

/-- What happens between two steps. -/
theorem unit_step {R : ℤ} (hR : 0 < R) (u : ℤ) :
    |(R : ℝ) * sin (Psi R (u + 1)) - R * sin (Psi R u)| = 1 ∧
    ∀ ψ, Psi R u ≤ ψ → ψ ≤ Psi R (u + 1) →
      |R * sin ψ - R * sin (Psi R u)| ≤ 1 ∧ |R * sin ψ - R * sin (Psi R (u + 1))| ≤ 1 ∧
      (∀ χ, Psi R u ≤ χ → χ ≤ ψ →
        |R * sin χ - R * sin (Psi R u)| ≤ |R * sin ψ - R * sin (Psi R u)|) := by
  have hR' : (0 : ℝ) < R := by exact_mod_cast hR
  obtain ⟨k, h1, h2⟩ := unit_half hR u
  have h1' : 2 * (k : ℝ) * R - R ≤ u := by exact_mod_cast h1
  have h2' : (u : ℝ) + 1 ≤ 2 * k * R + R := by exact_mod_cast h2
  have e1 := psi_sin hR' h1' (by linarith)
  have e2 := psi_sin hR' (u := (u : ℝ) + 1) (k := k) (by linarith) h2'
  have r1 := (psi_range hR' h1' (by linarith)).1
  have r2 := (psi_range hR' (u := (u : ℝ) + 1) (k := k) (by linarith) h2').2
  have hs := sgr_sq k
  have ha : |(sg k : ℝ)| = 1 := by rcases sg_or k with h | h <;> rw [h] <;> norm_num
  have hm : ∀ x y : ℝ, |x - y| = |(sg k : ℝ) * x - sg k * y| := fun x y => by
    rw [← mul_sub, abs_mul, ha, one_mul]
  have s1 : sg k * ((R : ℝ) * sin (Psi R u)) = u - 2 * k * R := by
    rw [e1]; linear_combination ((u : ℝ) - 2 * k * R) * hs
  have s2 : sg k * ((R : ℝ) * sin (Psi R (u + 1))) = u + 1 - 2 * k * R := by
    rw [e2]; linear_combination ((u : ℝ) + 1 - 2 * k * R) * hs
  refine ⟨?_, fun ψ h3 h4 => ?_⟩
  · rw [hm, s1, s2, show (u : ℝ) + 1 - 2 * k * R - (u - 2 * k * R) = 1 by ring, abs_one]
  have m1 := half_mono hR' r1 h3 (h4.trans r2)
  have m2 := half_mono hR' (r1.trans h3) h4 r2
  rw [s1] at m1
  rw [s2] at m2
  refine ⟨?_, ?_, fun χ h5 h6 => ?_⟩
  · rw [hm, s1, abs_le]; constructor <;> linarith
  · rw [hm, s2, abs_le]; constructor <;> linarith
  · have m3 := half_mono hR' r1 h5 ((h6.trans h4).trans r2)
    have m4 := half_mono hR' (r1.trans h5) h6 (h4.trans r2)
    rw [s1] at m3
    rw [hm, hm (R * sin ψ), s1, abs_of_nonneg (by linarith), abs_of_nonneg (by linarith)]
    linarith

/-- The angle of a point close to the circle lies between those of its neighbours. -/
theorem near_psi {R x k : ℤ} {r φ : ℝ} (hR : 0 < R) (hr : |r - R| ≤ 1 / 2) (hx : |x| ≤ R)
    (hxr : |(x : ℝ)| ≤ r) (hr0 : 0 < r) (h1 : k * π - π / 2 ≤ φ) (h2 : φ ≤ k * π + π / 2)
    (hs : r * sin φ = sg k * x) :
    Psi R (2 * k * R + x - 1) < φ ∧ φ < Psi R (2 * k * R + x + 1) ∧
      |R * sin (Psi R (2 * k * R + x)) - R * sin φ| ≤ 1 / 2 := by
  have hR' : (0 : ℝ) < R := by exact_mod_cast hR
  obtain ⟨x1, x2⟩ := abs_le.1 hx
  have x1' : -(R : ℝ) ≤ x := by exact_mod_cast x1
  have x2' : (x : ℝ) ≤ R := by exact_mod_cast x2
  obtain ⟨a1, a2⟩ := abs_le.1 hr
  obtain ⟨b1, b2⟩ := abs_le.1 hxr
  have hsq := sgr_sq k
  have hφ : φ = k * π + arcsin (x / r) := by
    have e : sin (φ - k * π) = x / r := by
      have := sin_half (φ - k * π) k
      rw [sub_add_cancel] at this
      rw [eq_div_iff hr0.ne']
      have h3 : (sg k : ℝ) * (r * sin φ) = x := by rw [hs]; linear_combination (x : ℝ) * hsq
      rw [← h3, this]
      linear_combination (-sin (φ - k * π) * r) * hsq
    rw [← e, arcsin_sin (by linarith) (by linarith)]; ring
  refine ⟨?_, ?_, ?_⟩
  · rcases eq_or_ne x (-R) with rfl | hne
    · refine lt_of_lt_of_le (psi_lt hR' (w := 2 * k * R - R) (by push_cast; linarith)) ?_
      rw [psi_eq hR' (k := k) (by linarith) (by linarith),
        show (2 * (k : ℝ) * R - R - 2 * k * R) / R = -1 by field_simp; ring, arcsin_neg_one]
      linarith
    · have hx1 : -R + 1 ≤ x := by omega
      have hx1' : -(R : ℝ) + 1 ≤ x := by exact_mod_cast hx1
      rw [psi_eq hR' (k := k) (by linarith) (by linarith), hφ]
      have hlt : ((2 : ℝ) * k * R + x - 1 - 2 * k * R) / R < x / r := by
        rw [div_lt_div_iff₀ hR' hr0]
        nlinarith
      have : arcsin (((2 : ℝ) * k * R + x - 1 - 2 * k * R) / R) < arcsin (x / r) := by
        refine strictMonoOn_arcsin ⟨?_, ?_⟩ ⟨?_, ?_⟩ hlt
        · rw [le_div_iff₀ hR']; linarith
        · rw [div_le_one hR']; linarith
        · rw [le_div_iff₀ hr0]; linarith
        · rw [div_le_one hr0]; linarith
      linarith
  · rcases eq_or_ne x R with rfl | hne
    · refine lt_of_le_of_lt ?_ (psi_lt hR' (u := 2 * k * x + x) (by linarith))
      rw [psi_eq hR' (k := k) (by linarith) (by linarith),
        show (2 * (k : ℝ) * x + x - 2 * k * x) / x = 1 by field_simp; ring, arcsin_one]
      linarith
    · have hx1 : x + 1 ≤ R := by omega
      have hx1' : (x : ℝ) + 1 ≤ R := by exact_mod_cast hx1
      rw [psi_eq hR' (k := k) (by linarith) (by linarith), hφ]
      have hlt : x / r < ((2 : ℝ) * k * R + x + 1 - 2 * k * R) / R := by
        rw [div_lt_div_iff₀ hr0 hR']
        nlinarith
      have : arcsin (x / r) < arcsin (((2 : ℝ) * k * R + x + 1 - 2 * k * R) / R) := by
        refine strictMonoOn_arcsin ⟨?_, ?_⟩ ⟨?_, ?_⟩ hlt
        · rw [le_div_iff₀ hr0]; linarith
        · rw [div_le_one hr0]; linarith
        · rw [le_div_iff₀ hR']; linarith
        · rw [div_le_one hR']; linarith
      linarith
  · rw [psi_sin hR' (k := k) (by linarith) (by linarith)]
    have h3 : sin φ = sg k * x / r := by rw [eq_div_iff hr0.ne', ← hs]; ring
    rw [h3]
    have h4 : (sg k : ℝ) * (2 * k * R + x - 2 * k * R) - R * (sg k * x / r) =
        sg k * (x * (r - R) / r) := by field_simp; ring
    rw [h4, abs_mul]
    have ha : |(sg k : ℝ)| = 1 := by rcases sg_or k with h | h <;> rw [h] <;> norm_num
    rw [ha, one_mul, abs_div, abs_mul, abs_of_pos hr0, div_le_iff₀ hr0]
    nlinarith [abs_nonneg (x : ℝ), abs_nonneg (r - R)]

/-- Two angles with the same sine and cosine. -/
theorem same_angle {x y : ℝ} (h1 : sin x = sin y) (h2 : cos x = cos y) : ∃ n : ℤ, x = y + 2 * n * π := by
  have h3 : cos (x - y) = 1 := by
    rw [cos_sub, h1, h2]; nlinarith [sin_sq_add_cos_sq y]
  obtain ⟨n, hn⟩ := (cos_eq_one_iff (x - y)).1 h3
  exact ⟨n, by linarith⟩

end PyCNC
