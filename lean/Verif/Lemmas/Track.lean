import Verif.Lemmas.Psi

/-!
# An axis that follows a circle step by step

`Track` collects what an axis of an arc satisfies: it starts at the distance `u`, close to the angle
`ψ`, and makes `m` steps while the angle turns by `T`.
-/

namespace PyCNC

open Real

structure Track (R u : ℤ) (ψ T : ℝ) (m : ℕ) : Prop where
  hR : 0 < R
  hT : 0 < T
  T2 : T ≤ 2 * π
  hm : (m : ℤ) ≤ 4 * R
  s1 : Psi R (u - 1) < ψ
  s2 : ψ < Psi R (u + 1)
  near0 : |R * sin (Psi R u) - R * sin ψ| ≤ 1 / 2
  e1 : Psi R (u + m - 1) < ψ + T
  e2 : ψ + T < Psi R (u + m + 1)
  near : |R * sin (Psi R (u + m)) - R * sin (ψ + T)| ≤ 1 / 2

/-- How far the arc has turned when the axis is at its step `i`. -/
noncomputable def turnAt (R u : ℤ) (ψ T : ℝ) (m i : ℕ) : ℝ :=
  if i + 1 = m then T else Psi R (u + (i + 1 : ℕ)) - ψ

section

variable {R u : ℤ} {ψ T : ℝ} {m : ℕ}

theorem Track.R' (h : Track R u ψ T m) : (0 : ℝ) < R := by exact_mod_cast h.hR

/-- Between two ends the angles are inside one turn. -/
theorem Track.inside (h : Track R u ψ T m) {j : ℕ} (h1 : 0 < j) (h2 : j < m) :
    0 < Psi R (u + j) - ψ ∧ Psi R (u + j) - ψ < T ∧ Psi R (u + j) - ψ < 2 * π := by
  have hj1 : (1 : ℝ) ≤ j := by exact_mod_cast h1
  have hj2 : (j : ℝ) + 1 ≤ m := by exact_mod_cast h2
  have a1 := psi_le h.R' (u := (u : ℝ) + 1) (w := u + j) (by linarith)
  have a2 := psi_le h.R' (u := (u : ℝ) + j) (w := u + m - 1) (by linarith)
  have := h.s2
  have := h.e1
  have := h.T2
  exact ⟨by linarith, by linarith, by linarith⟩

theorem Track.turn_pos (h : Track R u ψ T m) {i : ℕ} (hi : i < m) : 0 < turnAt R u ψ T m i := by
  unfold turnAt
  split
  · exact h.hT
  · exact (h.inside (Nat.succ_pos i) (by omega)).1

theorem Track.turn_le (h : Track R u ψ T m) {i : ℕ} (hi : i < m) : turnAt R u ψ T m i ≤ T := by
  unfold turnAt
  split
  · exact le_rfl
  · exact (h.inside (Nat.succ_pos i) (by omega)).2.1.le

theorem Track.turn_lt (h : Track R u ψ T m) {i j : ℕ} (hij : i < j) (hj : j < m) :
    turnAt R u ψ T m i < turnAt R u ψ T m j := by
  unfold turnAt
  rw [if_neg (by omega)]
  split
  · exact (h.inside (Nat.succ_pos i) (by omega)).2.1
  · have : (i : ℝ) + 1 ≤ j := by exact_mod_cast hij
    have := psi_lt h.R' (u := (u : ℝ) + (i + 1 : ℕ)) (w := u + (j + 1 : ℕ)) (by push_cast; linarith)
    linarith

theorem Track.turn_last (_ : Track R u ψ T m) (hm : 0 < m) : turnAt R u ψ T m (m - 1) = T := by
  unfold turnAt
  rw [if_pos (by omega)]

/-- The axis is never far from the circle. -/
theorem Track.dev (h : Track R u ψ T m) {k : ℕ} {φ : ℝ} (hk : k ≤ m) (h0 : 0 ≤ φ) (hT : φ ≤ T)
    (h1 : ∀ i < k, turnAt R u ψ T m i ≤ φ) (h2 : k < m → φ ≤ turnAt R u ψ T m k) :
    |R * sin (Psi R (u + k)) - R * sin (ψ + φ)| ≤ 3 / 2 := by
  have hR := h.R'
  -- the last of the steps
  rcases Nat.eq_zero_or_pos k with rfl | hk0
  · -- before the first step
    simp only [Nat.cast_zero, add_zero]
    rcases le_or_gt (ψ + φ) (Psi R u) with hl | hl
    · -- still behind the first point
      have hs := unit_step h.hR (u - 1)
      push_cast at hs
      rw [sub_add_cancel] at hs
      have := (hs.2 (ψ + φ) (by have := h.s1; linarith) hl).2.1
      rw [abs_sub_comm]; linarith
    · have hs := unit_step h.hR u
      have hb : ψ + φ ≤ Psi R (u + 1) ∨ (Psi R (u + 1) < ψ + φ) := le_or_gt _ _
      rcases hb with hb | hb
      · have := (hs.2 (ψ + φ) hl.le hb).1
        rw [abs_sub_comm]; linarith
      · -- impossible unless the only step is the last one
        rcases Nat.eq_zero_or_pos m with rfl | hm
        · have := h.e2
          simp only [Nat.cast_zero, add_zero] at this
          linarith
        · have hm1 : m = 1 := by
            by_contra hne
            have h3 := h2 hm
            unfold turnAt at h3
            rw [if_neg (by omega)] at h3
            push_cast at h3
            linarith
          subst hm1
          have h4 := h.e2
          push_cast at h4
          have hs' := unit_step h.hR (u + 1)
          push_cast at hs'
          have h5 := hs'.2 (ψ + T) (by linarith) h4.le
          have h6 := h5.2.2 (ψ + φ) hb.le (by linarith)
          have h7 := h.near
          push_cast at h7
          rw [abs_sub_comm] at h7
          have h8 := hs.1
          have h9 : R * sin (Psi R u) - R * sin (ψ + φ) =
            -(R * sin (Psi R (u + 1)) - R * sin (Psi R u)) -
              (R * sin (ψ + φ) - R * sin (Psi R (u + 1))) := by ring
          rw [h9]
          refine (abs_sub _ _).trans ?_
          rw [abs_neg, h8]
          linarith
  rcases hk.lt_or_eq with hkm | rfl
  · -- between two steps
    have h3 := h1 (k - 1) (by omega)
    unfold turnAt at h3
    rw [if_neg (by omega), Nat.sub_add_cancel hk0] at h3
    have hs := unit_step h.hR (u + k)
    push_cast at hs
    rcases le_or_gt (ψ + φ) (Psi R (u + k + 1)) with hb | hb
    · have := (hs.2 (ψ + φ) (by linarith) hb).1
      rw [abs_sub_comm]; linarith
    · have hm1 : k + 1 = m := by
        by_contra hne
        have h3 := h2 hkm
        unfold turnAt at h3
        rw [if_neg hne] at h3
        push_cast at h3
        rw [← add_assoc] at h3
        linarith
      subst hm1
      have h4 := h.e2
      push_cast at h4
      rw [← add_assoc (u : ℝ)] at h4
      have hs' := unit_step h.hR (u + k + 1)
      push_cast at hs'
      have h5 := hs'.2 (ψ + T) (by linarith) h4.le
      have h6 := h5.2.2 (ψ + φ) hb.le (by linarith)
      have h7 := h.near
      push_cast at h7
      rw [← add_assoc (u : ℝ), abs_sub_comm] at h7
      have h8 := hs.1
      have h9 : R * sin (Psi R (u + k)) - R * sin (ψ + φ) =
        -(R * sin (Psi R (u + k + 1)) - R * sin (Psi R (u + k))) -
          (R * sin (ψ + φ) - R * sin (Psi R (u + k + 1))) := by ring
      rw [h9]
      refine (abs_sub _ _).trans ?_
      rw [abs_neg, h8]
      linarith
  · -- after the last step
    have h3 := h1 (k - 1) (by omega)
    rw [h.turn_last hk0] at h3
    rw [le_antisymm hT h3]
    have := h.near
    linarith

end

end PyCNC
