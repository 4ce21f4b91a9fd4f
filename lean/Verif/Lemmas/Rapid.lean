import Verif.Lemmas.Bridge

/-!
# The velocity of rapid moves
-/

namespace PyCNC

open Spec

variable [PyRound] {c : Cfg}

theorem rapidAxis_spec {vl p : ℝ} {m : ℚ} (hp : 0 ≤ p) (hm : 0 ≤ m) :
    rapidAxis vl p m ≤ vl ∧ rapidAxis vl p m * p ≤ m ∧
      (rapidAxis vl p m = vl ∨ (0 < p ∧ (m : ℝ) < (rapidAxis vl p m + 1) * p)) := by
  have hm' : (0 : ℝ) ≤ m := by exact_mod_cast hm
  unfold rapidAxis
  split
  · rename_i h
    have h0 : 0 < p := by simpa using h
    have hq : 0 ≤ (m : ℝ) / p := div_nonneg hm' h0.le
    have hv : (ofInt (PyNum.truncI (PyNum.ofRat m /ₚ p)) : ℝ) = (⌊(m : ℝ) / p⌋ : ℝ) := by
      rw [ofInt_eq, truncI_eq, div_eq, ofRat_eq, if_pos hq]
    have h1 : (⌊(m : ℝ) / p⌋ : ℝ) * p ≤ m := by
      rw [← le_div_iff₀ h0]; exact Int.floor_le _
    have h2 : (m : ℝ) < (⌊(m : ℝ) / p⌋ + 1) * p := by
      rw [← div_lt_iff₀ h0]; exact Int.lt_floor_add_one _
    dsimp only
    rw [hv]
    split
    · rename_i h3
      have h3 : (⌊(m : ℝ) / p⌋ : ℝ) < vl := by simpa using h3
      exact ⟨h3.le, h1, .inr ⟨h0, h2⟩⟩
    · rename_i h3
      have h3 : vl ≤ (⌊(m : ℝ) / p⌋ : ℝ) := by simpa using h3
      exact ⟨le_rfl, (mul_le_mul_of_nonneg_right h3 hp).trans h1, .inl rfl⟩
  · rename_i h
    have h0 : p = 0 := le_antisymm (by simpa using h) hp
    subst h0
    exact ⟨le_rfl, by simpa using hm', .inl rfl⟩

/-- What the velocity of a rapid move is. -/
theorem rapid_spec (hc : SaneCfg c) {d : V4 ℝ} (hd : GridV d) {v : ℝ}
    (h : rapidVelocity c d = .ok v) :
    60 ≤ v ∧ v ≤ maxMaxVel c ∧
    (∀ ax, v * |d.get ax| ≤ (c.maxVel.get ax + maxMaxVel c / 10 ^ 10) * norm4 d) ∧
    (v = maxMaxVel c ∨ ∃ ax, d.get ax ≠ 0 ∧
      (c.maxVel.get ax - (maxMaxVel c + 1) / 10 ^ 10) * norm4 d < (v + 1) * |d.get ax|) := by
  obtain ⟨v', hv', h60⟩ := rapidVelocity_ok hc hd
  rw [h] at hv'
  cases hv'
  have hM : ∀ ax, (0 : ℚ) ≤ c.maxVel.get ax := fun ax => by have := hc.maxVel ax; linarith
  have hM' : ∀ ax, (0 : ℝ) ≤ c.maxVel.get ax := fun ax => by exact_mod_cast hM ax
  have htop : (0 : ℝ) ≤ maxMaxVel c := by
    rw [maxMaxVel_eq]; exact (hM' .e).trans (le_max_right _ _)
  refine ⟨h60, ?_⟩
  generalize htp : (maxMaxVel c : ℝ) = top at *
  have hN := norm4_nonneg d
  unfold rapidVelocity at h
  rw [htp] at h
  dsimp only at h
  split at h
  · rename_i hl
    have hl' : 0 < Coord.length d := by simpa using hl
    have hlen : Coord.length d = norm4 d := length_eq d
    set P : Axis → ℝ := fun ax => PyNum.round10 ((Coord.abs d).get ax / Coord.length d) with hP
    have hP0 : ∀ ax, 0 ≤ P ax := fun ax => by
      rw [hP]
      dsimp only
      rw [get_abs_grid hd]
      exact round10_nonneg (div_nonneg (abs_nonneg _) hl'.le)
    have hPn : ∀ ax, |P ax * norm4 d - (|d.get ax|)| ≤ 1 / 2 / 10 ^ 10 * norm4 d := fun ax => by
      have h1 := round10_near ((Coord.abs d).get ax / Coord.length d)
      rw [show (1 : ℝ) / 2 / E10 = 1 / 2 / 10 ^ 10 from rfl] at h1
      have h2 : P ax * norm4 d - |d.get ax| =
          (PyNum.round10 ((Coord.abs d).get ax / Coord.length d) -
            (Coord.abs d).get ax / Coord.length d) * norm4 d := by
        rw [sub_mul, get_abs_grid hd, hlen, div_mul_cancel₀ _ (by rw [← hlen]; exact hl'.ne')]
        simp only [hP, get_abs_grid hd, hlen]
      rw [h2, abs_mul, abs_of_nonneg hN]
      exact mul_le_mul_of_nonneg_right h1 hN
    have hfin : ∀ ax, v * P ax ≤ c.maxVel.get ax → v ≤ top →
        v * |d.get ax| ≤ (c.maxVel.get ax + top / 10 ^ 10) * norm4 d := by
      intro ax h1 h2
      have h3 := (abs_le.1 (hPn ax)).1
      have h4 : v * |d.get ax| ≤ v * (P ax * norm4 d + 1 / 2 / 10 ^ 10 * norm4 d) :=
        mul_le_mul_of_nonneg_left (by linarith) (by linarith)
      have h5 : v * P ax * norm4 d ≤ c.maxVel.get ax * norm4 d := mul_le_mul_of_nonneg_right h1 hN
      have h6 : v * norm4 d ≤ top * norm4 d := mul_le_mul_of_nonneg_right h2 hN
      have h7 : 0 ≤ top * norm4 d := mul_nonneg htop hN
      nlinarith
    have hlow : ∀ ax, 0 < P ax → (c.maxVel.get ax : ℝ) < (v + 1) * P ax → v ≤ top →
        d.get ax ≠ 0 ∧
          (c.maxVel.get ax - (top + 1) / 10 ^ 10) * norm4 d < (v + 1) * |d.get ax| := by
      intro ax h0 h1 h2
      refine ⟨fun hz => ?_, ?_⟩
      · simp only [hP, get_abs_grid hd, hz, abs_zero, zero_div, round10_zero] at h0
        exact lt_irrefl _ h0
      · have hN' : 0 < norm4 d := hlen ▸ hl'
        have h3 := (abs_le.1 (hPn ax)).2
        have h4 : (v + 1) * (P ax * norm4 d - 1 / 2 / 10 ^ 10 * norm4 d) ≤ (v + 1) * |d.get ax| :=
          mul_le_mul_of_nonneg_left (by linarith) (by linarith)
        have h5 : c.maxVel.get ax * norm4 d < (v + 1) * P ax * norm4 d :=
          mul_lt_mul_of_pos_right h1 hN'
        have h6 : v * norm4 d ≤ top * norm4 d := mul_le_mul_of_nonneg_right h2 hN
        have h7 : 0 ≤ top * norm4 d := mul_nonneg htop hN
        nlinarith
    unfold Coord.sdiv at h
    rw [pdiv_ok hl'.ne', pdiv_ok hl'.ne', pdiv_ok hl'.ne', pdiv_ok hl'.ne'] at h
    have hv : rapidAxis (rapidAxis (rapidAxis (rapidAxis top (P .x) c.maxVel.x) (P .y) c.maxVel.y)
        (P .z) c.maxVel.z) (P .e) c.maxVel.e = v := Except.ok.inj h
    obtain ⟨x1, x2, x3⟩ := rapidAxis_spec (vl := top) (hP0 .x) (hM .x)
    simp only [V4.get] at x1 x2 x3
    generalize rapidAxis top (P .x) c.maxVel.x = r1 at *
    obtain ⟨y1, y2, y3⟩ := rapidAxis_spec (vl := r1) (hP0 .y) (hM .y)
    simp only [V4.get] at y1 y2 y3
    generalize rapidAxis r1 (P .y) c.maxVel.y = r2 at *
    obtain ⟨z1, z2, z3⟩ := rapidAxis_spec (vl := r2) (hP0 .z) (hM .z)
    simp only [V4.get] at z1 z2 z3
    generalize rapidAxis r2 (P .z) c.maxVel.z = r3 at *
    obtain ⟨e1, e2, e3⟩ := rapidAxis_spec (vl := r3) (hP0 .e) (hM .e)
    simp only [V4.get] at e1 e2 e3
    generalize rapidAxis r3 (P .e) c.maxVel.e = r4 at *
    subst hv
    have ht : r4 ≤ top := by linarith
    have mono : ∀ {r : ℝ} (ax : Axis), r4 ≤ r → r * P ax ≤ c.maxVel.get ax →
        r4 * P ax ≤ c.maxVel.get ax := fun ax h1 h2 =>
      (mul_le_mul_of_nonneg_right h1 (hP0 ax)).trans h2
    refine ⟨ht, fun ax => hfin ax ?_ ht, ?_⟩
    · cases ax
      · exact mono .x (by linarith) x2
      · exact mono .y (by linarith) y2
      · exact mono .z (by linarith) z2
      · exact e2
    · rcases e3 with e3 | ⟨e3, e4⟩
      · subst e3
        rcases z3 with z3 | ⟨z3, z4⟩
        · subst z3
          rcases y3 with y3 | ⟨y3, y4⟩
          · subst y3
            rcases x3 with x3 | ⟨x3, x4⟩
            · exact .inl x3
            · exact .inr ⟨.x, hlow .x x3 x4 ht⟩
          · exact .inr ⟨.y, hlow .y y3 y4 ht⟩
        · exact .inr ⟨.z, hlow .z z3 z4 ht⟩
      · exact .inr ⟨.e, hlow .e e3 e4 ht⟩
  · rename_i hl
    have hl' : Coord.length d ≤ 0 := by simpa using hl
    rw [length_eq] at hl'
    have h0 : ∀ ax, |d.get ax| = 0 := fun ax =>
      le_antisymm ((abs_le_norm4 d ax).trans hl') (abs_nonneg _)
    have hv : top = v := Except.ok.inj h
    refine ⟨hv.ge, fun ax => ?_, .inl hv.symm⟩
    rw [h0, mul_zero]
    exact mul_nonneg (add_nonneg (hM' ax) (div_nonneg htop (by norm_num))) hN

/-- The velocity respects the shares of the axes as they are computed. -/
theorem rapid_share (hc : SaneCfg c) {d : V4 ℝ} (hd : GridV d) (h0 : 0 < norm4 d) {v : ℝ}
    (h : rapidVelocity c d = .ok v) (ax : Axis) :
    v * PyNum.round10 (|d.get ax| / norm4 d) ≤ c.maxVel.get ax := by
  have hM : ∀ ax, (0 : ℚ) ≤ c.maxVel.get ax := fun ax => by have := hc.maxVel ax; linarith
  have hlen : Coord.length d = norm4 d := length_eq d
  unfold rapidVelocity at h
  generalize (maxMaxVel c : ℝ) = top at *
  dsimp only at h
  rw [if_pos (by simpa [hlen] using h0)] at h
  have hl' : 0 < Coord.length d := hlen ▸ h0
  set P : Axis → ℝ := fun ax => PyNum.round10 ((Coord.abs d).get ax / Coord.length d) with hP
  have hPe : ∀ ax, PyNum.round10 (|d.get ax| / norm4 d) = P ax := fun ax => by
    rw [hP]
    dsimp only
    rw [get_abs_grid hd, hlen]
  have hP0 : ∀ ax, 0 ≤ P ax := fun ax => by
    rw [← hPe]
    exact round10_nonneg (div_nonneg (abs_nonneg _) h0.le)
  rw [hPe]
  unfold Coord.sdiv at h
  rw [pdiv_ok hl'.ne', pdiv_ok hl'.ne', pdiv_ok hl'.ne', pdiv_ok hl'.ne'] at h
  have hv : rapidAxis (rapidAxis (rapidAxis (rapidAxis top (P .x) c.maxVel.x) (P .y) c.maxVel.y)
      (P .z) c.maxVel.z) (P .e) c.maxVel.e = v := Except.ok.inj h
  obtain ⟨x1, x2, -⟩ := rapidAxis_spec (vl := top) (hP0 .x) (hM .x)
  simp only [V4.get] at x1 x2
  generalize rapidAxis top (P .x) c.maxVel.x = r1 at *
  obtain ⟨y1, y2, -⟩ := rapidAxis_spec (vl := r1) (hP0 .y) (hM .y)
  simp only [V4.get] at y1 y2
  generalize rapidAxis r1 (P .y) c.maxVel.y = r2 at *
  obtain ⟨z1, z2, -⟩ := rapidAxis_spec (vl := r2) (hP0 .z) (hM .z)
  simp only [V4.get] at z1 z2
  generalize rapidAxis r2 (P .z) c.maxVel.z = r3 at *
  obtain ⟨e1, e2, -⟩ := rapidAxis_spec (vl := r3) (hP0 .e) (hM .e)
  simp only [V4.get] at e1 e2
  generalize rapidAxis r3 (P .e) c.maxVel.e = r4 at *
  subst hv
  have mono : ∀ {r : ℝ} (ax : Axis), r4 ≤ r → r * P ax ≤ c.maxVel.get ax →
      r4 * P ax ≤ c.maxVel.get ax := fun ax h1 h2 =>
    (mul_le_mul_of_nonneg_right h1 (hP0 ax)).trans h2
  cases ax
  · exact mono .x (by linarith) x2
  · exact mono .y (by linarith) y2
  · exact mono .z (by linarith) z2
  · exact e2

end PyCNC
