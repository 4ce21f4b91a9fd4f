import Verif.Lemmas.Linear
import Verif.Spec.Moves

/-!
# The constructor of linear generators in exact arithmetic
-/

set_option linter.unusedSectionVars false

namespace PyCNC

open Spec

variable [PyRound]

theorem pdiv_ok {a b : ℝ} (h : b ≠ 0) : pdiv a b = .ok (a / b) := by
  unfold pdiv
  rw [if_neg (by simpa using h)]
  rfl

@[simp] theorem secInMin_eq : (secInMin : ℝ) = 60 := by simp [secInMin]

theorem adjustAxis_ok {k v : ℝ} {M : ℚ} (hM : 0 < M) (hv : 0 ≤ v) (hk : 0 < k) :
    ∃ k', adjustAxis k v M = .ok k' ∧ 0 < k' ∧ k' ≤ k ∧
      (k ≤ 1 → v * k' * 60 ≤ M) ∧ (k' = k ∨ ((M : ℝ) < v * 60 ∧ k' = M / v / 60)) := by
  have hM' : (0 : ℝ) < M := by exact_mod_cast hM
  unfold adjustAxis
  by_cases h : (M : ℝ) < v * 60
  · rw [if_pos (by simpa using h)]
    have hv' : 0 < v := by nlinarith
    rw [pdiv_ok hv'.ne']
    refine ⟨min k (M / v / 60), ?_, ?_, min_le_left _ _, fun _ => ?_, ?_⟩
    · change Except.ok _ = _
      rw [pmin_eq]; simp
    · exact lt_min hk (by positivity)
    · have h1 : min k (M / v / 60) ≤ M / v / 60 := min_le_right _ _
      calc v * min k (M / v / 60) * 60 ≤ v * (M / v / 60) * 60 := by gcongr
        _ = M := by field_simp
    · rcases min_choice k (M / v / 60 : ℝ) with h1 | h1
      · exact .inl h1
      · exact .inr ⟨h, h1⟩
  · rw [if_neg (by simpa using h)]
    refine ⟨k, rfl, hk, le_refl _, fun h1 => ?_, .inl rfl⟩
    push Not at h
    nlinarith

theorem adjustVelocity_ok {c : Cfg} {w : V4 ℝ} (hM : ∀ ax, 0 < c.maxVel.get ax)
    (hw : ∀ ax, 0 ≤ w.get ax) (ha : c.autoVel = true) :
    ∃ κ : ℝ, adjustVelocity c w = .ok (Coord.smul w κ) ∧ 0 < κ ∧ κ ≤ 1 ∧
      (∀ ax, w.get ax * κ * 60 ≤ c.maxVel.get ax) ∧
      (κ = 1 ∨ ∃ ax, (c.maxVel.get ax : ℝ) < w.get ax * 60 ∧
        κ = c.maxVel.get ax / w.get ax / 60) := by
  obtain ⟨k1, e1, p1, l1, m1, c1⟩ := adjustAxis_ok (k := 1) (hM .x) (hw .x) one_pos
  obtain ⟨k2, e2, p2, l2, m2, c2⟩ := adjustAxis_ok (hM .y) (hw .y) p1
  obtain ⟨k3, e3, p3, l3, m3, c3⟩ := adjustAxis_ok (hM .z) (hw .z) p2
  obtain ⟨k4, e4, p4, l4, m4, c4⟩ := adjustAxis_ok (hM .e) (hw .e) p3
  simp only [V4.get] at e1 e2 e3 e4
  refine ⟨k4, ?_, p4, by linarith, fun ax => ?_, ?_⟩
  · unfold adjustVelocity
    rw [if_neg (by simp [ha])]
    have e0 : adjustAxis (PyNum.ofRat 1 : ℝ) w.x c.maxVel.x = .ok k1 := by
      rw [← e1]; simp
    rw [e0]
    change (adjustAxis k1 w.y c.maxVel.y >>= _) = _
    rw [e2]
    change (adjustAxis k2 w.z c.maxVel.z >>= _) = _
    rw [e3]
    change (adjustAxis k3 w.e c.maxVel.e >>= _) = _
    rw [e4]
    rfl
  · have key : ∀ ax (k' : ℝ), k4 ≤ k' → w.get ax * k' * 60 ≤ c.maxVel.get ax →
        w.get ax * k4 * 60 ≤ c.maxVel.get ax := by
      intro ax k' hk h
      have := mul_le_mul_of_nonneg_left hk (hw ax)
      linarith
    cases ax
    · exact key .x k1 (by linarith) (m1 (by linarith))
    · exact key .y k2 (by linarith) (m2 (by linarith))
    · exact key .z k3 (by linarith) (m3 (by linarith))
    · exact m4 (by linarith)
  · rcases c4 with h | h
    · rw [h]
      rcases c3 with h | h
      · rw [h]
        rcases c2 with h | h
        · rw [h]
          rcases c1 with h | h
          · exact .inl h
          · exact .inr ⟨.x, h⟩
        · exact .inr ⟨.y, h⟩
      · exact .inr ⟨.z, h⟩
    · exact .inr ⟨.e, h⟩

theorem decimal10_grid {v : V4 ℝ} (h : Decimal10 v) : GridV v := h

theorem length_eq (v : V4 ℝ) : Coord.length v = norm4 v := by
  simp [Coord.length, norm4, pow_two]

theorem norm4_sq (v : V4 ℝ) : norm4 v ^ 2 = v.x ^ 2 + v.y ^ 2 + v.z ^ 2 + v.e ^ 2 :=
  Real.sq_sqrt (by positivity)

theorem norm4_nonneg (v : V4 ℝ) : 0 ≤ norm4 v := Real.sqrt_nonneg _

theorem abs_le_norm4 (v : V4 ℝ) (ax : Axis) : |v.get ax| ≤ norm4 v := by
  refine Real.abs_le_sqrt ?_
  cases ax <;> simp only [V4.get] <;> nlinarith [sq_nonneg v.x, sq_nonneg v.y, sq_nonneg v.z, sq_nonneg v.e]

theorem norm4_le {v : V4 ℝ} {r : ℝ} (h : ∀ ax, |v.get ax| ≤ r) : norm4 v ≤ 2 * r := by
  have h0 : 0 ≤ r := (abs_nonneg _).trans (h .x)
  refine Real.sqrt_le_iff.2 ⟨by linarith, ?_⟩
  have hs : ∀ ax, (v.get ax) ^ 2 ≤ r ^ 2 := fun ax => sq_le_sq' (by linarith [(abs_le.1 (h ax)).1])
    (abs_le.1 (h ax)).2
  have hx := hs .x; have hy := hs .y; have hz := hs .z; have he := hs .e
  simp only [V4.get] at hx hy hz he
  nlinarith

/-- The triangle inequality for the length. -/
theorem norm4_sub_le (a b : V4 ℝ) (q : ℝ) (hq : 0 ≤ q) :
    norm4 a ≤ q * norm4 b + norm4 ⟨a.x - q * b.x, a.y - q * b.y, a.z - q * b.z, a.e - q * b.e⟩ := by
  set d : V4 ℝ := ⟨a.x - q * b.x, a.y - q * b.y, a.z - q * b.z, a.e - q * b.e⟩ with hd
  have ha := norm4_sq a
  have hb := norm4_sq b
  have hD := norm4_sq d
  have n1 := norm4_nonneg a
  have n2 := norm4_nonneg b
  have n3 := norm4_nonneg d
  have hx : a.x = q * b.x + d.x := by rw [hd]; ring
  have hy : a.y = q * b.y + d.y := by rw [hd]; ring
  have hz : a.z = q * b.z + d.z := by rw [hd]; ring
  have he : a.e = q * b.e + d.e := by rw [hd]; ring
  have cs : (b.x * d.x + b.y * d.y + b.z * d.z + b.e * d.e) ≤ norm4 b * norm4 d := by
    refine le_of_sq_le_sq ?_ (by positivity)
    rw [mul_pow, hb, hD]
    nlinarith [sq_nonneg (b.x * d.y - b.y * d.x), sq_nonneg (b.x * d.z - b.z * d.x),
      sq_nonneg (b.x * d.e - b.e * d.x), sq_nonneg (b.y * d.z - b.z * d.y),
      sq_nonneg (b.y * d.e - b.e * d.y), sq_nonneg (b.z * d.e - b.e * d.z)]
  refine le_of_sq_le_sq ?_ (by positivity)
  have : norm4 a ^ 2 = q ^ 2 * norm4 b ^ 2 + 2 * q * (b.x * d.x + b.y * d.y + b.z * d.z + b.e * d.e)
      + norm4 d ^ 2 := by rw [ha, hb, hD, hx, hy, hz, he]; ring
  nlinarith [mul_le_mul_of_nonneg_left cs hq]

/-! ## Bounds of an ordinary move -/

theorem e10_val : (E10 : ℝ) = 10 ^ 10 := rfl

section Bounds

variable {c : Cfg} {delta : V4 ℝ} {v : ℝ}

theorem abs_get (hm : OrdinaryMove delta v) (ax : Axis) :
    (Coord.abs delta).get ax = |delta.get ax| := get_abs_grid (decimal10_grid hm.decimal) ax

theorem dist_nonneg (hm : OrdinaryMove delta v) (ax : Axis) : 0 ≤ (Coord.abs delta).get ax := by
  rw [abs_get hm]; exact abs_nonneg _

theorem dist_le (_ : OrdinaryMove delta v) (ax : Axis) :
    (Coord.abs delta).get ax ≤ norm4 (Coord.abs delta) :=
  (le_abs_self _).trans (abs_le_norm4 _ ax)

theorem norm_abs (hm : OrdinaryMove delta v) : norm4 (Coord.abs delta) = norm4 delta := by
  unfold norm4
  have hx := abs_get hm .x; have hy := abs_get hm .y
  have hz := abs_get hm .z; have he := abs_get hm .e
  simp only [V4.get] at hx hy hz he
  rw [hx, hy, hz, he]
  simp [sq_abs]

theorem norm_le (hm : OrdinaryMove delta v) : norm4 (Coord.abs delta) ≤ 2 * 10 ^ 4 :=
  norm4_le fun ax => by rw [abs_get hm, abs_abs]; exact hm.le ax

theorem norm_ge (hm : OrdinaryMove delta v) : 1 / 1000 ≤ norm4 (Coord.abs delta) := by
  obtain ⟨ax, hax⟩ := hm.some
  refine (hm.ge ax hax).trans ?_
  rw [← abs_get hm]; exact dist_le hm ax

/-- The longest axis is at least half as long as the move. -/
theorem half_norm_le (hm : OrdinaryMove delta v) :
    norm4 (Coord.abs delta) ≤ 2 * Coord.findMax (Coord.abs delta) :=
  norm4_le fun ax => by
    rw [abs_of_nonneg (dist_nonneg hm ax)]; exact le_findMax _ _

/-- The velocities before the check for a short move: proportional to the distances up to
rounding, and within the limits when they are adjusted. -/
theorem initVel (hc : SaneCfg c) (hm : OrdinaryMove delta v) :
    ∃ w q, adjustVelocity c (Coord.smul (Coord.abs delta) (v / 60 / norm4 (Coord.abs delta))) = .ok w ∧
      GridV w ∧ (∀ ax, 0 ≤ w.get ax) ∧ 0 < q ∧ 1 / 60 ≤ q * norm4 (Coord.abs delta) ∧
      (∀ ax, |w.get ax - (Coord.abs delta).get ax * q| ≤ 1 / E10) ∧
      (c.autoVel = true → ∀ ax, w.get ax ≤ PyNum.round10 ((c.maxVel.get ax : ℝ) / 60)) ∧
      (c.autoVel = false →
        w = Coord.smul (Coord.abs delta) (v / 60 / norm4 (Coord.abs delta))) := by
  set L := norm4 (Coord.abs delta) with hL
  have hL1 : 1 / 1000 ≤ L := norm_ge hm
  have hLpos : 0 < L := by linarith
  set q0 := v / 60 / L with hq0
  have hv := hm.feed
  have hq0pos : 0 < q0 := by rw [hq0]; positivity
  have hq0L : q0 * L = v / 60 := by rw [hq0]; field_simp
  set w0 := Coord.smul (Coord.abs delta) q0 with hw0
  have hE := E10_pos
  have hw0near : ∀ ax, |w0.get ax - (Coord.abs delta).get ax * q0| ≤ 1 / 2 / E10 := fun ax => by
    rw [hw0, get_smul]; exact round10_near _
  have hw0nn : ∀ ax, 0 ≤ w0.get ax := fun ax => by
    rw [hw0, get_smul]; exact round10_nonneg (mul_nonneg (dist_nonneg hm ax) hq0pos.le)
  have hhalf : (1 : ℝ) / 2 / E10 ≤ 1 / E10 := by
    rw [div_div, div_le_div_iff₀ (by positivity) hE]; linarith
  by_cases ha : c.autoVel = true
  · have hMpos : ∀ ax, 0 < c.maxVel.get ax := fun ax => by have := hc.maxVel ax; linarith
    obtain ⟨κ, h1, hκ0, hκ1, hlim, hcase⟩ := adjustVelocity_ok hMpos hw0nn ha
    refine ⟨_, q0 * κ, h1, gridV_new _ _ _ _, fun ax => ?_, by positivity, ?_, fun ax => ?_,
      fun _ ax => ?_, fun h => by rw [ha] at h; cases h⟩
    · rw [get_smul]; exact round10_nonneg (mul_nonneg (hw0nn ax) hκ0.le)
    · rcases hcase with rfl | ⟨ax, h2, h3⟩
      · rw [mul_one, hq0L]; linarith
      · have hM : (60 : ℝ) ≤ c.maxVel.get ax := by exact_mod_cast hc.maxVel ax
        have h4 := (abs_le.1 (hw0near ax)).2
        have h5 : (Coord.abs delta).get ax * q0 ≤ q0 * L := by
          rw [mul_comm]; exact mul_le_mul_of_nonneg_left (dist_le hm ax) hq0pos.le
        have h6 : (1 : ℝ) / 2 / E10 ≤ 1 / 100 := by rw [e10_val]; norm_num
        have h7 : 1 < w0.get ax := by linarith
        have h8 : w0.get ax ≤ q0 * L + 1 / 100 := by linarith
        have h9 : 1 / w0.get ax ≤ κ := by
          rw [h3, div_div, div_le_div_iff₀ (by linarith) (by linarith)]
          nlinarith
        have h10 : q0 * L ≥ 1 - 1 / 100 := by linarith
        have h11 : (w0.get ax - 1 / 100) * (1 / w0.get ax) ≤ (q0 * L) * κ := by
          apply mul_le_mul (by linarith) h9 (by positivity) (by linarith)
        have h12 : (w0.get ax - 1 / 100) * (1 / w0.get ax) ≥ 1 / 60 := by
          rw [mul_one_div, ge_iff_le, div_le_div_iff₀ (by norm_num) (by linarith)]
          linarith
        nlinarith
    · rw [get_smul]
      have h2 := round10_near (w0.get ax * κ)
      have h3 : |w0.get ax * κ - (Coord.abs delta).get ax * (q0 * κ)| ≤ 1 / 2 / E10 := by
        have : w0.get ax * κ - (Coord.abs delta).get ax * (q0 * κ) =
          (w0.get ax - (Coord.abs delta).get ax * q0) * κ := by ring
        rw [this, _root_.abs_mul, abs_of_pos hκ0]
        calc _ ≤ |w0.get ax - (Coord.abs delta).get ax * q0| * 1 := by gcongr
          _ ≤ _ := by rw [mul_one]; exact hw0near ax
      have h4 := abs_add_le (PyNum.round10 (w0.get ax * κ) - w0.get ax * κ)
        (w0.get ax * κ - (Coord.abs delta).get ax * (q0 * κ))
      rw [sub_add_sub_cancel] at h4
      have h5 : (1 : ℝ) / E10 = 1 / 2 / E10 + 1 / 2 / E10 := by ring
      linarith
    · rw [get_smul]
      refine round10_mono ?_
      have := hlim ax
      linarith
  · refine ⟨w0, q0, ?_, gridV_new _ _ _ _, hw0nn, hq0pos, ?_, fun ax => (hw0near ax).trans hhalf,
      fun h => absurd h ha, fun _ => rfl⟩
    · unfold adjustVelocity
      rw [if_pos (by simpa using ha)]
      rfl
    · rw [hq0L]; linarith

end Bounds

end PyCNC
