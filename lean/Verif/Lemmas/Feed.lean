import Verif.Lemmas.LinearShape
import Verif.Lemmas.LinearWitness
import Verif.Spec.Feed

/-!
# The speed of straight moves
-/

set_option linter.unusedSectionVars false

namespace PyCNC

open Spec

variable [PyRound] {c : Cfg} {delta : V4 ℝ} {v : ℝ}

/-- The velocities the constructor starts from. -/
theorem feed_velocity (hc : SaneCfg c) (hm : OrdinaryMove delta v) {w : V4 ℝ}
    (h : adjustVelocity c (Coord.smul (Coord.abs delta) (v / 60 / norm4 (Coord.abs delta))) = .ok w) :
    FeedVelocity c delta v w := by
  have hL1 := norm_ge hm
  unfold FeedVelocity
  rw [← norm_abs hm]
  set L := norm4 (Coord.abs delta) with hL
  have hLpos : 0 < L := by linarith
  set q0 := v / 60 / L with hq0
  have hv := hm.feed
  have hq0pos : 0 < q0 := by rw [hq0]; positivity
  have hq0L : q0 * L = v / 60 := by rw [hq0]; field_simp
  set w0 := Coord.smul (Coord.abs delta) q0 with hw0
  have hE := E10_pos
  have e1 : (1 : ℝ) / 10 ^ 10 = 1 / 2 / E10 + 1 / 2 / E10 := by rw [e10_val]; ring
  have hw0near : ∀ ax, |w0.get ax - (Coord.abs delta).get ax * q0| ≤ 1 / 2 / E10 := fun ax => by
    rw [hw0, get_smul]; exact round10_near _
  have hw0nn : ∀ ax, 0 ≤ w0.get ax := fun ax => by
    rw [hw0, get_smul]; exact round10_nonneg (mul_nonneg (dist_nonneg hm ax) hq0pos.le)
  have hhalf : (0 : ℝ) ≤ 1 / 2 / E10 := by positivity
  by_cases ha : c.autoVel = true
  · have hMpos : ∀ ax, 0 < c.maxVel.get ax := fun ax => by have := hc.maxVel ax; linarith
    obtain ⟨κ, h1, hκ0, hκ1, hlim, hcase⟩ := adjustVelocity_ok hMpos hw0nn ha
    rw [h1] at h
    cases h
    have near : ∀ ax, |(Coord.smul w0 κ).get ax - |delta.get ax| / L * (v / 60 * κ)| ≤
        1 / 10 ^ 10 := by
      intro ax
      rw [get_smul, e1]
      have h2 := round10_near (w0.get ax * κ)
      have h3 : |w0.get ax * κ - |delta.get ax| / L * (v / 60 * κ)| ≤ 1 / 2 / E10 := by
        have : w0.get ax * κ - |delta.get ax| / L * (v / 60 * κ) =
          (w0.get ax - (Coord.abs delta).get ax * q0) * κ := by
          rw [abs_get hm, hq0]; ring
        rw [this, _root_.abs_mul, abs_of_pos hκ0]
        calc _ ≤ |w0.get ax - (Coord.abs delta).get ax * q0| * 1 := by gcongr
          _ ≤ _ := by rw [mul_one]; exact hw0near ax
      have h4 := abs_add_le (PyNum.round10 (w0.get ax * κ) - w0.get ax * κ)
        (w0.get ax * κ - |delta.get ax| / L * (v / 60 * κ))
      rw [sub_add_sub_cancel] at h4
      linarith
    rcases hcase with rfl | ⟨ax, h2, h3⟩
    · left
      simpa using near
    · right
      refine ⟨ha, ⟨v / 60 * κ, by positivity, ?_, near⟩, ax, ?_⟩
      · exact mul_le_of_le_one_right (by positivity) hκ1
      · rw [get_smul, e1]
        have hw : w0.get ax ≠ 0 := by
          intro h0
          rw [h0, zero_mul] at h2
          have : (0 : ℝ) < c.maxVel.get ax := by exact_mod_cast hMpos ax
          linarith
        have h5 : w0.get ax * κ = c.maxVel.get ax / 60 := by rw [h3]; field_simp
        have h4 := (abs_le.1 (round10_near (w0.get ax * κ))).1
        rw [h5] at h4 ⊢
        linarith
  · left
    intro ax
    have : w = w0 := by
      unfold adjustVelocity at h
      rw [if_pos (by simpa using ha)] at h
      exact (Except.ok.inj h).symm
    rw [this, e1]
    have h4 := hw0near ax
    rw [abs_get hm] at h4
    have : |delta.get ax| / L * (v / 60) = |delta.get ax| * q0 := by rw [hq0]; ring
    rw [this]
    linarith

/-- The motors between acceleration and braking. -/
theorem travel_uniform {A B t : ℝ} (hA : 0 < A) (h1 : A ≤ t) (h2 : t ≤ A + B) :
    travel (2 * A) A B t = t - A / 2 := by
  unfold travel
  rw [pos_of_nonneg (by linarith), pos_of_nonpos (by linarith)]
  field_simp
  ring

/-- Straight moves: the speeds, and the time. -/
theorem linear_feed (hc : SaneCfg c) (hm : OrdinaryMove delta v) {g : LinearGen ℝ}
    (hg : LinearGen.new c delta v = .ok g) :
    ∃ w : V4 ℝ, FeedVelocity c delta v w ∧ 0 < norm4 w ∧
      (∀ ax i j, i < (g.total.get ax).toNat → j < (g.total.get ax).toNat →
        norm4 w / c.accel ≤ g.at c (g.pt c ax i) → norm4 w / c.accel ≤ g.at c (g.pt c ax j) →
        g.at c (g.pt c ax i) ≤ (Gen.linear g).totalTime - norm4 w / c.accel →
        g.at c (g.pt c ax j) ≤ (Gen.linear g).totalTime - norm4 w / c.accel →
        (g.at c (g.pt c ax j) - g.at c (g.pt c ax i)) * w.get ax * c.ppm.get ax = (j : ℝ) - i) ∧
      norm4 delta / norm4 w ≤ (Gen.linear g).totalTime ∧
      (Gen.linear g).totalTime ≤ norm4 delta / norm4 w + 2 * (norm4 w / c.accel) := by
  have hlf := linear_facts hc hm hg
  obtain ⟨g', w, q, h1, hi, _, ht, _, h⟩ := linear_new hc hm
  rw [h1] at hg
  cases hg
  have ha : (0 : ℝ) < c.accel := by have := accel_ge hc; linarith
  have hW := hi.norm_pos hm
  have hmx := InitVel.max_le_norm w
  have hmg := hi.max_ge hm
  have hdiv : Coord.findMax w / c.accel ≤ norm4 w / c.accel := div_le_div_of_nonneg_right hmx ha.le
  have hL := norm_ge hm
  have hT : (Gen.linear g).totalTime = 2 * g.accT + g.linT := by
    simp [Gen.totalTime, Gen.accT, Gen.linT]; ring
  refine ⟨w, feed_velocity hc hm hi.ok, hW, ?_⟩
  rw [hT, ← norm_abs hm]
  rcases h with h | h
  · have hA : 0 < g.accT := by rw [h.accT]; exact div_pos (by linarith) ha
    have hk : (Gen.linear g).twoVmaxPerA c = 2 * g.accT := by
      rw [twoVmaxPerA_eq, h.maxV, h.accT]; ring
    refine ⟨fun ax i j hi' hj' a1 a2 a3 a4 => ?_, ?_, ?_⟩
    · have k1 := linear_where_pulse hlf ax hi'
      have k2 := linear_where_pulse hlf ax hj'
      have hP : (0 : ℝ) < c.ppm.get ax := by exact_mod_cast hc.ppm_pos ax
      unfold LinearGen.where at k1 k2
      rw [hk, h.maxV] at k1 k2
      rw [travel_uniform hA (by rw [h.accT]; linarith) (by rw [h.accT] at a3 ⊢; linarith)] at k1
      rw [travel_uniform hA (by rw [h.accT]; linarith) (by rw [h.accT] at a4 ⊢; linarith)] at k2
      have : w.get ax * (g.at c (g.pt c ax j) - g.at c (g.pt c ax i)) =
          ((j : ℝ) - i) / c.ppm.get ax := by
        rw [sub_div, ← k1, ← k2]; ring
      rw [mul_comm (_ - _) (w.get ax), this]
      field_simp
    · rw [h.linT, h.accT, sub_div]
      have : Coord.findMax w ^ 2 / c.accel / norm4 w ≤ Coord.findMax w / c.accel := by
        rw [div_le_iff₀ hW, div_mul_eq_mul_div]
        refine div_le_div_of_nonneg_right ?_ ha.le
        rw [pow_two]
        exact mul_le_mul_of_nonneg_left hmx (by linarith)
      have h0 : 0 ≤ Coord.findMax w / c.accel := by positivity
      linarith
    · rw [h.linT, h.accT, sub_div]
      have : 0 ≤ Coord.findMax w ^ 2 / c.accel / norm4 w := by positivity
      linarith
  · have hA := h.accT_pos hc hm
    have hsq := h.accT_sq hc hm
    have hcond := h.cond
    set L := norm4 (Coord.abs delta)
    have hLa : L = g.accT ^ 2 * c.accel := by rw [hsq]; field_simp
    have hlt : g.accT < Coord.findMax w / c.accel := by
      rw [lt_div_iff₀ ha]
      have h0 : 0 < Coord.findMax w := by linarith
      refine lt_of_pow_lt_pow_left₀ 2 h0.le ?_
      rw [mul_pow]
      nlinarith
    refine ⟨fun ax i j _ _ a1 _ a3 _ => ?_, ?_, ?_⟩
    · rw [h.linT] at a3
      linarith
    · rw [h.linT, div_le_iff₀ hW, hLa]
      have h2 : g.accT * c.accel ≤ norm4 w := by
        rw [lt_div_iff₀ ha] at hlt; linarith
      nlinarith [mul_le_mul_of_nonneg_left h2 hA.le, mul_pos hA hW]
    · rw [h.linT]
      have : 0 ≤ L / norm4 w := by positivity
      linarith

end PyCNC
