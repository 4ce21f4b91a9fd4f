import Verif.Lemmas.LinearLimits
import Verif.Lemmas.Machine

/-!
# The velocity check of linear moves
-/

set_option linter.unusedSectionVars false

namespace PyCNC

open Spec

variable [PyRound] {c : Cfg} {delta : V4 ℝ} {v : ℝ}

theorem checkVelocity_ok_iff {u : V4 ℝ} :
    checkVelocity c u = .ok () ↔ ∀ ax, u.get ax ≤ c.maxVel.get ax := by
  unfold checkVelocity
  constructor
  · intro h ax
    split at h
    · cases h
    · rename_i h1
      simp only [Bool.or_eq_true, lt_iff, ofRat_eq, not_or, not_lt] at h1
      obtain ⟨⟨⟨hx, hy⟩, hz⟩, he⟩ := h1
      cases ax
      exacts [hx, hy, hz, he]
  · intro h
    rw [if_neg]
    simp only [Bool.or_eq_true, lt_iff, ofRat_eq, not_or, not_lt]
    exact ⟨⟨⟨h .x, h .y⟩, h .z⟩, h .e⟩

theorem checkVelocity_of_le (hd : DecimalLimits c) {g : LinearGen ℝ}
    (h : ∀ ax, g.maxV.get ax ≤ (c.maxVel.get ax : ℝ) / 60) :
    checkVelocity c (Gen.linear g).maxVelocity = .ok () := by
  rw [checkVelocity_ok_iff]
  intro ax
  unfold Gen.maxVelocity
  rw [get_smul, secInMin_eq]
  have hg : Grid (c.maxVel.get ax : ℝ) := by
    obtain ⟨k, hk⟩ := hd ax
    refine ⟨60 * k, ?_⟩
    push_cast
    rw [e10_val, mul_div_assoc, ← hk]
    ring
  refine round10_le_grid hg ?_
  have := h ax
  change g.maxV.get ax * 60 ≤ _
  linarith

/-- Velocities without automatic adjustment when the move is long. -/
theorem linear_manual (hc : SaneCfg c) (hd : DecimalLimits c) (ha : c.autoVel = false)
    (hm : OrdinaryMove delta v)
    (hlong : ∀ ax, (v / 60 * |delta.get ax| / norm4 delta + 1 / 10 ^ 10) ^ 2 ≤
      c.accel * norm4 delta) :
    ∃ g, LinearGen.new c delta v = .ok g ∧
      (∀ ax, |g.maxV.get ax - v / 60 * |delta.get ax| / norm4 delta| ≤ 1 / 10 ^ 10) ∧
      ((∀ ax, v * |delta.get ax| / norm4 delta ≤ c.maxVel.get ax) →
        checkVelocity c (Gen.linear g).maxVelocity = .ok ()) ∧
      ((∃ ax, c.maxVel.get ax + 1 / 10 ^ 8 < v * |delta.get ax| / norm4 delta) →
        checkVelocity c (Gen.linear g).maxVelocity =
          .error (.gmachine "out of maximum speed")) := by
  obtain ⟨g, w, q, h1, hi, _, _, _, h⟩ := linear_new hc hm
  have hw := hi.manual ha
  rw [norm_abs hm] at hw
  have hwax : ∀ ax, w.get ax = PyNum.round10 (v / 60 * |delta.get ax| / norm4 delta) := by
    intro ax
    rw [hw, get_smul, abs_get hm]
    congr 1
    ring
  have hnear : ∀ ax, |w.get ax - v / 60 * |delta.get ax| / norm4 delta| ≤ 1 / 2 / E10 := by
    intro ax; rw [hwax]; exact round10_near _
  have e1 : (1 : ℝ) / 2 / E10 ≤ 1 / 10 ^ 10 := by rw [e10_val]; norm_num
  have hg : LongMove c delta w g := by
    rcases h with h | h
    · exact h
    · exfalso
      obtain ⟨f, hf⟩ := findMax_mem w
      have h2 := h.cond
      rw [hf, norm_abs hm] at h2
      have h3 := hlong f
      have h4 := (abs_le.1 (hnear f)).2
      have h5 : w.get f ^ 2 ≤ (v / 60 * |delta.get f| / norm4 delta + 1 / 10 ^ 10) ^ 2 :=
        pow_le_pow_left₀ (hi.nonneg f) (by linarith) 2
      linarith
  refine ⟨g, h1, fun ax => ?_, fun hle => ?_, fun ⟨ax, hax⟩ => ?_⟩
  · rw [hg.maxV]; exact (hnear ax).trans e1
  · refine checkVelocity_of_le hd fun ax => ?_
    rw [hg.maxV, hwax]
    refine round10_le_grid (limit_grid hd ax) ?_
    have := hle ax
    have e2 : v / 60 * |delta.get ax| / norm4 delta = v * |delta.get ax| / norm4 delta / 60 := by
      ring
    linarith
  · rcases hv : checkVelocity c (Gen.linear g).maxVelocity with e | _
    · unfold checkVelocity at hv
      split at hv
      · cases hv; rfl
      · cases hv
    · exfalso
      have h2 := checkVelocity_ok_iff.1 hv ax
      unfold Gen.maxVelocity at h2
      rw [get_smul, secInMin_eq] at h2
      change PyNum.round10 (g.maxV.get ax * 60) ≤ _ at h2
      rw [hg.maxV] at h2
      have h3 := (abs_le.1 (round10_near (w.get ax * 60))).1
      have h4 := (abs_le.1 (hnear ax)).1
      have e2 : v / 60 * |delta.get ax| / norm4 delta = v * |delta.get ax| / norm4 delta / 60 := by
        ring
      have e3 : (1 : ℝ) / 2 / E10 ≤ 1 / 10 ^ 10 := e1
      generalize (1 : ℝ) / 2 / E10 = eps at h3 h4 e3
      norm_num at e3 hax
      linarith

end PyCNC
