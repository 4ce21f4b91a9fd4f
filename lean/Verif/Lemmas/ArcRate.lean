import Verif.Lemmas.ArcFollow
import Verif.Lemmas.ArcMachine

/-!
# The speed of circular moves in a plane
-/

set_option linter.unusedSectionVars false

namespace PyCNC

open Spec Real

variable [PyRound]

/-- The timing of an arc that moves the two axes of its plane only: `V` is the speed along the
circle, `ρ` its radius. -/
structure FlatArc (c : Cfg) (plane : Plane) (radius : V4 ℝ) (v : ℝ) (g : CircGen ℝ) (V ρ : ℝ) : Prop where
  V0 : 0 < V
  ρ0 : 0 < ρ
  T0 : 0 < g.deltaAngle
  a0 : (0 : ℝ) < c.accel
  rdv : g.rDivV = ρ / V
  ppmA : ρ * c.ppm.get (axisA plane) =
    PyRound.rnd (startDist plane radius * c.ppm.get (axisA plane))
  ppmB : ρ * c.ppm.get (axisB plane) =
    PyRound.rnd (startDist plane radius * c.ppm.get (axisB plane))
  accT0 : 0 < g.accT
  kA : (Gen.circular g).twoVmaxPerA c = 2 * g.accT
  shape : (V ^ 2 / c.accel ≤ g.deltaAngle * ρ ∧ g.accT = V / c.accel ∧
      g.linT = g.deltaAngle * ρ / V - V / c.accel) ∨
    (g.deltaAngle * ρ < V ^ 2 / c.accel ∧ g.accT = √(g.deltaAngle * ρ / c.accel) ∧ g.linT = 0)
  feed : V ≤ v / 60 + 1 / 10 ^ 10
  limit : c.autoVel = true → DecimalLimits c →
    V ≤ (c.maxVel.get (axisA plane) : ℝ) / 60 ∧ V ≤ (c.maxVel.get (axisB plane) : ℝ) / 60
  slow : DecimalLimits c → v ≤ c.maxVel.get (axisA plane) → v ≤ c.maxVel.get (axisB plane) →
    V = PyNum.round10 (v / 60)
  top : |V - v / 60| ≤ 1 / 10 ^ 10 ∨ (c.autoVel = true ∧
    ((c.maxVel.get (axisA plane) : ℝ) / 60 - 1 / 10 ^ 10 ≤ V ∨
     (c.maxVel.get (axisB plane) : ℝ) / 60 - 1 / 10 ^ 10 ≤ V))

section

variable {c : Cfg} {delta radius : V4 ℝ} {plane : Plane} {rot : Rot} {v : ℝ} {g : CircGen ℝ}

/-- The speeds of an arc in a plane. -/
theorem flat_vel (hc : SaneCfg c) (h : SizedArc c delta radius plane v) {φs φe : ℝ} {maxV : V4 ℝ}
    (hs : angle (arcSA plane radius) (arcSB plane radius) = .ok φs)
    (he : angle (arcEA plane delta radius) (arcEB plane delta radius) = .ok φe)
    (hadj : adjustVelocity c (arcVel c delta radius plane rot v φs φe) = .ok maxV)
    (z3 : delta.get (axis3 plane) = 0) (zE : delta.e = 0) :
    ∃ V, 0 < V ∧ maxV.get (axisA plane) = V ∧ maxV.get (axisB plane) = V ∧
      maxV.get (axis3 plane) = 0 ∧ maxV.e = 0 ∧ V ≤ v / 60 + 1 / 10 ^ 10 ∧
      (c.autoVel = true → DecimalLimits c →
        V ≤ (c.maxVel.get (axisA plane) : ℝ) / 60 ∧ V ≤ (c.maxVel.get (axisB plane) : ℝ) / 60) ∧
      (DecimalLimits c → v ≤ c.maxVel.get (axisA plane) → v ≤ c.maxVel.get (axisB plane) →
        V = PyNum.round10 (v / 60)) ∧
      (|V - v / 60| ≤ 1 / 10 ^ 10 ∨ (c.autoVel = true ∧
        ((c.maxVel.get (axisA plane) : ℝ) / 60 - 1 / 10 ^ 10 ≤ V ∨
         (c.maxVel.get (axisB plane) : ℝ) / 60 - 1 / 10 ^ 10 ≤ V))) := by
  obtain ⟨l1, l2, l3, l4, l5, l6, l7, l8⟩ := lengths hc h (rot := rot) hs he
  obtain ⟨maxV', hadj', -, hA, -, -⟩ := arc_vel hc h (rot := rot) hs he
  obtain rfl : maxV = maxV' := Except.ok.inj (hadj.symm.trans hadj')
  have hv := h.feed
  have hM : ∀ ax, 0 < c.maxVel.get ax := fun ax => lt_of_lt_of_le (by norm_num) (hc.maxVel ax)
  have hw0 := arcVel_nonneg (c := c) (delta := delta) (radius := radius) (plane := plane) (v := v)
    (rot := rot) (φs := φs) (φe := φe) (by linarith) l1.le
  have hwg := arcVel_get (c := c) (delta := delta) (radius := radius) (plane := plane) (v := v)
    (rot := rot) (φs := φs) (φe := φe) l2.ne'
  have hfa : arcFull c delta radius plane rot φs φe = arcArc c radius plane rot φs φe := by
    unfold arcFull
    rw [planeAxes_eq]
    simp only [sqrt_eq, add_eq, mul_eq, z3, zE, mul_zero, add_zero]
    exact Real.sqrt_mul_self l1.le
  have hwA : (arcVel c delta radius plane rot v φs φe).get (axisA plane) = PyNum.round10 (v / 60) := by
    rw [hwg, arcShare, if_pos (.inl rfl), hfa, div_self l1.ne', one_mul]
  have hwB : (arcVel c delta radius plane rot v φs φe).get (axisB plane) = PyNum.round10 (v / 60) := by
    rw [hwg, arcShare, if_pos (.inr rfl), hfa, div_self l1.ne', one_mul]
  have hw3 : (arcVel c delta radius plane rot v φs φe).get (axis3 plane) = 0 := by
    rw [hwg, arcShare, if_neg (by have := axis3_ne_a plane; have := axis3_ne_b plane; tauto), z3,
      abs_zero, zero_div, zero_mul, round10_zero]
  have hwE : (arcVel c delta radius plane rot v φs φe).get .e = 0 := by
    rw [hwg, arcShare, if_neg (by have := axisE_ne_a plane; have := axisE_ne_b plane; tauto),
      show delta.get .e = delta.e from rfl, zE, abs_zero, zero_div, zero_mul, round10_zero]
  have hE : (1 : ℝ) / 2 / E10 = 1 / 2 / 10 ^ 10 := rfl
  have n1 := (abs_le.1 (round10_near (v / 60))).2
  rw [hE] at n1
  by_cases ha : c.autoVel = true
  · obtain ⟨κ, k1, k2, k3, k4, k5⟩ := adjustVelocity_ok hM hw0 ha
    obtain rfl : _ = maxV := Except.ok.inj (k1.symm.trans hadj)
    refine ⟨_, hA, rfl, ?_, ?_, ?_, ?_, fun _ hd => ?_, fun hd sA sB => ?_, ?_⟩
    · rw [get_smul, get_smul, hwA, hwB]
    · rw [get_smul, hw3, zero_mul, round10_zero]
    · change (Coord.smul _ κ).get .e = 0
      rw [get_smul, hwE, zero_mul, round10_zero]
    · rw [get_smul]
      have n2 := (abs_le.1 (round10_near
        ((arcVel c delta radius plane rot v φs φe).get (axisA plane) * κ))).2
      rw [hE] at n2
      have h3 : (arcVel c delta radius plane rot v φs φe).get (axisA plane) * κ ≤
          (arcVel c delta radius plane rot v φs φe).get (axisA plane) * 1 := by
        have := hw0 (axisA plane)
        gcongr
      rw [hwA] at h3 n2 ⊢
      generalize PyNum.round10 (PyNum.round10 (v / 60) * κ) = y at n2 ⊢
      generalize PyNum.round10 (v / 60) = z at n1 n2 h3
      norm_num at n1 n2 ⊢
      linarith
    · have hl : ∀ ax, (Coord.smul (arcVel c delta radius plane rot v φs φe) κ).get ax ≤
          (c.maxVel.get ax : ℝ) / 60 := fun ax => by
        rw [get_smul]
        refine round10_le_grid (limit_grid hd ax) ?_
        have := k4 ax
        linarith
      refine ⟨hl _, ?_⟩
      have := hl (axisB plane)
      rwa [get_smul, hwB, ← hwA, ← get_smul] at this
    · rw [get_smul, hwA]
      have hr : ∀ ax, v ≤ c.maxVel.get ax →
          PyNum.round10 (v / 60) * 60 ≤ (c.maxVel.get ax : ℝ) := fun ax hx => by
        have := round10_le_grid (limit_grid hd ax) (show v / 60 ≤ (c.maxVel.get ax : ℝ) / 60 by linarith)
        linarith
      have hk : κ = 1 := by
        rcases k5 with k5 | ⟨ax, k5, -⟩
        · exact k5
        · exfalso
          have hp : (0 : ℝ) < c.maxVel.get ax := by exact_mod_cast hM ax
          rcases axis_cases plane ax with rfl | rfl | rfl | rfl
          · rw [hwA] at k5; exact absurd (hr _ sA) (not_le.2 k5)
          · rw [hwB] at k5; exact absurd (hr _ sB) (not_le.2 k5)
          · rw [hw3] at k5; linarith
          · rw [hwE] at k5; linarith
      rw [hk, mul_one, round10_grid (grid_round10 _)]
    · rw [get_smul, hwA]
      have n2 := round10_near (PyNum.round10 (v / 60) * κ)
      have n3 := round10_near (v / 60)
      rw [hE] at n2 n3
      rcases k5 with rfl | ⟨ax, k5, k6⟩
      · left
        rw [mul_one, round10_grid (grid_round10 _)]
        exact n3.trans (by norm_num)
      · right
        refine ⟨ha, ?_⟩
        have hp : (0 : ℝ) < c.maxVel.get ax := by exact_mod_cast hM ax
        have key : (arcVel c delta radius plane rot v φs φe).get ax = PyNum.round10 (v / 60) →
            (c.maxVel.get ax : ℝ) / 60 - 1 / 10 ^ 10 ≤ PyNum.round10 (PyNum.round10 (v / 60) * κ) := by
          intro e
          rw [e] at k5 k6
          have hz : PyNum.round10 (v / 60) ≠ 0 := fun hz => by rw [hz] at k5; linarith
          have e2 : PyNum.round10 (v / 60) * κ = c.maxVel.get ax / 60 := by rw [k6]; field_simp
          rw [e2] at n2 ⊢
          have := (abs_le.1 n2).1
          norm_num at this ⊢
          linarith
        rcases axis_cases plane ax with rfl | rfl | rfl | rfl
        · exact .inl (key hwA)
        · exact .inr (key hwB)
        · rw [hw3] at k5; linarith
        · rw [hwE] at k5; linarith
  · have hm : maxV = arcVel c delta radius plane rot v φs φe := by
      unfold adjustVelocity at hadj
      rw [if_pos (by simpa using ha)] at hadj
      exact (Except.ok.inj hadj).symm
    rw [hm] at hA ⊢
    refine ⟨_, hA, rfl, by rw [hwA, hwB], hw3, hwE, ?_, fun h => absurd h ha, fun _ _ _ => hwA, ?_⟩
    · rw [hwA]
      norm_num at n1 ⊢
      linarith
    · rw [hwA]
      have n3 := round10_near (v / 60)
      rw [hE] at n3
      exact .inl (n3.trans (by norm_num))

theorem flat_arc (hc : SaneCfg c) (h : OrdinaryArc c delta radius plane v)
    (hg : CircGen.new c delta radius plane rot v = .ok g) (z3 : delta.get (axis3 plane) = 0)
    (zE : delta.e = 0) : ∃ V ρ, FlatArc c plane radius v g V ρ := by
  have hsz := ordinary_sized hc h
  obtain ⟨φs, φe, hf⟩ := new_facts hg
  obtain ⟨R, RB, A, B, EA, EB, hi, -, -, -, -, p1, -, -, r1, r2, q1, q2⟩ := arc_ints h.grid hf
  clear hf hi
  obtain ⟨he, φs, φe, maxV, q, h1, h2, h3, h4, h5⟩ := new_ok hg
  obtain ⟨V, V0, vA, vB, v3, vE, hfeed, hlim, hslow, htop⟩ := flat_vel hc hsz h1 h2 h3 z3 zE
  obtain ⟨l1, l2, -, -, -, -, -, -⟩ := lengths hc hsz (rot := rot) h1 h2
  have hacc : (0 : ℝ) < c.accel := by
    have : (1 : ℝ) ≤ c.accel := by exact_mod_cast hc.accel
    linarith
  have hpA : (0 : ℝ) < c.ppm.get (axisA plane) := by exact_mod_cast h.grid.posA
  set ρ := arcRad (arcMpm c plane) plane radius with hρ
  have hρ0 : 0 < ρ := by
    have : (0 : ℝ) < R := by exact_mod_cast p1
    rw [← q1] at this
    exact pos_of_mul_pos_left this hpA.le
  have harc : arcArc c radius plane rot φs φe = |arcTurn rot φs φe| * ρ := by simp [arcArc, hρ]
  have hfa : arcFull c delta radius plane rot φs φe = |arcTurn rot φs φe| * ρ := by
    rw [← harc]
    unfold arcFull
    rw [planeAxes_eq]
    simp only [sqrt_eq, add_eq, mul_eq, z3, zE, mul_zero, add_zero]
    exact Real.sqrt_mul_self l1.le
  have hT0 : 0 < |arcTurn rot φs φe| := by
    rw [harc] at l1
    exact pos_of_mul_pos_left l1 hρ0.le
  have hmax : Coord.findMax maxV = V := by
    obtain ⟨f, hf⟩ := findMax_mem maxV
    have hle := le_findMax maxV (axisA plane)
    rw [vA] at hle
    rw [hf] at hle ⊢
    rcases axis_cases plane f with rfl | rfl | rfl | rfl
    · exact vA
    · exact vB
    · rw [v3] at hle; linarith
    · rw [show maxV.get .e = maxV.e from rfl, vE] at hle; linarith
  have hcirc : arcCirc plane maxV = V := by
    unfold arcCirc
    rw [planeAxes_eq, pmin_eq]
    simp only [vA, vB, min_self]
  rw [hcirc] at h4
  have hq : q = ρ / V := by
    unfold pdiv at h4
    rw [if_neg (by simpa using V0.ne')] at h4
    exact (Except.ok.inj h4).symm
  subst hq
  unfold arcTimes at h5
  simp only at h5
  rw [hmax, hcirc, hfa] at h5
  have hrest : (planeAxes plane maxV).2.2 = 0 := by rw [planeAxes_eq]; exact v3
  have hL0 : 0 < |arcTurn rot φs φe| * ρ := mul_pos hT0 hρ0
  rw [if_neg (by simpa using ⟨abs_pos.1 hT0, hρ0.ne'⟩)] at h5
  have hVa : (c.accel : ℝ) * (V / c.accel * (V / c.accel)) = V ^ 2 / c.accel := by field_simp
  split at h5
  · next hlt =>
    have hlt : |arcTurn rot φs φe| * ρ < V ^ 2 / c.accel := by
      rw [← hVa]; simpa using hlt
    have hs0 : 0 < √(|arcTurn rot φs φe| * ρ / c.accel) := Real.sqrt_pos.2 (by positivity)
    unfold pdiv at h5
    rw [if_neg (by simpa using hs0.ne')] at h5
    have h5 := (Except.ok.inj h5).symm
    set W := |arcTurn rot φs φe| * ρ / √(|arcTurn rot φs φe| * ρ / c.accel) with hW
    have hW0 : 0 < W := div_pos hL0 hs0
    have hWa : W = c.accel * √(|arcTurn rot φs φe| * ρ / c.accel) := by
      rw [hW, div_eq_iff hs0.ne', mul_assoc, Real.mul_self_sqrt (by positivity)]
      field_simp
    have hfm : Coord.findMax (maxV.map fun w => if zeroF <ₚ w then W else w) = W := by
      obtain ⟨f, hf⟩ := findMax_mem (maxV.map fun w => if zeroF <ₚ w then W else w)
      have hle := le_findMax (maxV.map fun w => if zeroF <ₚ w then W else w) (axisA plane)
      rw [get_map, vA, if_pos (by simpa using V0)] at hle
      rw [hf, get_map] at hle ⊢
      split at hle
      · next hp => rw [if_pos hp]
      · next hp =>
        exfalso
        rcases axis_cases plane f with rfl | rfl | rfl | rfl
        · rw [vA] at hp; exact hp (by simpa using V0)
        · rw [vB] at hp; exact hp (by simpa using V0)
        · rw [v3] at hle; linarith
        · rw [show maxV.get .e = maxV.e from rfl, vE] at hle; linarith
    refine ⟨V, ρ, ?_⟩
    rw [h5]
    refine ⟨V0, hρ0, hT0, hacc, rfl, by rw [r1]; exact q1, by rw [r2]; exact q2, ?_, ?_, .inr ⟨?_, ?_, ?_⟩, hfeed, hlim, hslow, htop⟩
    · simpa [arcMk] using hs0
    · simp only [Gen.twoVmaxPerA, Gen.maxVSec, arcMk]
      erw [hfm]
      simp only [ofRat_eq, mul_eq, div_eq, sqrt_eq]
      rw [hWa]
      push_cast
      field_simp
    · simpa [arcMk] using hlt
    · simp [arcMk]
    · simp [arcMk]
  · next hlt =>
    have hlt : V ^ 2 / c.accel ≤ |arcTurn rot φs φe| * ρ := by
      rw [← hVa]; simpa using hlt
    have hsq : PyNum.sqrt (V *ₚ V +ₚ (planeAxes plane maxV).2.2 *ₚ (planeAxes plane maxV).2.2 +ₚ
        maxV.e *ₚ maxV.e) = V := by
      rw [hrest, vE]
      simp only [sqrt_eq, add_eq, mul_eq, mul_zero, add_zero]
      exact Real.sqrt_mul_self V0.le
    rw [hsq] at h5
    unfold pdiv at h5
    rw [if_neg (by simpa using V0.ne')] at h5
    have h5 := (Except.ok.inj h5).symm
    refine ⟨V, ρ, ?_⟩
    rw [h5]
    refine ⟨V0, hρ0, hT0, hacc, rfl, by rw [r1]; exact q1, by rw [r2]; exact q2, ?_, ?_, .inl ⟨?_, ?_, ?_⟩, hfeed, hlim, hslow, htop⟩
    · simp only [arcMk, div_eq, ofRat_eq]; positivity
    · simp only [Gen.twoVmaxPerA, Gen.maxVSec, arcMk]
      erw [hmax]
      simp only [ofRat_eq, mul_eq, div_eq]
      push_cast
      ring
    · simpa [arcMk] using hlt
    · simp [arcMk]
    · simp only [arcMk, div_eq, ofRat_eq, sub_eq, mul_eq, abs_eq]
      field_simp

/-- The arc fits into the time computed for it. -/
theorem FlatArc.fits {V ρ : ℝ} (h : FlatArc c plane radius v g V ρ) :
    g.rDivV * g.deltaAngle ≤ g.accT + g.linT := by
  have hV := h.V0
  have ha := h.a0
  have e : g.rDivV * g.deltaAngle = g.deltaAngle * ρ / V := by rw [h.rdv]; ring
  rw [e]
  rcases h.shape with ⟨-, h2, h3⟩ | ⟨h1, h2, h3⟩
  · rw [h2, h3]; linarith
  · rw [h2, h3, add_zero]
    have hL : 0 < g.deltaAngle * ρ := mul_pos h.T0 h.ρ0
    rw [div_le_iff₀ hV]
    have hs := Real.mul_self_sqrt (show 0 ≤ g.deltaAngle * ρ / c.accel by positivity)
    set s := √(g.deltaAngle * ρ / c.accel)
    have hs0 : 0 < s := Real.sqrt_pos.2 (by positivity)
    have e2 : g.deltaAngle * ρ = s * s * c.accel := by rw [hs]; field_simp
    rw [e2] at h1 ⊢
    rw [lt_div_iff₀ ha] at h1
    have : s * c.accel ≤ V := by
      by_contra hlt
      push Not at hlt
      nlinarith
    nlinarith

/-- The pulses are never closer than their uniform times. -/
theorem FlatArc.gap {V ρ : ℝ} (h : FlatArc c plane radius v g V ρ) {p q : ℝ} (hl : 0 ≤ g.linT) (hp : 0 ≤ p)
    (hpq : p ≤ q) (hq : q ≤ g.deltaAngle) :
    ρ * (q - p) / V ≤ (Gen.circular g).sendTime c (g.rDivV * q) -
      (Gen.circular g).sendTime c (g.rDivV * p) := by
  have hA := h.accT0
  have hr : 0 ≤ g.rDivV := by rw [h.rdv]; have := h.ρ0; have := h.V0; positivity
  have e1 : 2 * (g.accT * g.accT / (2 * g.accT)) = g.accT := by field_simp
  have key := warp_gap (k := 2 * g.accT) (A := g.accT) (B := g.linT) (p := g.rDivV * p)
    (q := g.rDivV * q) (by linarith) hA.le hl (.inl rfl) (mul_nonneg hr hp)
    (mul_le_mul_of_nonneg_left hpq hr)
    (by rw [e1]; exact (mul_le_mul_of_nonneg_left hq hr).trans h.fits)
  rw [div_self (by positivity), one_mul, ← mul_sub, h.rdv] at key
  unfold Gen.sendTime
  rw [h.kA]
  change _ ≤ warp _ g.accT g.linT _ - warp _ g.accT g.linT _
  rw [h.rdv]
  calc ρ * (q - p) / V = ρ / V * (q - p) := by ring
    _ ≤ _ := key

end

/-- Successive pulses of an axis are at least one step of the circle apart; the last two half a
step. -/
theorem Track.turn_gap {R u : ℤ} {ψ T : ℝ} {m i : ℕ} (h : Track R u ψ T m) (hi : i + 1 < m) :
    (i + 2 < m → 1 ≤ R * (turnAt R u ψ T m (i + 1) - turnAt R u ψ T m i)) ∧
    1 / 2 ≤ R * (turnAt R u ψ T m (i + 1) - turnAt R u ψ T m i) ∧
    (R * sin (Psi R (u + m)) = R * sin (ψ + T) →
      1 ≤ R * (turnAt R u ψ T m (i + 1) - turnAt R u ψ T m i)) := by
  have hR := h.R'
  have lip : ∀ x y : ℝ, x ≤ y → |R * sin y - R * sin x| ≤ R * (y - x) := fun x y hxy => by
    rw [← mul_sub, abs_mul, abs_of_pos hR]
    have := Real.abs_sin_sub_sin_le y x
    rw [abs_of_nonneg (by linarith : (0 : ℝ) ≤ y - x)] at this
    gcongr
  have hu := (unit_step h.hR (u + (i + 1 : ℕ))).1
  push_cast at hu
  have e0 : turnAt R u ψ T m i = Psi R (u + (i + 1)) - ψ := by
    unfold turnAt; rw [if_neg (by omega)]; push_cast; rfl
  have hlt := h.turn_lt (Nat.lt_succ_self i) hi
  by_cases hl : i + 2 < m
  · have e1 : turnAt R u ψ T m (i + 1) = Psi R (u + (i + 1) + 1) - ψ := by
      unfold turnAt; rw [if_neg (by omega)]; push_cast; congr 2; ring
    rw [Nat.succ_eq_add_one] at hlt
    rw [e0, e1] at hlt ⊢
    have := lip (Psi R (u + (i + 1))) (Psi R (u + (i + 1) + 1)) (by linarith)
    rw [hu] at this
    have e : Psi R (u + (i + 1) + 1) - ψ - (Psi R (u + (i + 1)) - ψ) =
      Psi R (u + (i + 1) + 1) - Psi R (u + (i + 1)) := by ring
    rw [e]
    exact ⟨fun _ => this, by linarith, fun _ => this⟩
  · have hm : m = i + 2 := by omega
    have e1 : turnAt R u ψ T m (i + 1) = T := by unfold turnAt; rw [if_pos (by omega)]
    rw [Nat.succ_eq_add_one] at hlt
    rw [e0, e1] at hlt ⊢
    have h1 := lip (Psi R (u + (i + 1))) (ψ + T) (by linarith)
    have h2 := h.near
    have e2 : (u : ℝ) + m = u + (i + 1) + 1 := by rw [hm]; push_cast; ring
    rw [e2] at h2 ⊢
    have e : T - (Psi R (u + (i + 1)) - ψ) = ψ + T - Psi R (u + (i + 1)) := by ring
    rw [e]
    refine ⟨fun h => absurd h hl, ?_, fun hx => ?_⟩
    · have h3 := abs_sub_abs_le_abs_sub (R * sin (Psi R (u + (i + 1) + 1)) - R * sin (Psi R (u + (i + 1))))
        (R * sin (Psi R (u + (i + 1) + 1)) - R * sin (ψ + T))
      rw [sub_sub_sub_cancel_left, hu] at h3
      linarith
    · rw [hx] at hu
      linarith

/-! ## The ends of the tracks -/

section

variable {c : Cfg} {delta radius : V4 ℝ} {plane : Plane} {rot : Rot} {v : ℝ} {g : CircGen ℝ}
  {R RB A B uA uB : ℤ} {φ : ℝ}

/-- When the end is exactly on the circle of the steps, so is the last point of the track. -/
theorem ArcTracks.end_exact (ht : ArcTracks c delta radius plane rot g R RB A B uA uB φ)
    (h : GridArc c delta radius plane) (hs0 : startDist plane radius ≠ 0)
    (hg : CircGen.new c delta radius plane rot v = .ok g)
    (hnb : ¬ BackInQuarter plane delta radius) {evs : List (Event ℝ)}
    (he : Emits c (.circular g) evs) :
    ((∃ k : ℤ, endDist plane delta radius * c.ppm.get (axisA plane) = k) →
      R * sin (Psi R ((rotSign rot * uA : ℤ) + g.itA.toNat)) =
        R * sin (rotSign rot * φ + g.deltaAngle)) ∧
    ((∃ k : ℤ, endDist plane delta radius * c.ppm.get (axisB plane) = k) →
      RB * sin (Psi RB ((rotSign rot * uB : ℤ) + g.itB.toNat)) =
        RB * sin (rotSign rot * (φ + π / 2) + g.deltaAngle)) := by
  obtain ⟨nA, nB⟩ := arc_net h hg he
  rw [if_neg hnb] at nA nB
  obtain ⟨N, hN⟩ := he
  have hN := hN N le_rfl
  obtain ⟨φs, φe, hf⟩ := new_facts hg
  obtain ⟨eA, eB⟩ := end_near h hf.endOk ht.rA ht.rB
  obtain ⟨-, -, w1, w2⟩ := ht.sweep
  have hsum : endA plane delta radius = endDist plane delta radius *
      sin (φ + rotSign rot * g.deltaAngle) ∧ endB plane delta radius = endDist plane delta radius *
      cos (φ + rotSign rot * g.deltaAngle) := by
    rw [ht.aφ, ht.bφ] at w1 w2
    rw [sin_add, cos_add]
    cases rot
    · simp only [rotSign, Int.cast_one, one_mul] at w1 w2 ⊢
      exact ⟨mul_right_cancel₀ hs0 (by linear_combination w1),
        mul_right_cancel₀ hs0 (by linear_combination w2)⟩
    · simp only [rotSign, Int.cast_neg, Int.cast_one, neg_mul, one_mul, sin_neg, cos_neg] at w1 w2 ⊢
      exact ⟨mul_right_cancel₀ hs0 (by linear_combination w1),
        mul_right_cancel₀ hs0 (by linear_combination w2)⟩
  have int_eq : ∀ {x : ℝ} {n : ℤ}, |x - n| ≤ 1 / 2 → (∃ k : ℤ, x = k) → x = n := by
    rintro x n hx ⟨k, rfl⟩
    have h1 : |((k - n : ℤ) : ℝ)| < 1 := by push_cast; linarith
    rw [← Int.cast_abs] at h1
    have h2 : |k - n| < 1 := by exact_mod_cast h1
    have : k = n := by have := Int.abs_lt_one_iff.1 h2; omega
    rw [this]
  have sgn : ∀ x : ℝ, sin (rotSign rot * x) = rotSign rot * sin x := fun x => by
    cases rot <;> simp [rotSign]
  have s2 : (rotSign rot : ℝ) * rotSign rot = 1 := by cases rot <;> simp [rotSign]
  constructor
  · intro hk
    have hR := int_eq eA hk
    obtain ⟨k, -, -, hd, hp⟩ := ht.posA c N
    rw [hN] at hd hp
    rw [hd rfl, nA, ← ht.sA] at hp
    have e : startA plane radius * c.ppm.get (axisA plane) +
        delta.get (axisA plane) * c.ppm.get (axisA plane) =
        endA plane delta radius * c.ppm.get (axisA plane) := by unfold endA startA; ring
    rw [e, hsum.1] at hp
    have e2 : (rotSign rot : ℝ) * φ + g.deltaAngle = rotSign rot * (φ + rotSign rot * g.deltaAngle) := by
      linear_combination (-g.deltaAngle) * s2
    push_cast
    rw [psi_signed ht.ta.R', sgn, e2, sgn, mul_left_comm, ← hp, ← hR]
    ring
  · intro hk
    have hR := int_eq eB hk
    obtain ⟨k, -, -, hd, hp⟩ := ht.posB c N
    rw [hN] at hd hp
    rw [hd rfl, nB, ← ht.sB] at hp
    have e : startB plane radius * c.ppm.get (axisB plane) +
        delta.get (axisB plane) * c.ppm.get (axisB plane) =
        endB plane delta radius * c.ppm.get (axisB plane) := by unfold endB startB; ring
    rw [e, hsum.2] at hp
    have e2 : (rotSign rot : ℝ) * (φ + π / 2) + g.deltaAngle =
        rotSign rot * (φ + rotSign rot * g.deltaAngle + π / 2) := by
      linear_combination (-g.deltaAngle) * s2
    push_cast
    rw [psi_signed ht.tb.R', sgn, e2, sgn, sin_add_pi_div_two, mul_left_comm, ← hp, ← hR]
    ring

/-- The times of an arc. -/
theorem ArcTracks.times (ht : ArcTracks c delta radius plane rot g R RB A B uA uB φ)
    (hb : CircBase c g) (hl : 0 ≤ g.linT) {evs : List (Event ℝ)} (he : Emits c (.circular g) evs)
    (ax : Axis) : steps ax evs = g.totals ax ∧ stepTimes ax evs = (List.range (g.totals ax)).map
      fun i => (Gen.circular g).sendTime c (arcPt c rot g R RB uA uB φ ax i) := by
  obtain ⟨N, hN⟩ := he
  have h1 := (timed_init (arc_timed ht hb hl) N).1 ax
  have h2 := (circ_steps c g N ax).2
  rw [hN N le_rfl] at h1 h2
  rw [h2 rfl] at h1
  exact ⟨h2 rfl, h1⟩

end

end PyCNC
