import Verif.Lemmas.ArcRate

/-!
# Arcs that also move the third axis or the extruder

All axes follow one uniform time: their speeds are in proportion to their distances, up to ten decimal
digits.
-/

set_option linter.unusedSectionVars false

namespace PyCNC

open Spec Real PyNum

variable [PyRound]

/-- The speeds of an arc: `L` is the length of the way, `s` the speed on it, `V` the one along the
circle, `ρ` the radius in the computation. -/
structure Helix (c : Cfg) (delta radius : V4 ℝ) (plane : Plane) (g : CircGen ℝ) (V ρ L s : ℝ) : Prop where
  V0 : 0 < V
  ρ0 : 0 < ρ
  T0 : 0 < g.deltaAngle
  L0 : 0 < L
  L_le : L ≤ 15000
  s_ge : 1 / 60 ≤ s
  rdv : g.rDivV = ρ / V
  near : startDist plane radius ≤ 3 / 2 * ρ
  arc : |V - g.deltaAngle * ρ / L * s| ≤ 1 / 10 ^ 10
  vel3 : |g.vel3 - |delta.get (axis3 plane)| / L * s| ≤ 1 / 10 ^ 10
  velE : |g.velE - |delta.e| / L * s| ≤ 1 / 10 ^ 10
  lowArc : 1 / 15000000 ≤ g.deltaAngle * ρ / L
  low3 : delta.get (axis3 plane) ≠ 0 → 1 / 15000000 ≤ |delta.get (axis3 plane)| / L
  lowE : delta.e ≠ 0 → 1 / 15000000 ≤ |delta.e| / L

/-- The times of an arc: `M` is the largest of its speeds, `L` the length of the way, `s` the speed on
it before the rounding to ten digits. -/
structure HelixTimes (c : Cfg) (delta radius : V4 ℝ) (plane : Plane) (v : ℝ) (g : CircGen ℝ) (V ρ L s M : ℝ) :
    Prop where
  a0 : (0 : ℝ) < c.accel
  len : L = √((g.deltaAngle * ρ) ^ 2 + delta.get (axis3 plane) ^ 2 + delta.e ^ 2)
  v3_nonneg : 0 ≤ g.vel3
  vE_nonneg : 0 ≤ g.velE
  V_le : V ≤ M
  v3_le : g.vel3 ≤ M
  vE_le : g.velE ≤ M
  mem : M = V ∨ M = g.vel3 ∨ M = g.velE
  kA : (Gen.circular g).twoVmaxPerA c = 2 * g.accT
  shape : (M ^ 2 / c.accel ≤ L ∧ g.accT = M / c.accel ∧
      g.linT = (L - M ^ 2 / c.accel) / √(V ^ 2 + g.vel3 ^ 2 + g.velE ^ 2)) ∨
    (L < M ^ 2 / c.accel ∧ g.accT = √(L / c.accel) ∧ g.linT = 0)
  radA : ρ * c.ppm.get (axisA plane) =
    PyRound.rnd (startDist plane radius * c.ppm.get (axisA plane))
  radB : ρ * c.ppm.get (axisB plane) =
    PyRound.rnd (startDist plane radius * c.ppm.get (axisB plane))
  feed : s ≤ v / 60
  limit : c.autoVel = true → DecimalLimits c → V ≤ (c.maxVel.get (axisA plane) : ℝ) / 60 ∧
    V ≤ (c.maxVel.get (axisB plane) : ℝ) / 60 ∧ g.vel3 ≤ (c.maxVel.get (axis3 plane) : ℝ) / 60 ∧
    g.velE ≤ (c.maxVel.e : ℝ) / 60
  top : s = v / 60 ∨ (c.autoVel = true ∧
    ((c.maxVel.get (axisA plane) : ℝ) / 60 - 1 / 10 ^ 10 ≤ V ∨
     (c.maxVel.get (axisB plane) : ℝ) / 60 - 1 / 10 ^ 10 ≤ V ∨
     (c.maxVel.get (axis3 plane) : ℝ) / 60 - 1 / 10 ^ 10 ≤ g.vel3 ∨
     (c.maxVel.e : ℝ) / 60 - 1 / 10 ^ 10 ≤ g.velE))

section

variable {c : Cfg} {delta radius : V4 ℝ} {plane : Plane} {rot : Rot} {v : ℝ} {g : CircGen ℝ}

/-- The speeds after the adjustment are those of one speed on the way, up to ten digits. -/
theorem helix_vel (hc : SaneCfg c) (h : SizedArc c delta radius plane v) {φs φe : ℝ} {maxV : V4 ℝ}
    (hs : angle (arcSA plane radius) (arcSB plane radius) = .ok φs)
    (he : angle (arcEA plane delta radius) (arcEB plane delta radius) = .ok φe)
    (hadj : adjustVelocity c (arcVel c delta radius plane rot v φs φe) = .ok maxV) :
    ∃ s, 1 / 60 ≤ s ∧ maxV.get (axisA plane) = maxV.get (axisB plane) ∧
      (∀ ax, |maxV.get ax - arcShare c delta radius plane rot φs φe ax * s| ≤ 1 / 10 ^ 10) ∧
      (∀ ax, 0 ≤ maxV.get ax) ∧ s ≤ v / 60 ∧
      (c.autoVel = true → DecimalLimits c → ∀ ax, maxV.get ax ≤ (c.maxVel.get ax : ℝ) / 60) ∧
      (s = v / 60 ∨ (c.autoVel = true ∧
        ∃ ax, (c.maxVel.get ax : ℝ) / 60 - 1 / 10 ^ 10 ≤ maxV.get ax)) := by
  obtain ⟨l1, l2, -, -, -, l6, l7, l8⟩ := lengths hc h (rot := rot) hs he
  have hv := h.feed
  have hM : ∀ ax, 0 < c.maxVel.get ax := fun ax => lt_of_lt_of_le (by norm_num) (hc.maxVel ax)
  have hw0 := arcVel_nonneg (c := c) (delta := delta) (radius := radius) (plane := plane) (v := v)
    (rot := rot) (φs := φs) (φe := φe) (by linarith) l1.le
  have hwg := arcVel_get (c := c) (delta := delta) (radius := radius) (plane := plane) (v := v)
    (rot := rot) (φs := φs) (φe := φe) l2.ne'
  have hE : (1 : ℝ) / 2 / E10 = 1 / 2 / 10 ^ 10 := rfl
  have hsame : (arcVel c delta radius plane rot v φs φe).get (axisA plane) =
      (arcVel c delta radius plane rot v φs φe).get (axisB plane) := by
    rw [hwg, hwg, arcShare, if_pos (.inl rfl), arcShare, if_pos (.inr rfl)]
  have near : ∀ ax, |(arcVel c delta radius plane rot v φs φe).get ax -
      arcShare c delta radius plane rot φs φe ax * (v / 60)| ≤ 1 / 2 / 10 ^ 10 := fun ax => by
    rw [hwg, ← hE]; exact round10_near _
  have share : ∀ ax, arcShare c delta radius plane rot φs φe ax ≤ 1 := fun ax => by
    rcases axis_cases plane ax with rfl | rfl | rfl | rfl
    · rw [arcShare, if_pos (.inl rfl), div_le_one l2]; exact l6
    · rw [arcShare, if_pos (.inr rfl), div_le_one l2]; exact l6
    · rw [arcShare, if_neg (by have := axis3_ne_a plane; have := axis3_ne_b plane; tauto), div_le_one l2]
      exact l7
    · rw [arcShare, if_neg (by have := axisE_ne_a plane; have := axisE_ne_b plane; tauto), div_le_one l2]
      exact l8
  by_cases ha : c.autoVel = true
  · obtain ⟨κ, k1, k2, k3, k4, k5⟩ := adjustVelocity_ok hM hw0 ha
    obtain rfl : _ = maxV := Except.ok.inj (k1.symm.trans hadj)
    have hv0 : 0 ≤ v / 60 := by linarith
    refine ⟨κ * (v / 60), ?_, by rw [get_smul, get_smul, hsame], fun ax => ?_, fun ax => ?_,
      by nlinarith, fun _ hd ax => ?_, ?_⟩
    · rcases k5 with rfl | ⟨ax, k5, k6⟩
      · linarith
      · have n := (abs_le.1 (near ax)).2
        have h1 : (60 : ℝ) ≤ c.maxVel.get ax := by exact_mod_cast hc.maxVel ax
        set w := (arcVel c delta radius plane rot v φs φe).get ax
        have hw : 0 < w := by linarith
        have h2 : w ≤ 2 * (v / 60) := by
          have := share ax
          have h3 : arcShare c delta radius plane rot φs φe ax * (v / 60) ≤ 1 * (v / 60) := by gcongr
          norm_num at n
          linarith
        have h4 : κ * w = c.maxVel.get ax / 60 := by rw [k6]; field_simp
        have h5 : κ * w ≤ κ * (2 * (v / 60)) := by gcongr
        linarith
    · rw [get_smul]
      have n2 := round10_near ((arcVel c delta radius plane rot v φs φe).get ax * κ)
      rw [hE] at n2
      have n3 : |(arcVel c delta radius plane rot v φs φe).get ax * κ -
          arcShare c delta radius plane rot φs φe ax * (κ * (v / 60))| ≤ 1 / 2 / 10 ^ 10 := by
        rw [show (arcVel c delta radius plane rot v φs φe).get ax * κ -
          arcShare c delta radius plane rot φs φe ax * (κ * (v / 60)) =
          ((arcVel c delta radius plane rot v φs φe).get ax -
          arcShare c delta radius plane rot φs φe ax * (v / 60)) * κ by ring, abs_mul, abs_of_pos k2]
        have := near ax
        calc _ ≤ 1 / 2 / 10 ^ 10 * (1 : ℝ) := by gcongr
          _ = _ := by ring
      refine (abs_sub_le _ _ _).trans ((add_le_add n2 n3).trans (by norm_num))
    · rw [get_smul]
      exact round10_nonneg (mul_nonneg (hw0 ax) k2.le)
    · rw [get_smul]
      refine round10_le_grid (limit_grid hd ax) ?_
      have := k4 ax
      linarith
    · rcases k5 with rfl | ⟨ax, k5, k6⟩
      · left; ring
      · refine .inr ⟨ha, ax, ?_⟩
        rw [get_smul]
        have hp : (0 : ℝ) < c.maxVel.get ax := by exact_mod_cast hM ax
        have hz : (arcVel c delta radius plane rot v φs φe).get ax ≠ 0 := fun hz => by
          rw [hz] at k5; linarith
        have e2 : (arcVel c delta radius plane rot v φs φe).get ax * κ = c.maxVel.get ax / 60 := by
          rw [k6]; field_simp
        rw [e2]
        have n2 := round10_near ((c.maxVel.get ax : ℝ) / 60)
        rw [hE] at n2
        have := (abs_le.1 n2).1
        norm_num at this ⊢
        linarith
  · have hm : maxV = arcVel c delta radius plane rot v φs φe := by
      unfold adjustVelocity at hadj
      rw [if_pos (by simpa using ha)] at hadj
      exact (Except.ok.inj hadj).symm
    rw [hm]
    exact ⟨v / 60, by linarith, hsame, fun ax => (near ax).trans (by norm_num), hw0, le_rfl,
      fun h => absurd h ha, .inl rfl⟩

theorem helix_new (hc : SaneCfg c) (h : OrdinaryArc c delta radius plane v)
    (hg : CircGen.new c delta radius plane rot v = .ok g) :
    ∃ V ρ L s M, Helix c delta radius plane g V ρ L s ∧
      HelixTimes c delta radius plane v g V ρ L s M := by
  have hsz := ordinary_sized hc h
  obtain ⟨φs, φe, hf⟩ := new_facts hg
  obtain ⟨R, RB, A, B, EA, EB, hi, -, -, -, -, -, -, -, r1, r2, q1, q2⟩ := arc_ints h.grid hf
  clear hf hi
  obtain ⟨he, φs, φe, maxV, q, h1, h2, h3, h4, h5⟩ := new_ok hg
  obtain ⟨s, hs, hsame, hv, hnn, hfeed, hlim, htop⟩ := helix_vel hc hsz h1 h2 h3
  obtain ⟨maxV', h3', -, pA, pB, -, -⟩ := arc_vel hc hsz (rot := rot) h1 h2
  obtain rfl : maxV = maxV' := Except.ok.inj (h3.symm.trans h3')
  obtain ⟨l1, l2, l3, l4, l5, l6, -, -⟩ := lengths hc hsz (rot := rot) h1 h2
  obtain ⟨n1, n2, -⟩ := rad_near hsz
  have hm : (0 : ℝ) < coarse c plane := by exact_mod_cast coarse_pos hsz
  set ρ := arcRad (arcMpm c plane) plane radius with hρ
  set V := maxV.get (axisA plane) with hV
  have hcirc : arcCirc plane maxV = V := by
    unfold arcCirc
    rw [planeAxes_eq, pmin_eq]
    simp only [← hsame]
    exact min_self _
  rw [hcirc] at h4
  have hq : q = ρ / V := by
    unfold pdiv at h4
    rw [if_neg (by simpa using pA.ne')] at h4
    exact (Except.ok.inj h4).symm
  subst hq
  have hinv : 1 / (coarse c plane : ℝ) ≤ ρ := by rw [div_le_iff₀ hm]; exact n1
  have hρ0 : 0 < ρ := lt_of_lt_of_le (by positivity) hinv
  have half : 1 / 2 / (coarse c plane : ℝ) = 1 / (coarse c plane : ℝ) / 2 := by ring
  rw [half, abs_le] at n2
  have hbig : 1 / (coarse c plane : ℝ) ≤ startDist plane radius := by
    rw [div_le_iff₀ hm]; exact hsz.big
  have hρle : ρ ≤ 1500 := by have := hsz.size; linarith [n2.2]
  have harc : arcArc c radius plane rot φs φe = |arcTurn rot φs φe| * ρ := by simp [arcArc, hρ]
  have hT0 : 0 < |arcTurn rot φs φe| := by
    rw [harc] at l1
    exact pos_of_mul_pos_left l1 hρ0.le
  have hT2 : |arcTurn rot φs φe| ≤ 2 * π := by
    obtain ⟨s0, s1, -, -, -⟩ := angle_ok h1
    obtain ⟨e0, e1, -, -, -⟩ := angle_ok h2
    exact (turn_bounds (rot := rot) s0 s1 e0 e1).2.1
  have hfull : arcFull c delta radius plane rot φs φe =
      √(arcArc c radius plane rot φs φe ^ 2 + delta.get (axis3 plane) ^ 2 + delta.e ^ 2) := by
    simp [arcFull, planeAxes_eq, pow_two]
  have hAle : arcArc c radius plane rot φs φe ≤ 13000 := by
    rw [harc]
    have := pi_lt_d2
    calc |arcTurn rot φs φe| * ρ ≤ (2 * π) * 1500 := by gcongr
      _ ≤ 13000 := by linarith
  obtain ⟨-, -, -, hLup⟩ := len_core l1 hAle hsz.le3 hsz.leE
  rw [← hfull] at hLup
  have hA := hv (axisA plane)
  have h3 := hv (axis3 plane)
  have hE := hv .e
  rw [arcShare, if_pos (.inl rfl), harc] at hA
  rw [arcShare, if_neg (by have := axis3_ne_a plane; have := axis3_ne_b plane; tauto)] at h3
  rw [arcShare, if_neg (by have := axisE_ne_a plane; have := axisE_ne_b plane; tauto)] at hE
  rw [harc] at l3
  have hacc : (0 : ℝ) < c.accel := by
    have : (1 : ℝ) ≤ c.accel := by exact_mod_cast hc.accel
    linarith
  obtain ⟨f, hfm⟩ := findMax_mem maxV
  have hM0 : 0 < Coord.findMax maxV := lt_of_lt_of_le pA (le_findMax maxV (axisA plane))
  -- what does not depend on the times
  have build : ∀ (mV : V4 ℝ) (aT lT : ℝ),
      g = arcMk c delta radius plane rot φs φe (planeAxes plane maxV).2.2 maxV.e (ρ / V) mV aT lT →
      (Gen.circular g).twoVmaxPerA c = 2 * g.accT →
      ((Coord.findMax maxV ^ 2 / c.accel ≤ arcFull c delta radius plane rot φs φe ∧
        aT = Coord.findMax maxV / c.accel ∧
        lT = (arcFull c delta radius plane rot φs φe - Coord.findMax maxV ^ 2 / c.accel) /
          √(V ^ 2 + (maxV.get (axis3 plane)) ^ 2 + maxV.e ^ 2)) ∨
      (arcFull c delta radius plane rot φs φe < Coord.findMax maxV ^ 2 / c.accel ∧
        aT = √(arcFull c delta radius plane rot φs φe / c.accel) ∧ lT = 0)) →
      ∃ V ρ L s M, Helix c delta radius plane g V ρ L s ∧
        HelixTimes c delta radius plane v g V ρ L s M := by
    rintro mV aT lT rfl hk hshape
    have e3 : (arcMk c delta radius plane rot φs φe (planeAxes plane maxV).2.2 maxV.e (ρ / V) mV aT
        lT).vel3 = maxV.get (axis3 plane) := by
      change (planeAxes plane maxV).2.2 = _
      rw [planeAxes_eq]
    refine ⟨V, ρ, arcFull c delta radius plane rot φs φe, s, Coord.findMax maxV, ⟨pA, hρ0, hT0, l2, hLup,
      hs, rfl, ?_, hA, ?_, hE, l3, l4, l5⟩, ⟨hacc, ?_, ?_, hnn .e, le_findMax maxV _, ?_, le_findMax maxV .e,
      ?_, hk, ?_, ?_, ?_, hfeed, fun a d => ⟨hlim a d _, ?_, ?_, hlim a d .e⟩, ?_⟩⟩
    · linarith [n2.1]
    · rw [e3]; exact h3
    · rw [hfull, harc]; rfl
    · rw [e3]; exact hnn _
    · rw [e3]; exact le_findMax maxV _
    · rw [e3, hfm]
      rcases axis_cases plane f with rfl | rfl | rfl | rfl
      · exact .inl rfl
      · exact .inl hsame.symm
      · exact .inr (.inl rfl)
      · exact .inr (.inr rfl)
    · rw [e3]; exact hshape
    · rw [r1]; exact q1
    · rw [r2]; exact q2
    · have := hlim a d (axisB plane); rwa [← hsame] at this
    · rw [e3]; exact hlim a d _
    · rcases htop with h | ⟨ha, ax, h⟩
      · exact .inl h
      · refine .inr ⟨ha, ?_⟩
        rw [e3]
        rcases axis_cases plane ax with rfl | rfl | rfl | rfl
        · exact .inl h
        · rw [← hsame] at h; exact .inr (.inl h)
        · exact .inr (.inr (.inl h))
        · exact .inr (.inr (.inr h))
  unfold arcTimes at h5
  simp only at h5
  rw [hcirc] at h5
  rw [if_neg (by simpa using l2.ne')] at h5
  have hVa : (c.accel : ℝ) * (Coord.findMax maxV / c.accel * (Coord.findMax maxV / c.accel)) =
      Coord.findMax maxV ^ 2 / c.accel := by field_simp
  set L := arcFull c delta radius plane rot φs φe with hLd
  set M := Coord.findMax maxV with hMd
  split at h5
  · next hlt =>
    have hlt : L < M ^ 2 / c.accel := by
      rw [← hVa]; simpa using hlt
    have hs0 : 0 < √(L / c.accel) := Real.sqrt_pos.2 (by positivity)
    unfold pdiv at h5
    rw [if_neg (by simpa using hs0.ne')] at h5
    have h5 := (Except.ok.inj h5).symm
    set W := L / √(L / c.accel) with hW
    have hW0 : 0 < W := div_pos l2 hs0
    have hWa : W = c.accel * √(L / c.accel) := by
      rw [hW, div_eq_iff hs0.ne', mul_assoc, Real.mul_self_sqrt (by positivity)]
      field_simp
    have hfm : Coord.findMax (maxV.map fun w => if zeroF <ₚ w then W else w) = W := by
      obtain ⟨f, hf⟩ := findMax_mem (maxV.map fun w => if zeroF <ₚ w then W else w)
      have hle := le_findMax (maxV.map fun w => if zeroF <ₚ w then W else w) (axisA plane)
      rw [get_map, if_pos (by simpa using pA)] at hle
      rw [hf, get_map] at hle ⊢
      split at hle
      · next hp => rw [if_pos hp]
      · next hp =>
        exfalso
        have : maxV.get f ≤ 0 := by simpa using hp
        linarith
    refine build _ _ _ h5 ?_ (.inr ⟨hlt, by simp, by simp⟩)
    rw [h5]
    simp only [Gen.twoVmaxPerA, Gen.maxVSec, arcMk]
    erw [hfm]
    simp only [ofRat_eq, mul_eq, div_eq, sqrt_eq]
    rw [hWa]
    push_cast
    field_simp
  · next hlt =>
    have hlt : M ^ 2 / c.accel ≤ L := by
      rw [← hVa]; simpa using hlt
    have hsq : PyNum.sqrt (V *ₚ V +ₚ (planeAxes plane maxV).2.2 *ₚ (planeAxes plane maxV).2.2 +ₚ
        maxV.e *ₚ maxV.e) = √(V ^ 2 + (maxV.get (axis3 plane)) ^ 2 + maxV.e ^ 2) := by
      rw [planeAxes_eq]
      simp only [sqrt_eq, add_eq, mul_eq, pow_two]
    rw [hsq] at h5
    have hq0 : 0 < √(V ^ 2 + (maxV.get (axis3 plane)) ^ 2 + maxV.e ^ 2) := Real.sqrt_pos.2 (by positivity)
    unfold pdiv at h5
    rw [if_neg (by simpa using hq0.ne')] at h5
    have h5 := (Except.ok.inj h5).symm
    refine build _ _ _ h5 ?_ (.inl ⟨hlt, by simp, ?_⟩)
    · rw [h5]
      simp only [Gen.twoVmaxPerA, Gen.maxVSec, arcMk]
      simp only [ofRat_eq, mul_eq, div_eq]
      push_cast
      ring
    · simp only [div_eq, ofRat_eq, sub_eq, mul_eq]
      congr 2
      field_simp

omit [PyRound] in
/-- The time a distance takes at a rounded speed. -/
theorem helix_time {L s x u : ℝ} (hL : 0 < L) (hs : 1 / 60 ≤ s) (hx : 1 / 15000000 ≤ x / L)
    (hu : |u - x / L * s| ≤ 1 / 10 ^ 10) : 0 < u ∧ x / u ≤ 11 / 10 * (L / s) := by
  have hs0 : 0 < s := by linarith
  have h1 : 1 / 15000000 * (1 / 60) ≤ x / L * s := by gcongr
  have h2 := (abs_le.1 hu).1
  have h3 : 10 / 11 * (x / L * s) ≤ u := by norm_num at h1 h2 ⊢; linarith
  have hxs : 0 < x / L * s := by norm_num at h1; linarith
  have hu0 : 0 < u := by linarith
  refine ⟨hu0, ?_⟩
  rw [div_le_iff₀ hu0]
  calc x = 11 / 10 * (L / s) * (10 / 11 * (x / L * s)) := by field_simp
    _ ≤ _ := by gcongr

end

/-! ## All axes -/

section

variable {c : Cfg} {delta radius : V4 ℝ} {plane : Plane} {rot : Rot} {v : ℝ} {g : CircGen ℝ}
  {R RB A B uA uB : ℤ} {φ V ρ L s : ℝ}

theorem ArcTracks.turnedA_eq (ht : ArcTracks c delta radius plane rot g R RB A B uA uB φ) (θ : ℝ) :
    turnedA plane radius rot θ = startDist plane radius * sin (φ + rotSign rot * θ) := by
  unfold turnedA
  cases rot
  · simp only [turnSign, rotSign, Int.cast_one, one_mul]
    rw [sin_add, ht.aφ, ht.bφ]; ring
  · simp only [turnSign, rotSign, Int.cast_neg, Int.cast_one, neg_mul, one_mul]
    rw [sin_add, ht.aφ, ht.bφ, sin_neg, cos_neg]; ring

theorem ArcTracks.turnedB_eq (ht : ArcTracks c delta radius plane rot g R RB A B uA uB φ) (θ : ℝ) :
    turnedB plane radius rot θ = startDist plane radius * cos (φ + rotSign rot * θ) := by
  unfold turnedB
  cases rot
  · simp only [turnSign, rotSign, Int.cast_one, one_mul]
    rw [cos_add, ht.aφ, ht.bφ]; ring
  · simp only [turnSign, rotSign, Int.cast_neg, Int.cast_one, neg_mul, one_mul]
    rw [cos_add, ht.aφ, ht.bφ, sin_neg, cos_neg]; ring

/-- Turning a little more moves a point a little. -/
theorem ArcTracks.turned_lip (ht : ArcTracks c delta radius plane rot g R RB A B uA uB φ) (θ θ' : ℝ) :
    |turnedA plane radius rot θ - turnedA plane radius rot θ'| ≤ startDist plane radius * |θ - θ'| ∧
    |turnedB plane radius rot θ - turnedB plane radius rot θ'| ≤ startDist plane radius * |θ - θ'| := by
  have hd : 0 ≤ startDist plane radius := Real.sqrt_nonneg _
  have hσ : |φ + rotSign rot * θ - (φ + rotSign rot * θ')| = |θ - θ'| := by
    rw [show φ + rotSign rot * θ - (φ + rotSign rot * θ') = rotSign rot * (θ - θ') by ring, abs_mul]
    cases rot <;> simp [rotSign]
  rw [ht.turnedA_eq, ht.turnedA_eq, ht.turnedB_eq, ht.turnedB_eq, ← mul_sub, ← mul_sub, abs_mul, abs_mul,
    abs_of_nonneg hd, ← hσ]
  exact ⟨mul_le_mul_of_nonneg_left (Real.abs_sin_sub_sin_le _ _) hd,
    mul_le_mul_of_nonneg_left (Real.abs_cos_sub_cos_le _ _) hd⟩

/-- The uniform time after `n` events. -/
noncomputable def arcNow (c : Cfg) (rot : Rot) (g : CircGen ℝ) (R RB uA uB : ℤ) (φ : ℝ) (n : ℕ) : ℝ :=
  lastSent (arcPt c rot g R RB uA uB φ) fun ax => steps ax ((Gen.circular g).run c n .init).1

open Classical in
/-- The part of the way done after `n` events. -/
noncomputable def helixPart (c : Cfg) (rot : Rot) (g : CircGen ℝ) (R RB uA uB : ℤ) (φ L s : ℝ) (n : ℕ) : ℝ :=
  if ∀ ax, steps ax ((Gen.circular g).run c n .init).1 = g.totals ax then 1
  else min 1 (arcNow c rot g R RB uA uB φ n * s / L)

variable (hx : Helix c delta radius plane g V ρ L s)
  (ht : ArcTracks c delta radius plane rot g R RB A B uA uB φ) (hb : CircBase c g) (hl : 0 ≤ g.linT)

include hx ht hb hl

theorem Helix.now_nonneg (n : ℕ) : 0 ≤ arcNow c rot g R RB uA uB φ n :=
  (arc_timed ht hb hl).last_nonneg fun ax => (circ_steps c g n ax).1

theorem Helix.part_le (n : ℕ) : helixPart c rot g R RB uA uB φ L s n ≤ 1 := by
  unfold helixPart
  split
  · exact le_rfl
  · exact min_le_left _ _

theorem Helix.part_nonneg (n : ℕ) : 0 ≤ helixPart c rot g R RB uA uB φ L s n := by
  unfold helixPart
  have h1 := hx.now_nonneg ht hb hl n
  have h2 := hx.s_ge
  have h3 := hx.L0
  split
  · exact zero_le_one
  · refine le_min zero_le_one ?_
    have : 0 ≤ s := by linarith
    positivity

theorem Helix.part_zero (hsome : 0 < g.itA.toNat ∨ 0 < g.itB.toNat) :
    helixPart c rot g R RB uA uB φ L s 0 = 0 := by
  have h0 : arcNow c rot g R RB uA uB φ 0 = 0 := by
    unfold arcNow lastSent lastOf
    simp [Gen.run, steps, stepTimes]
  unfold helixPart
  rw [if_neg, h0, zero_mul, zero_div]
  · exact min_eq_right zero_le_one
  · intro h
    rcases hsome with h1 | h1
    · have := h (axisA g.plane)
      simp [Gen.run, steps, stepTimes, CircGen.totals] at this
      omega
    · have := h (axisB g.plane)
      simp [Gen.run, steps, stepTimes, CircGen.totals, axisB_ne] at this
      omega

theorem Helix.part_mono : Monotone (helixPart c rot g R RB uA uB φ L s) := by
  intro n m hnm
  have hs : 0 ≤ s := by linarith [hx.s_ge]
  have hL := hx.L0
  conv_rhs => unfold helixPart
  split
  · exact hx.part_le ht hb hl n
  · next hm =>
    unfold helixPart
    rw [if_neg]
    · refine min_le_min_left _ (div_le_div_of_nonneg_right (mul_le_mul_of_nonneg_right ?_ hs) hL.le)
      exact (arc_timed ht hb hl).last_mono (fun ax => (circ_steps c g m ax).1)
        (fun ax => steps_mono hnm _ ax)
    · intro hn
      refine hm fun ax => le_antisymm (circ_steps c g m ax).1 ?_
      rw [← hn ax]
      exact steps_mono hnm _ ax

/-- No pulse is much later than the end. -/
theorem Helix.now_le (hf3 : g.it3 = |delta.get (axis3 plane)| * c.ppm.get (axis3 plane))
    (hfE : g.itE = |delta.e| * c.ppm.get .e) (n : ℕ) :
    arcNow c rot g R RB uA uB φ n ≤ 11 / 10 * (L / s) := by
  have hpl := ht.plane_eq
  have hL := hx.L0
  have hs : 0 < s := by linarith [hx.s_ge]
  have hV := hx.V0
  have hρ := hx.ρ0
  have hr : 0 ≤ g.rDivV := hb.time
  have arcs : g.rDivV * g.deltaAngle ≤ 11 / 10 * (L / s) := by
    have := (helix_time hL hx.s_ge hx.lowArc hx.arc).2
    rw [hx.rdv]
    calc ρ / V * g.deltaAngle = g.deltaAngle * ρ / V := by ring
      _ ≤ _ := this
  have other : ∀ {d u : ℝ} {p : ℚ} {i : ℕ}, 0 < p → (d ≠ 0 → 1 / 15000000 ≤ |d| / L) →
      |u - |d| / L * s| ≤ 1 / 10 ^ 10 → i < ⌈|d| * p⌉₊ → (i : ℝ) / p / u ≤ 11 / 10 * (L / s) := by
    intro d u p i hp hd hu hi
    have hp' : (0 : ℝ) < p := by exact_mod_cast hp
    have hi := Nat.lt_ceil.1 hi
    have hd0 : d ≠ 0 := by
      rintro rfl
      rw [abs_zero, zero_mul] at hi
      exact absurd hi (not_lt.2 (Nat.cast_nonneg i))
    obtain ⟨u0, hu⟩ := helix_time hL hx.s_ge (hd hd0) hu
    refine le_trans ?_ hu
    gcongr
    rw [div_le_iff₀ hp']
    exact hi.le
  refine lastSent_le fun ax => ?_
  unfold lastOf
  split
  · positivity
  · next hk =>
    have hi : steps ax ((Gen.circular g).run c n .init).1 - 1 < g.totals ax := by
      have := (circ_steps c g n ax).1
      have hk : ¬ steps ax ((Gen.circular g).run c n .init).1 = 0 := hk
      omega
    generalize steps ax ((Gen.circular g).run c n .init).1 - 1 = i at hi
    unfold CircGen.totals at hi
    unfold arcPt
    split
    · next hax =>
      rw [if_pos hax] at hi
      exact (mul_le_mul_of_nonneg_left (ht.ta.turn_le hi) hr).trans arcs
    · next hax =>
      rw [if_neg hax] at hi
      split
      · next hbx =>
        rw [if_pos hbx] at hi
        exact (mul_le_mul_of_nonneg_left (ht.tb.turn_le hi) hr).trans arcs
      · next hbx =>
        rw [if_neg hbx] at hi
        split
        · next hcx =>
          rw [if_pos hcx, hf3] at hi
          rw [hcx, hpl]
          exact other (hb.ppm _) hx.low3 hx.vel3 hi
        · next hcx =>
          rw [if_neg hcx, hfE] at hi
          have he : ax = .e := by
            rcases axis_cases g.plane ax with h | h | h | h
            · exact absurd h hax
            · exact absurd h hbx
            · exact absurd h hcx
            · exact h
          rw [he]
          exact other (hb.ppm _) hx.lowE hx.velE hi

/-- The angle turned is the part of the whole turn. -/
theorem Helix.angle_near (hf3 : g.it3 = |delta.get (axis3 plane)| * c.ppm.get (axis3 plane))
    (hfE : g.itE = |delta.e| * c.ppm.get .e) (hsome : 0 < g.itA.toNat ∨ 0 < g.itB.toNat) (n : ℕ) :
    |arcPhi c rot g R RB uA uB φ n - helixPart c rot g R RB uA uB φ L s n * g.deltaAngle| ≤
      1 / 10000 / ρ := by
  have hL := hx.L0
  have hs : 0 < s := by linarith [hx.s_ge]
  have hV := hx.V0
  have hρ := hx.ρ0
  have hT := hx.T0
  have hr : 0 < g.rDivV := by rw [hx.rdv]; positivity
  unfold helixPart
  split
  · next hd =>
    rw [phi_full ht hb hl hr hsome hd, one_mul, sub_self, abs_zero]
    positivity
  · have hP := hx.now_le ht hb hl hf3 hfE n
    have hP0 := hx.now_nonneg ht hb hl n
    set P := arcNow c rot g R RB uA uB φ n with hPd
    have e1 : arcPhi c rot g R RB uA uB φ n = min g.deltaAngle (P * V / ρ) := by
      unfold arcPhi
      rw [hPd, hx.rdv]
      unfold arcNow
      congr 1
      field_simp
    have e2 : min 1 (P * s / L) * g.deltaAngle = min g.deltaAngle (P * s / L * g.deltaAngle) := by
      rw [min_mul_of_nonneg _ _ hT.le, one_mul]
    rw [e1, e2]
    refine (abs_min_sub_min_le_max _ _ _ _).trans ?_
    rw [sub_self, abs_zero, max_eq_right (abs_nonneg _)]
    have e3 : P * V / ρ - P * s / L * g.deltaAngle = P / ρ * (V - g.deltaAngle * ρ / L * s) := by
      field_simp
    rw [e3, abs_mul, abs_of_nonneg (by positivity)]
    have hLs : L / s ≤ 900000 := by
      rw [div_le_iff₀ hs]
      have := hx.L_le
      have := hx.s_ge
      linarith
    calc P / ρ * |V - g.deltaAngle * ρ / L * s| ≤ (11 / 10 * 900000) / ρ * (1 / 10 ^ 10) := by
          have := hx.arc
          gcongr
          linarith
      _ ≤ 1 / 10000 / ρ := by
          rw [div_mul_eq_mul_div]
          gcongr
          norm_num

/-- An axis beside the plane. -/
theorem Helix.other_near (hf3 : g.it3 = |delta.get (axis3 plane)| * c.ppm.get (axis3 plane))
    (hfE : g.itE = |delta.e| * c.ppm.get .e) (hp1000 : ∀ ax, c.ppm.get ax ≤ 1000) (n : ℕ) {ax : Axis}
    (hax : ax = axis3 plane ∨ ax = .e) :
    |(steps ax ((Gen.circular g).run c n .init).1 : ℝ) -
      helixPart c rot g R RB uA uB φ L s n * (|delta.get ax| * c.ppm.get ax)| ≤ 11 / 10 := by
  have hpl := ht.plane_eq
  have hL := hx.L0
  have hs : 0 < s := by linarith [hx.s_ge]
  have htm := arc_timed ht hb hl
  obtain ⟨u, hu, hlow, htot, hpt⟩ : ∃ u, |u - |delta.get ax| / L * s| ≤ 1 / 10 ^ 10 ∧
      (delta.get ax ≠ 0 → 1 / 15000000 ≤ |delta.get ax| / L) ∧
      g.totals ax = ⌈|delta.get ax| * c.ppm.get ax⌉₊ ∧
      ∀ i, arcPt c rot g R RB uA uB φ ax i = (i : ℝ) / c.ppm.get ax / u := by
    rcases hax with rfl | rfl
    · refine ⟨g.vel3, hx.vel3, hx.low3, ?_, fun i => ?_⟩
      · simp [CircGen.totals, hpl, axis3_ne_a, axis3_ne_b, hf3]
      · simp [arcPt, hpl, axis3_ne_a, axis3_ne_b]
    · refine ⟨g.velE, hx.velE, hx.lowE, ?_, fun i => ?_⟩
      · simp [CircGen.totals, axisE_ne_a, axisE_ne_b, axisE_ne_3, hfE]; rfl
      · simp [arcPt, axisE_ne_a, axisE_ne_b, axisE_ne_3]
  have hp : (0 : ℝ) < c.ppm.get ax := by exact_mod_cast hb.ppm ax
  have hp2 : (c.ppm.get ax : ℝ) ≤ 1000 := by exact_mod_cast hp1000 ax
  have hle := (circ_steps c g n ax).1
  set k := steps ax ((Gen.circular g).run c n .init).1 with hk
  set d := |delta.get ax| with hd
  have hd0 : 0 ≤ d := abs_nonneg _
  have hdp : 0 ≤ d * c.ppm.get ax := by positivity
  have hup : (g.totals ax : ℝ) < d * c.ppm.get ax + 1 := by rw [htot]; exact Nat.ceil_lt_add_one hdp
  have hlo : d * c.ppm.get ax ≤ g.totals ax := by rw [htot]; exact Nat.le_ceil _
  have hkle : (k : ℝ) ≤ g.totals ax := by exact_mod_cast hle
  have p1 := hx.part_le ht hb hl n
  have p0 := hx.part_nonneg ht hb hl n
  -- the axis does not move
  by_cases hz : delta.get ax = 0
  · have hd' : d = 0 := by rw [hd, hz, abs_zero]
    have ht0 : g.totals ax = 0 := by rw [htot, hd']; simp
    rw [hd', zero_mul, mul_zero, sub_zero, show k = 0 by omega]
    norm_num
  obtain ⟨u0, -⟩ := helix_time hL hx.s_ge (hlow hz) hu
  unfold helixPart
  split
  · next hall =>
    have := hall ax
    rw [← hk] at this
    rw [this, one_mul, abs_le]
    constructor <;> linarith
  · have hP := hx.now_le ht hb hl hf3 hfE n
    have hP0 := hx.now_nonneg ht hb hl n
    have hsent : ∀ i < k, (i : ℝ) ≤ arcNow c rot g R RB uA uB φ n * u * c.ppm.get ax := fun i hi => by
      have := htm.sent_le (k := fun ax => steps ax ((Gen.circular g).run c n .init).1)
        (fun ax => (circ_steps c g n ax).1) ax hi
      rw [hpt, div_div, div_le_iff₀ (by positivity)] at this
      unfold arcNow
      linarith
    have hnext : k < g.totals ax → arcNow c rot g R RB uA uB φ n * u * c.ppm.get ax ≤ k := fun hlt => by
      have := htm.last_le (timed_init htm n).2.1 ax hlt
      rw [hpt, div_div, le_div_iff₀ (by positivity)] at this
      unfold arcNow
      linarith
    set P := arcNow c rot g R RB uA uB φ n with hPd
    have hLs : L / s ≤ 900000 := by
      rw [div_le_iff₀ hs]
      have := hx.L_le
      have := hx.s_ge
      linarith
    have e1 : |P * u * c.ppm.get ax - P * s / L * (d * c.ppm.get ax)| ≤ 1 / 10 := by
      rw [show P * u * c.ppm.get ax - P * s / L * (d * c.ppm.get ax) =
        P * (u - d / L * s) * c.ppm.get ax by field_simp, abs_mul, abs_mul, abs_of_nonneg hP0,
        abs_of_pos hp]
      calc P * |u - d / L * s| * c.ppm.get ax ≤ (11 / 10 * 900000) * (1 / 10 ^ 10) * 1000 := by
            gcongr
            linarith
        _ ≤ 1 / 10 := by norm_num
    rw [abs_le] at e1 ⊢
    constructor
    · rcases hle.lt_or_eq with hlt | heq
      · have h1 := hnext hlt
        have h2 : min 1 (P * s / L) * (d * c.ppm.get ax) ≤ P * s / L * (d * c.ppm.get ax) :=
          mul_le_mul_of_nonneg_right (min_le_right _ _) hdp
        linarith [e1.1]
      · have h2 : min 1 (P * s / L) * (d * c.ppm.get ax) ≤ 1 * (d * c.ppm.get ax) :=
          mul_le_mul_of_nonneg_right (min_le_left _ _) hdp
        rw [heq]
        linarith
    · rcases min_cases 1 (P * s / L) with ⟨q, -⟩ | ⟨q, -⟩ <;> rw [q]
      · linarith
      · rcases Nat.eq_zero_or_pos k with h0 | h0
        · rw [h0]
          have : 0 ≤ P * s / L * (d * c.ppm.get ax) := by positivity
          simp only [Nat.cast_zero]
          linarith
        · have h1 := hsent (k - 1) (by omega)
          rw [Nat.cast_sub h0, Nat.cast_one] at h1
          linarith [e1.2]

end

end PyCNC
