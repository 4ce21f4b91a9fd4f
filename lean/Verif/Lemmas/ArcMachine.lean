import Verif.Lemmas.Circle
import Verif.Lemmas.ArcBuild
import Verif.Lemmas.LinearCheck

/-!
# Circular moves of the machine
-/

set_option linter.unusedSectionVars false

namespace PyCNC

open Spec Real

variable [PyRound] {c : Cfg} {delta radius : V4 ℝ} {plane : Plane} {v : ℝ}

/-- How the constructor chooses the velocities. -/
theorem new_vel {rot : Rot} {g : CircGen ℝ} (h : CircGen.new c delta radius plane rot v = .ok g)
    (hne : ∀ φs φe, angle (arcSA plane radius) (arcSB plane radius) = .ok φs →
      angle (arcEA plane delta radius) (arcEB plane delta radius) = .ok φe →
      arcFull c delta radius plane rot φs φe ≠ 0) :
    ∃ φs φe maxV, angle (arcSA plane radius) (arcSB plane radius) = .ok φs ∧
      angle (arcEA plane delta radius) (arcEB plane delta radius) = .ok φe ∧
      adjustVelocity c (arcVel c delta radius plane rot v φs φe) = .ok maxV ∧
      ((arcFull c delta radius plane rot φs φe <
          c.accel * (Coord.findMax maxV / c.accel * (Coord.findMax maxV / c.accel)) ∧
        g.maxV = maxV.map fun w => if 0 < w then arcFull c delta radius plane rot φs φe /
          √(arcFull c delta radius plane rot φs φe / c.accel) else w) ∨
       (c.accel * (Coord.findMax maxV / c.accel * (Coord.findMax maxV / c.accel)) ≤
          arcFull c delta radius plane rot φs φe ∧ g.maxV = maxV)) := by
  obtain ⟨-, φs, φe, maxV, q, h1, h2, h3, h4, h5⟩ := new_ok h
  refine ⟨φs, φe, maxV, h1, h2, h3, ?_⟩
  have hL := hne φs φe h1 h2
  unfold arcTimes at h5
  simp only at h5
  rw [if_neg (by simpa using hL)] at h5
  split at h5
  · next hlt =>
    rcases hq : pdiv (arcFull c delta radius plane rot φs φe)
        (PyNum.sqrt (arcFull c delta radius plane rot φs φe /ₚ PyNum.ofRat c.accel)) with e | u
    · rw [hq] at h5; cases h5
    · rw [hq] at h5
      cases h5
      left
      refine ⟨by simpa using hlt, ?_⟩
      have hu : u = arcFull c delta radius plane rot φs φe /
          √(arcFull c delta radius plane rot φs φe / c.accel) := by
        by_cases h0 : (PyNum.sqrt (arcFull c delta radius plane rot φs φe /ₚ PyNum.ofRat c.accel)) = 0
        · rw [h0] at hq; unfold pdiv at hq; simp at hq
        · rw [pdiv_ok h0] at hq
          cases hq
          simp only [sqrt_eq, div_eq, ofRat_eq]
      simp only [arcMk, lt_iff, zeroF_eq]
      rw [hu]
  · next hlt =>
    generalize hq : pdiv (F := ℝ) _ _ = r at h5
    rcases r with e | u
    · cases h5
    · cases h5
      right
      exact ⟨by simpa using hlt, rfl⟩

theorem arcVel_nonneg (hv : 0 ≤ v) {rot : Rot} {φs φe : ℝ} (hA : 0 ≤ arcArc c radius plane rot φs φe)
    (ax : Axis) : 0 ≤ (arcVel c delta radius plane rot v φs φe).get ax := by
  have hL : 0 ≤ arcFull c delta radius plane rot φs φe := by
    unfold arcFull; simp only [sqrt_eq]; exact Real.sqrt_nonneg _
  unfold arcVel
  obtain ⟨g1, g2, g3, g4⟩ := get_planeVel plane
    (if (arcFull c delta radius plane rot φs φe =ₚ zeroF) = true then v /ₚ secInMin else
      arcArc c radius plane rot φs φe /ₚ arcFull c delta radius plane rot φs φe *ₚ (v /ₚ secInMin))
    (if (arcFull c delta radius plane rot φs φe =ₚ zeroF) = true then v /ₚ secInMin else
      PyNum.abs (planeAxes plane delta).2.2 /ₚ arcFull c delta radius plane rot φs φe *ₚ (v /ₚ secInMin))
    (if (arcFull c delta radius plane rot φs φe =ₚ zeroF) = true then v /ₚ secInMin else
      PyNum.abs delta.e /ₚ arcFull c delta radius plane rot φs φe *ₚ (v /ₚ secInMin))
  simp only at g1 g2 g3 g4 ⊢
  rcases axis_cases plane ax with rfl | rfl | rfl | rfl
  · rw [g1]; apply round10_nonneg; split <;> simp only [div_eq, mul_eq, secInMin_eq] <;> positivity
  · rw [g2]; apply round10_nonneg; split <;> simp only [div_eq, mul_eq, secInMin_eq] <;> positivity
  · rw [g3]; apply round10_nonneg; split <;> simp only [div_eq, mul_eq, secInMin_eq, abs_eq] <;> positivity
  · rw [g4]; apply round10_nonneg; split <;> simp only [div_eq, mul_eq, secInMin_eq, abs_eq] <;> positivity

theorem arcVel_get {rot : Rot} {φs φe : ℝ} (hL : arcFull c delta radius plane rot φs φe ≠ 0)
    (ax : Axis) : (arcVel c delta radius plane rot v φs φe).get ax =
      PyNum.round10 (arcShare c delta radius plane rot φs φe ax * (v / 60)) := by
  unfold arcVel
  simp only
  rw [if_neg (by simpa using hL), if_neg (by simpa using hL), if_neg (by simpa using hL)]
  simp only [planeAxes_eq, abs_eq, div_eq, mul_eq, secInMin_eq]
  obtain ⟨g1, g2, g3, g4⟩ := get_planeVel plane
    (arcArc c radius plane rot φs φe / arcFull c delta radius plane rot φs φe * (v / 60))
    (|delta.get (axis3 plane)| / arcFull c delta radius plane rot φs φe * (v / 60))
    (|delta.e| / arcFull c delta radius plane rot φs φe * (v / 60))
  rcases axis_cases plane ax with rfl | rfl | rfl | rfl
  · rw [g1, arcShare, if_pos (.inl rfl)]
  · rw [g2, arcShare, if_pos (.inr rfl)]
  · rw [g3, arcShare, if_neg (by simp [axis3_ne_a, axis3_ne_b])]
  · rw [g4, arcShare, if_neg (by simp [axisE_ne_a, axisE_ne_b])]; rfl

theorem get_map (f : ℝ → ℝ) (w : V4 ℝ) (ax : Axis) : (w.map f).get ax = f (w.get ax) := by
  cases ax <;> rfl

/-- A speed that is reached on half of a short way. -/
theorem short_speed {L a m : ℝ} (ha : 0 < a) (hL : 0 < L) (hm : 0 ≤ m) (h : L < a * (m / a * (m / a))) :
    L / √(L / a) ≤ m ∧ (L / √(L / a)) ^ 2 = L * a := by
  have h1 : 0 < L / a := by positivity
  have h2 : (L / √(L / a)) ^ 2 = L * a := by
    rw [div_pow, Real.sq_sqrt h1.le]; field_simp
  refine ⟨le_of_sq_le_sq ?_ hm, h2⟩
  rw [h2]
  have : a * (m / a * (m / a)) = m ^ 2 / a := by field_simp
  rw [this, lt_div_iff₀ ha] at h
  exact h.le

omit [PyRound] in
theorem turn_unique {T T' : ℝ} (h0 : 0 < T) (h1 : T ≤ 2 * π) (h0' : 0 < T') (h1' : T' ≤ 2 * π)
    (hc : cos T = cos T') (hs : sin T = sin T') : T = T' := by
  have h : cos (T - T') = 1 := by
    rw [cos_sub, hc, hs]; nlinarith [sin_sq_add_cos_sq T']
  have := (cos_eq_one_iff_of_lt_of_lt (by linarith) (by linarith)).1 h
  linarith

/-- The angle in the program is the angle of the turn. -/
theorem arcTurn_sweep {rot : Rot} {φs φe T : ℝ}
    (hs : angle (arcSA plane radius) (arcSB plane radius) = .ok φs)
    (he : angle (arcEA plane delta radius) (arcEB plane delta radius) = .ok φe)
    (h : Sweep plane delta radius rot T) : |arcTurn rot φs φe| = T := by
  obtain ⟨s0, s1, sA, sB, sr⟩ := angle_ok hs
  obtain ⟨e0, e1, eA, eB, er⟩ := angle_ok he
  simp only [arcSA_eq, arcSB_eq, show √(startA plane radius ^ 2 + startB plane radius ^ 2) =
    startDist plane radius from rfl] at sA sB sr
  simp only [arcEA_eq, arcEB_eq, show √(endA plane delta radius ^ 2 + endB plane delta radius ^ 2) =
    endDist plane delta radius from rfl] at eA eB er
  obtain ⟨t0, t1, -, -⟩ := turn_bounds (rot := rot) s0 s1 e0 e1
  obtain ⟨h0, h1, h2, h3⟩ := h
  rw [eA, sA, sB] at h2
  rw [eB, sA, sB] at h3
  set r := startDist plane radius
  set r' := endDist plane delta radius
  have hrr : r' * r ≠ 0 := (mul_pos er sr).ne'
  have q := sin_sq_add_cos_sq φs
  have hpi := pi_pos
  cases rot
  · simp only [one_mul] at h2 h3
    have h2' : sin φe = sin φs * cos T + cos φs * sin T := by
      apply mul_left_cancel₀ hrr; linear_combination h2
    have h3' : cos φe = cos φs * cos T - sin φs * sin T := by
      apply mul_left_cancel₀ hrr; linear_combination h3
    have c1 : cos (φe - φs) = cos T := by
      rw [cos_sub, h2', h3']; linear_combination cos T * q
    have c2 : sin (φe - φs) = sin T := by
      rw [sin_sub, h2', h3']; linear_combination sin T * q
    refine turn_unique t0 t1 h0 h1 ?_ ?_
    · rw [← c1]
      unfold arcTurn
      simp only [sub_eq, ofRat_eq, pi_eq, mul_eq, add_eq, zeroF_eq, Rat.cast_ofNat, Bool.or_eq_true,
        lt_iff, Bool.and_eq_true, eq_iff, decide_eq_true_eq, reduceCtorEq, if_false, and_true]
      split
      · rw [cos_abs, cos_add_two_pi]
      · rw [cos_abs]
    · rw [← c2]
      unfold arcTurn
      simp only [sub_eq, ofRat_eq, pi_eq, mul_eq, add_eq, zeroF_eq, Rat.cast_ofNat, Bool.or_eq_true,
        lt_iff, Bool.and_eq_true, eq_iff, decide_eq_true_eq, reduceCtorEq, if_false, and_true]
      split
      · rw [abs_of_nonneg (by linarith), sin_add_two_pi]
      · next hx => push Not at hx; rw [abs_of_nonneg (by linarith)]
  · simp only [neg_mul, one_mul] at h2 h3
    have h2' : sin φe = sin φs * cos T - cos φs * sin T := by
      apply mul_left_cancel₀ hrr; linear_combination h2
    have h3' : cos φe = cos φs * cos T + sin φs * sin T := by
      apply mul_left_cancel₀ hrr; linear_combination h3
    have c1 : cos (φe - φs) = cos T := by
      rw [cos_sub, h2', h3']; linear_combination cos T * q
    have c2 : sin (φe - φs) = - sin T := by
      rw [sin_sub, h2', h3']; linear_combination - sin T * q
    refine turn_unique t0 t1 h0 h1 ?_ ?_
    · rw [← c1]
      unfold arcTurn
      simp only [sub_eq, ofRat_eq, pi_eq, mul_eq, add_eq, zeroF_eq, Rat.cast_ofNat, Bool.or_eq_true,
        lt_iff, Bool.and_eq_true, eq_iff, decide_eq_true_eq, reduceCtorEq, if_true, and_false, or_false]
      split
      · rw [cos_abs, cos_sub_two_pi, cos_add_two_pi]
      · rw [cos_abs, cos_sub_two_pi]
    · rw [← neg_eq_iff_eq_neg.2 c2]
      unfold arcTurn
      simp only [sub_eq, ofRat_eq, pi_eq, mul_eq, add_eq, zeroF_eq, Rat.cast_ofNat, Bool.or_eq_true,
        lt_iff, Bool.and_eq_true, eq_iff, decide_eq_true_eq, reduceCtorEq, if_true, and_false, or_false]
      split
      · rw [abs_of_nonpos (by linarith), sin_neg, sin_sub_two_pi, sin_add_two_pi]
      · rw [abs_of_nonpos (by linarith), sin_neg, sin_sub_two_pi]

/-- Arcs in one plane, and all arcs that are long enough to reach their speed, respect the
limits. -/
theorem arc_limit (hc : SaneCfg c) (hd : DecimalLimits c) (ha : c.autoVel = true)
    (h : SizedArc c delta radius plane v) {rot : Rot} {g : CircGen ℝ}
    (hg : CircGen.new c delta radius plane rot v = .ok g)
    (hflat : (delta.get (axis3 plane) = 0 ∧ delta.e = 0) ∨
      ∃ T, Sweep plane delta radius rot T ∧ (v / 60 + 1 / 10 ^ 10) ^ 2 ≤
        c.accel * (T * (startDist plane radius - 1 / 2 / coarse c plane))) (ax : Axis) :
    g.maxV.get ax ≤ (c.maxVel.get ax : ℝ) / 60 := by
  obtain ⟨φs, φe, maxV, hs, he, hadj, hcase⟩ := new_vel hg fun φs φe hs he =>
    (lengths hc h (rot := rot) hs he).2.1.ne'
  obtain ⟨l1, l2, l3, l4, l5, l6, l7, l8⟩ := lengths hc h (rot := rot) hs he
  have hv := h.feed
  have hM : ∀ ax, 0 < c.maxVel.get ax := fun ax => lt_of_lt_of_le (by norm_num) (hc.maxVel ax)
  have hw0 := arcVel_nonneg (c := c) (delta := delta) (radius := radius) (plane := plane) (v := v)
    (rot := rot) (φs := φs) (φe := φe) (by linarith) l1.le
  have hwg := arcVel_get (c := c) (delta := delta) (radius := radius) (plane := plane) (v := v)
    (rot := rot) (φs := φs) (φe := φe) l2.ne'
  obtain ⟨κ, k1, k2, k3, k4, k5⟩ := adjustVelocity_ok hM hw0 ha
  rw [k1] at hadj
  cases hadj
  set w := arcVel c delta radius plane rot v φs φe with hw
  have hlim : ∀ ax, (Coord.smul w κ).get ax ≤ (c.maxVel.get ax : ℝ) / 60 := fun ax => by
    rw [get_smul]
    refine round10_le_grid (limit_grid hd ax) ?_
    have := k4 ax
    linarith
  rcases hcase with ⟨hlt, hmv⟩ | ⟨-, hmv⟩
  · rw [hmv, get_map]
    split
    · next hpos =>
      have hacc : (0 : ℝ) < c.accel := by
        have : (1 : ℝ) ≤ c.accel := by exact_mod_cast hc.accel
        linarith
      obtain ⟨f, hf⟩ := findMax_mem (Coord.smul w κ)
      have hm0 : 0 ≤ Coord.findMax (Coord.smul w κ) := hpos.le.trans (le_findMax _ _)
      have h1 := (short_speed hacc l2 hm0 hlt).1
      refine h1.trans ?_
      rcases hflat with ⟨z3, zE⟩ | ⟨T, hT, hlong⟩
      · have hz : ∀ ax, ax ≠ axisA plane → ax ≠ axisB plane → (Coord.smul w κ).get ax = 0 := by
          intro ax n1 n2
          have : w.get ax = 0 := by
            rw [hwg, arcShare, if_neg (by tauto)]
            rcases axis_cases plane ax with rfl | rfl | rfl | rfl
            · exact absurd rfl n1
            · exact absurd rfl n2
            · rw [z3, abs_zero, zero_div, zero_mul, round10_zero]
            · rw [show delta.get .e = delta.e from rfl, zE, abs_zero, zero_div, zero_mul, round10_zero]
          rw [get_smul, this, zero_mul, round10_zero]
        have hab : (Coord.smul w κ).get (axisA plane) = (Coord.smul w κ).get (axisB plane) := by
          rw [get_smul, get_smul, hwg, hwg, arcShare, arcShare, if_pos (.inl rfl), if_pos (.inr rfl)]
        have key : ∀ ax, 0 < (Coord.smul w κ).get ax →
            (Coord.smul w κ).get ax = (Coord.smul w κ).get (axisA plane) := by
          intro ax hp
          by_cases n1 : ax = axisA plane
          · rw [n1]
          · by_cases n2 : ax = axisB plane
            · rw [n2, hab]
            · rw [hz ax n1 n2] at hp; exact absurd hp (lt_irrefl _)
        have hfp : 0 < (Coord.smul w κ).get f := by
          rw [← hf]; exact hpos.trans_le (le_findMax _ _)
        rw [hf, key f hfp, ← key ax hpos]
        exact hlim ax
      · exfalso
        have hfl : Coord.findMax (Coord.smul w κ) ≤ v / 60 + 1 / 10 ^ 10 := by
          rw [hf, get_smul]
          have hE : (1 : ℝ) / 2 / E10 = 1 / 2 / 10 ^ 10 := rfl
          have n1 := (abs_le.1 (round10_near (w.get f * κ))).2
          have n2 := (abs_le.1 (round10_near (arcShare c delta radius plane rot φs φe f * (v / 60)))).2
          rw [← hwg, hE] at n2
          rw [hE] at n1
          have hsh : arcShare c delta radius plane rot φs φe f ≤ 1 := by
            unfold arcShare
            split
            · exact (div_le_one l2).2 l6
            · next hx =>
              rcases axis_cases plane f with rfl | rfl | rfl | rfl
              · exact absurd (.inl rfl) hx
              · exact absurd (.inr rfl) hx
              · exact (div_le_one l2).2 l7
              · exact (div_le_one l2).2 l8
          have h2 : arcShare c delta radius plane rot φs φe f * (v / 60) ≤ 1 * (v / 60) := by gcongr
          have h3 : w.get f * κ ≤ w.get f * 1 := by
            have := hw0 f
            gcongr
          generalize PyNum.round10 (w.get f * κ) = y at *
          norm_num at n1 n2 ⊢
          linarith
        obtain ⟨n1, n2, n3⟩ := rad_near h
        have hturn := arcTurn_sweep hs he hT
        have harc : arcArc c radius plane rot φs φe = T * arcRad (arcMpm c plane) plane radius := by
          rw [← hturn]; simp [arcArc]
        have h4 : T * (startDist plane radius - 1 / 2 / coarse c plane) ≤
            arcFull c delta radius plane rot φs φe := by
          refine le_trans ?_ l6
          rw [harc]
          have := hT.1
          gcongr
          linarith [(abs_le.1 n2).1]
        have h5 : c.accel * (Coord.findMax (Coord.smul w κ) / c.accel *
            (Coord.findMax (Coord.smul w κ) / c.accel)) =
            Coord.findMax (Coord.smul w κ) ^ 2 / (c.accel : ℝ) := by field_simp
        rw [h5, lt_div_iff₀ hacc] at hlt
        have h6 : Coord.findMax (Coord.smul w κ) ^ 2 ≤ (v / 60 + 1 / 10 ^ 10) ^ 2 :=
          pow_le_pow_left₀ hm0 hfl 2
        have h7 := mul_le_mul_of_nonneg_left h4 hacc.le
        linarith
    · exact hlim ax
  · rw [hmv]; exact hlim ax

/-! ## Rounding to steps -/

theorem roundToSteps_idem (hc : SaneCfg c) (v : V4 ℝ) :
    roundToSteps c (roundToSteps c v) = roundToSteps c v := by
  apply V4.ext_get
  intro ax
  have hp : (0 : ℝ) < c.ppm.get ax := by exact_mod_cast hc.ppm_pos ax
  have hp2 : (c.ppm.get ax : ℝ) ≤ 1000 := by exact_mod_cast hc.ppm_le ax
  rw [get_roundToSteps (roundToSteps c v), get_roundToSteps v]
  set k := PyRound.rnd (v.get ax / (1 / (c.ppm.get ax : ℝ)))
  have h : PyRound.rnd (PyNum.round10 ((k : ℝ) * (1 / (c.ppm.get ax : ℝ))) /
      (1 / (c.ppm.get ax : ℝ))) = k := by
    refine rnd_unique ?_
    have h1 := round10_near ((k : ℝ) * (1 / (c.ppm.get ax : ℝ)))
    have hE : (1 : ℝ) / 2 / E10 = 1 / 2 / 10 ^ 10 := rfl
    rw [hE] at h1
    generalize PyNum.round10 ((k : ℝ) * (1 / (c.ppm.get ax : ℝ))) = y at *
    have e : y / (1 / (c.ppm.get ax : ℝ)) - k = (y - k * (1 / (c.ppm.get ax : ℝ))) * c.ppm.get ax := by
      field_simp
    rw [e, abs_mul, abs_of_pos hp]
    calc |y - k * (1 / (c.ppm.get ax : ℝ))| * c.ppm.get ax ≤ 1 / 2 / 10 ^ 10 * 1000 := by gcongr
      _ < 1 / 2 := by norm_num
  rw [h]

/-! ## The end of the arc -/

theorem circleEnd_ok {pos ce : V4 ℝ} {rot : Rot}
    (h : circleEnd c plane delta radius pos rot = .ok ce) :
    startDist plane radius ≠ 0 ∧ ce.get (axis3 plane) = delta.get (axis3 plane) ∧ ce.e = delta.e ∧
    ((delta.get (axisA plane) = 0 ∧ delta.get (axisB plane) = 0 ∧ ce = delta) ∨
     (¬ (delta.get (axisA plane) = 0 ∧ delta.get (axisB plane) = 0) ∧
      ce.get (axisA plane) = radius.get (axisA plane) +
        (circlePoint (endA plane delta radius) (endB plane delta radius)
          (startDist plane radius ^ 2)).1 ∧
      ce.get (axisB plane) = radius.get (axisB plane) +
        (circlePoint (endA plane delta radius) (endB plane delta radius)
          (startDist plane radius ^ 2)).2)) := by
  have key : ∀ {da db ra rb pa pb ma mb a b : ℝ},
      adjustCircle da db ra rb rot pa pb ma mb = .ok (a, b) → √(ra ^ 2 + rb ^ 2) ≠ 0 ∧
      ((da = 0 ∧ db = 0 ∧ a = 0 ∧ b = 0) ∨
        (¬ (da = 0 ∧ db = 0) ∧ a = ra + (circlePoint (da - ra) (db - rb) (ra ^ 2 + rb ^ 2)).1 ∧
         b = rb + (circlePoint (da - ra) (db - rb) (ra ^ 2 + rb ^ 2)).2)) := by
    intro da db ra rb pa pb ma mb a b h
    by_cases h0 : ra ^ 2 + rb ^ 2 = 0
    · exfalso
      unfold adjustCircle at h
      simp only [sqrt_eq, add_eq, mul_eq, ← pow_two, h0, Real.sqrt_zero] at h
      rw [if_pos (by simp)] at h
      cases h
    · rw [adjustCircle_eq h0] at h
      generalize fitLoop (F := ℝ) _ _ _ _ _ _ _ _ _ _ _ _ = f at h
      refine ⟨fun h1 => h0 ((Real.sqrt_eq_zero (by positivity)).1 h1), ?_⟩
      rcases f with e | u
      · cases h
      · simp only [Except.bind] at h
        split at h
        · next h1 =>
          cases h
          exact .inl ⟨h1.1, h1.2, rfl, rfl⟩
        · next h1 =>
          cases h
          right
          refine ⟨h1, ?_, ?_⟩ <;> ring
  have hsq : ∀ ra rb : ℝ, √((-ra) ^ 2 + (-rb) ^ 2) = √(ra ^ 2 + rb ^ 2) := fun ra rb => by
    rw [neg_sq, neg_sq]
  have hsq2 : ∀ ra rb : ℝ, √(ra ^ 2 + rb ^ 2) ^ 2 = ra ^ 2 + rb ^ 2 := fun ra rb =>
    Real.sq_sqrt (by positivity)
  unfold circleEnd at h
  cases plane <;> simp only at h <;>
  · obtain ⟨⟨a, b⟩, h1, h2⟩ := bindE_ok h
    cases h2
    obtain ⟨k1, k2⟩ := key h1
    simp only [startDist, endA, endB, startA, startB, axisA, axisB, axis3, V4.get, hsq, hsq2]
    refine ⟨k1, trivial, trivial, ?_⟩
    rcases k2 with ⟨z1, z2, rfl, rfl⟩ | k2
    · left
      refine ⟨z1, z2, ?_⟩
      obtain ⟨dx, dy, dz, de⟩ := delta
      simp only at z1 z2
      rw [z1, z2]
    · exact .inr k2

/-- The computed end lies on the circle. -/
theorem circleEnd_on {pos ce : V4 ℝ} {rot : Rot}
    (h : circleEnd c plane delta radius pos rot = .ok ce) :
    endDist plane ce radius = startDist plane radius := by
  obtain ⟨h1, h2, h3, ⟨z1, z2, rfl⟩ | ⟨-, h4, h5⟩⟩ := circleEnd_ok h
  · unfold endDist startDist endA endB startA startB
    rw [z1, z2]; simp
  · have h0 : 0 ≤ startDist plane radius := Real.sqrt_nonneg _
    have hq := circlePoint_sq (x := endA plane delta radius) (y := endB plane delta radius)
      (sq_nonneg (startDist plane radius))
    have h6 : endA plane ce radius = (circlePoint (endA plane delta radius)
        (endB plane delta radius) (startDist plane radius ^ 2)).1 := by
      rw [show endA plane ce radius = ce.get (axisA plane) - radius.get (axisA plane) from rfl, h4]; ring
    have h7 : endB plane ce radius = (circlePoint (endA plane delta radius)
        (endB plane delta radius) (startDist plane radius ^ 2)).2 := by
      rw [show endB plane ce radius = ce.get (axisB plane) - radius.get (axisB plane) from rfl, h5]; ring
    rw [endDist, h6, h7]
    set P := circlePoint (endA plane delta radius) (endB plane delta radius)
      (startDist plane radius ^ 2) with hP
    have h8 : P.2 = (if endB plane delta radius < 0 then -1 else 1) *
        √(startDist plane radius ^ 2 - P.1 ^ 2) := rfl
    rw [h8, mul_pow, Real.sq_sqrt hq]
    have h9 : ((if endB plane delta radius < 0 then -1 else 1 : ℝ)) ^ 2 = 1 := by split <;> norm_num
    rw [h9, one_mul, add_sub_cancel, Real.sqrt_sq h0]

/-- When the end lies on the circle and on an axis or a diagonal through the centre, it is found. -/
theorem circleEnd_good {pos ce : V4 ℝ} {rot : Rot}
    (h : circleEnd c plane delta radius pos rot = .ok ce)
    (hc : endDist plane delta radius = startDist plane radius)
    (hs : endA plane delta radius = 0 ∨ endB plane delta radius = 0 ∨
      |endA plane delta radius| = |endB plane delta radius| ∨
      (delta.get (axisA plane) = 0 ∧ delta.get (axisB plane) = 0)) : ce = delta := by
  obtain ⟨h1, h2, h3, ⟨_, _, rfl⟩ | ⟨hn, h4, h5⟩⟩ := circleEnd_ok h
  · rfl
  · have hsq : endA plane delta radius ^ 2 + endB plane delta radius ^ 2 = startDist plane radius ^ 2 := by
      rw [← hc, endDist, Real.sq_sqrt (by positivity)]
    rcases hs with hs | hs | hs | ⟨z1, z2⟩
    · rw [circlePoint_good hsq (.inl hs)] at h4 h5
      apply V4.ext_get
      intro ax
      simp only [endA, endB] at h4 h5
      rcases axis_cases plane ax with rfl | rfl | rfl | rfl
      · rw [h4]; ring
      · rw [h5]; ring
      · exact h2
      · exact h3
    · rw [circlePoint_good hsq (.inr (.inl hs))] at h4 h5
      apply V4.ext_get
      intro ax
      simp only [endA, endB] at h4 h5
      rcases axis_cases plane ax with rfl | rfl | rfl | rfl
      · rw [h4]; ring
      · rw [h5]; ring
      · exact h2
      · exact h3
    · rw [circlePoint_good hsq (.inr (.inr hs))] at h4 h5
      apply V4.ext_get
      intro ax
      simp only [endA, endB] at h4 h5
      rcases axis_cases plane ax with rfl | rfl | rfl | rfl
      · rw [h4]; ring
      · rw [h5]; ring
      · exact h2
      · exact h3
    · exact absurd ⟨z1, z2⟩ hn

end PyCNC
