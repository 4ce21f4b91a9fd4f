import Verif.Lemmas.ArcRun
import Verif.Lemmas.LinearFacts
import Mathlib.Analysis.SpecialFunctions.Trigonometric.Bounds
import Mathlib.Analysis.Real.Pi.Bounds

/-!
# The constructor of circular generators succeeds for ordinary arcs
-/

set_option linter.unusedSectionVars false

namespace PyCNC

open Spec Real

variable [PyRound]

/-- The facts of `NewFacts` hold for the generator that the constructor makes of any velocities. -/
theorem mk_facts {F : Type} [PyNum F] {c : Cfg} {delta radius : V4 F} {plane : Plane} {rot : Rot}
    {φs φe : F} (h1 : angle (arcSA plane radius) (arcSB plane radius) = .ok φs)
    (h2 : angle (arcEA plane delta radius) (arcEB plane delta radius) = .ok φe)
    (he : arcEndOk c delta radius plane = true) (v3 vE rd : F) (mV : V4 F) (aT lT : F) :
    NewFacts c delta radius plane rot
      (arcMk c delta radius plane rot φs φe v3 vE rd mV aT lT) φs φe :=
  ⟨rfl, rfl, rfl, h1, h2, he, rfl, rfl, rfl, rfl, rfl, rfl, rfl, rfl, rfl, rfl, rfl,
    rfl, rfl, rfl, rfl⟩

theorem coarse_eq (c : Cfg) (plane : Plane) : arcMpm c plane = coarse c plane := arcMpm_eq c plane

/-! ## The turn -/

theorem turn_bounds {rot : Rot} {φs φe : ℝ} (s0 : 0 ≤ φs) (s1 : φs < 2 * π) (e0 : 0 ≤ φe)
    (e1 : φe < 2 * π) : 0 < |arcTurn rot φs φe| ∧ |arcTurn rot φs φe| ≤ 2 * π ∧
      cos |arcTurn rot φs φe| = cos (φe - φs) ∧ (φs = φe → |arcTurn rot φs φe| = 2 * π) := by
  have hpi := pi_pos
  unfold arcTurn
  simp only [sub_eq, ofRat_eq, pi_eq, mul_eq, add_eq, zeroF_eq, Rat.cast_ofNat, Bool.or_eq_true,
    lt_iff, Bool.and_eq_true, eq_iff, decide_eq_true_eq]
  have hc : ∀ x : ℝ, cos (x + 2 * π) = cos x := cos_add_two_pi
  have hc' : ∀ x : ℝ, cos (x - 2 * π) = cos x := cos_sub_two_pi
  cases rot
  · simp only [reduceCtorEq, if_false, and_true]
    split
    · next h =>
      have h' : φe - φs ≤ 0 := by rcases h with h | h <;> linarith
      rw [abs_of_pos (by linarith), hc]
      exact ⟨by linarith, by linarith, rfl, fun h => by rw [h]; ring⟩
    · next h =>
      have h' : 0 < φe - φs := by
        rcases lt_trichotomy (φe - φs) 0 with h1 | h1 | h1
        · exact absurd (.inl h1) h
        · exact absurd (.inr h1) h
        · exact h1
      rw [abs_of_pos h']
      exact ⟨by linarith, by linarith, rfl, fun h => by linarith⟩
  · simp only [reduceCtorEq, if_true, and_false, or_false]
    split
    · next h =>
      rw [add_sub_cancel_right, abs_of_neg h, cos_neg]
      exact ⟨by linarith, by linarith, rfl, fun h => by linarith⟩
    · next h =>
      push Not at h
      rw [abs_of_neg (by linarith), cos_neg, hc']
      exact ⟨by linarith, by linarith, rfl, fun h => by rw [h]; ring⟩

/-- The chord bounds the turn from below. -/
theorem chord_turn {r r' φs φe t : ℝ} (hr : 0 ≤ r) (hr' : 0 ≤ r') (ht : cos t = cos (φe - φs)) :
    (r' * sin φe - r * sin φs) ^ 2 + (r' * cos φe - r * cos φs) ^ 2 - (r - r') ^ 2 ≤ r * r' * t ^ 2 := by
  have h1 := one_sub_sq_div_two_le_cos (x := t)
  rw [ht, cos_sub] at h1
  have h2 := sin_sq_add_cos_sq φs
  have h3 := sin_sq_add_cos_sq φe
  have h4 : (r' * sin φe - r * sin φs) ^ 2 + (r' * cos φe - r * cos φs) ^ 2 =
      r' ^ 2 * (sin φe ^ 2 + cos φe ^ 2) + r ^ 2 * (sin φs ^ 2 + cos φs ^ 2) -
        2 * (r * r') * (cos φe * cos φs + sin φe * sin φs) := by ring
  rw [h4, h2, h3]
  have : 0 ≤ r * r' := mul_nonneg hr hr'
  nlinarith

section Ordinary

variable {c : Cfg} {delta radius : V4 ℝ} {plane : Plane} {v : ℝ}

/-- What the constructor needs to succeed. -/
structure SizedArc (c : Cfg) (delta radius : V4 ℝ) (plane : Plane) (v : ℝ) : Prop where
  posA : 0 < c.ppm.get (axisA plane)
  posB : 0 < c.ppm.get (axisB plane)
  big : 1 ≤ startDist plane radius * coarse c plane
  ends : PyRound.rnd (endDist plane delta radius * coarse c plane) =
    PyRound.rnd (startDist plane radius * coarse c plane)
  size : startDist plane radius ≤ 1000
  le3 : |delta.get (axis3 plane)| ≤ 1000
  leE : |delta.e| ≤ 1000
  ge3 : delta.get (axis3 plane) ≠ 0 → 1 / 1000 ≤ |delta.get (axis3 plane)|
  geE : delta.e ≠ 0 → 1 / 1000 ≤ |delta.e|
  helix : (delta.get (axis3 plane) = 0 ∧ delta.e = 0) ∨
    (delta.get (axisA plane) = 0 ∧ delta.get (axisB plane) = 0) ∨
    ∃ P : ℝ, 0 < P ∧ P ≤ 1000 ∧
      (startDist plane radius - endDist plane delta radius) ^ 2 ≤ (1 / P) ^ 2 ∧
      (2 / P) ^ 2 ≤ delta.get (axisA plane) ^ 2 + delta.get (axisB plane) ^ 2
  feed : 1 ≤ v

theorem dist_coarse (h : OrdinaryArc c delta radius plane v) :
    1 ≤ startDist plane radius * coarse c plane := by
  have hg := h.grid
  have hp : (0 : ℝ) < c.ppm.get (axisA plane) := by exact_mod_cast hg.posA
  have hq : (0 : ℝ) < c.ppm.get (axisB plane) := by exact_mod_cast hg.posB
  have hpos : 0 < startDist plane radius := lt_of_le_of_ne (Real.sqrt_nonneg _) (Ne.symm h.start)
  have hint : ∀ n : ℤ, (0 : ℝ) < n → (1 : ℝ) ≤ n := fun n hn => by
    have : (0 : ℤ) < n := by exact_mod_cast hn
    exact_mod_cast this
  rcases hg.fit with heq | ⟨⟨nA, hnA⟩, ⟨nB, hnB⟩, _⟩
  · have hm : coarse c plane = c.ppm.get (axisA plane) := by rw [coarse, ← heq, min_self]
    rw [hm]
    have key : ∀ {x : ℝ} {n : ℤ}, x * c.ppm.get (axisA plane) = n → x ≠ 0 →
        |x| ≤ startDist plane radius → 1 ≤ startDist plane radius * c.ppm.get (axisA plane) := by
      intro x n h1 h2 h3
      have h4 := on_abs hp h1
      have h5 : (1 : ℝ) ≤ (|n| : ℤ) := hint _ (by rw [← h4]; positivity)
      rw [← h4] at h5
      exact h5.trans (by gcongr)
    have hsA : |startA plane radius| ≤ startDist plane radius :=
      Real.abs_le_sqrt (by nlinarith [sq_nonneg (startB plane radius)])
    have hsB : |startB plane radius| ≤ startDist plane radius :=
      Real.abs_le_sqrt (by nlinarith [sq_nonneg (startA plane radius)])
    by_cases h0 : startA plane radius = 0
    · by_cases h1 : startB plane radius = 0
      · exfalso; apply h.start; unfold startDist; rw [h0, h1]; simp
      · obtain ⟨n, hn⟩ := hg.radB
        rw [← heq] at hn
        exact key (n := -n) (x := startB plane radius)
          (by unfold startB; push_cast; linarith) h1 hsB
    · obtain ⟨n, hn⟩ := hg.radA
      exact key (n := -n) (x := startA plane radius)
        (by unfold startA; push_cast; linarith) h0 hsA
  · unfold coarse
    rcases min_choice (c.ppm.get (axisA plane)) (c.ppm.get (axisB plane)) with e | e <;> rw [e]
    · rw [hnA]; exact hint _ (by rw [← hnA]; positivity)
    · rw [hnB]; exact hint _ (by rw [← hnB]; positivity)

theorem coarse_pos (h : SizedArc c delta radius plane v) : 0 < coarse c plane :=
  lt_min h.posA h.posB

theorem endDist_ne (h : SizedArc c delta radius plane v) : endDist plane delta radius ≠ 0 := by
  intro h0
  have h1 := h.ends
  have h2 := h.big
  rw [h0, zero_mul, rnd_zero] at h1
  have h3 : PyRound.rnd (1 : ℝ) ≤ PyRound.rnd (startDist plane radius * coarse c plane) := rnd_mono h2
  have h4 : PyRound.rnd (1 : ℝ) = 1 := by simpa using rnd_int 1
  omega

/-- The radius in the computation: at least one step, and near the distances of start and end. -/
theorem rad_near (h : SizedArc c delta radius plane v) :
    1 ≤ arcRad (arcMpm c plane) plane radius * (coarse c plane : ℝ) ∧
    |arcRad (arcMpm c plane) plane radius - startDist plane radius| ≤ 1 / 2 / coarse c plane ∧
    |arcRad (arcMpm c plane) plane radius - endDist plane delta radius| ≤ 1 / 2 / coarse c plane := by
  have hm : (0 : ℝ) < coarse c plane := by exact_mod_cast coarse_pos h
  have h2 := h.big
  have h3 : PyRound.rnd (1 : ℝ) ≤ PyRound.rnd (startDist plane radius * coarse c plane) := rnd_mono h2
  have h4 : PyRound.rnd (1 : ℝ) = 1 := by simpa using rnd_int 1
  rw [arcRad_eq, coarse_eq]
  have key : ∀ x : ℝ, |(PyRound.rnd (x * coarse c plane) : ℝ) / coarse c plane - x| ≤
      1 / 2 / coarse c plane := by
    intro x
    have := PyRound.near (x * coarse c plane)
    have e : (PyRound.rnd (x * coarse c plane) : ℝ) / coarse c plane - x =
        (PyRound.rnd (x * coarse c plane) - x * coarse c plane) / coarse c plane := by
      field_simp
    rw [e, abs_div, abs_of_pos hm]
    gcongr
  refine ⟨?_, key _, ?_⟩
  · rw [div_mul_cancel₀ _ hm.ne']
    exact_mod_cast h4 ▸ h3
  · rw [← h.ends]; exact key _

/-- The pieces before the velocities. -/
theorem angles_ok (h : SizedArc c delta radius plane v) : ∃ φs φe,
    angle (arcSA plane radius) (arcSB plane radius) = .ok φs ∧
    angle (arcEA plane delta radius) (arcEB plane delta radius) = .ok φe ∧
    arcEndOk c delta radius plane = true := by
  have h1 : arcSA plane radius ^ 2 + arcSB plane radius ^ 2 ≠ 0 := by
    rw [arcSA_eq, arcSB_eq]; intro h0; have h3 := h.big; unfold startDist at h3; rw [h0, Real.sqrt_zero] at h3; norm_num at h3
  have h2 : arcEA plane delta radius ^ 2 + arcEB plane delta radius ^ 2 ≠ 0 := by
    rw [arcEA_eq, arcEB_eq]; intro h0; apply endDist_ne h; unfold endDist; rw [h0, Real.sqrt_zero]
  obtain ⟨φs, hs, _⟩ := angle_spec h1
  obtain ⟨φe, he, _⟩ := angle_spec h2
  refine ⟨φs, φe, hs, he, (arcEndOk_eq c delta radius plane ?_).2 ?_⟩
  · rw [coarse_eq]; exact (coarse_pos h).ne'
  · rw [coarse_eq]; exact h.ends

omit [PyRound] in
theorem len_core {A d e : ℝ} (hA : 0 < A) (hA2 : A ≤ 13000) (hd : |d| ≤ 1000) (he : |e| ≤ 1000) :
    A ≤ √(A ^ 2 + d ^ 2 + e ^ 2) ∧ |d| ≤ √(A ^ 2 + d ^ 2 + e ^ 2) ∧
    |e| ≤ √(A ^ 2 + d ^ 2 + e ^ 2) ∧ √(A ^ 2 + d ^ 2 + e ^ 2) ≤ 15000 := by
  have h5 : d ^ 2 ≤ 1000 ^ 2 := sq_le_sq' (by linarith [(abs_le.1 hd).1]) (abs_le.1 hd).2
  have h6 : e ^ 2 ≤ 1000 ^ 2 := sq_le_sq' (by linarith [(abs_le.1 he).1]) (abs_le.1 he).2
  have h7 : A ^ 2 ≤ 13000 ^ 2 := by gcongr
  have p1 := sq_nonneg A
  have p2 := sq_nonneg d
  have p3 := sq_nonneg e
  refine ⟨(le_abs_self _).trans (Real.abs_le_sqrt (by linarith)), Real.abs_le_sqrt (by linarith),
    Real.abs_le_sqrt (by linarith), Real.sqrt_le_iff.2 ⟨by norm_num, by norm_num at *; linarith⟩⟩

omit [PyRound] in
theorem turn_core {r r' t rad P C : ℝ} (hr' : 0 ≤ r') (ht : 0 ≤ t)
    (hrad : 0 < rad) (h1 : r ≤ 3 / 2 * rad) (h2 : r' ≤ 3 / 2 * rad) (hk : C - (r - r') ^ 2 ≤ r * r' * t ^ 2)
    (hC : (2 / P) ^ 2 ≤ C) (hd : (r - r') ^ 2 ≤ (1 / P) ^ 2) : 1 / P ≤ t * rad := by
  have h5 : 3 * (1 / P) ^ 2 ≤ r * r' * t ^ 2 := by
    have : (2 / P) ^ 2 = 4 * (1 / P) ^ 2 := by ring
    linarith
  have h6 : r * r' ≤ 9 / 4 * rad ^ 2 := by
    calc r * r' ≤ (3 / 2 * rad) * (3 / 2 * rad) := by gcongr
      _ = 9 / 4 * rad ^ 2 := by ring
  have h7 : (1 / P) ^ 2 ≤ (t * rad) ^ 2 := by
    rw [mul_pow]
    have h8 : r * r' * t ^ 2 ≤ 9 / 4 * rad ^ 2 * t ^ 2 := by gcongr
    have h9 : 0 ≤ (1 / P) ^ 2 := sq_nonneg _
    linarith
  exact le_of_sq_le_sq h7 (by positivity)

/-- Arc length and whole length. -/
theorem lengths (hc : SaneCfg c) (h : SizedArc c delta radius plane v) {rot : Rot} {φs φe : ℝ}
    (hs : angle (arcSA plane radius) (arcSB plane radius) = .ok φs)
    (he : angle (arcEA plane delta radius) (arcEB plane delta radius) = .ok φe) :
    0 < arcArc c radius plane rot φs φe ∧ 0 < arcFull c delta radius plane rot φs φe ∧
    1 / 15000000 ≤ arcArc c radius plane rot φs φe / arcFull c delta radius plane rot φs φe ∧
    (delta.get (axis3 plane) ≠ 0 →
      1 / 15000000 ≤ |delta.get (axis3 plane)| / arcFull c delta radius plane rot φs φe) ∧
    (delta.e ≠ 0 → 1 / 15000000 ≤ |delta.e| / arcFull c delta radius plane rot φs φe) ∧
    arcArc c radius plane rot φs φe ≤ arcFull c delta radius plane rot φs φe ∧
    |delta.get (axis3 plane)| ≤ arcFull c delta radius plane rot φs φe ∧
    |delta.e| ≤ arcFull c delta radius plane rot φs φe := by
  obtain ⟨s0, s1, sA, sB, sr⟩ := angle_ok hs
  obtain ⟨e0, e1, eA, eB, er⟩ := angle_ok he
  obtain ⟨t0, t1, t2, t3⟩ := turn_bounds (rot := rot) s0 s1 e0 e1
  obtain ⟨n1, n2, n3⟩ := rad_near h
  have hm : (0 : ℝ) < coarse c plane := by exact_mod_cast coarse_pos h
  have hd := h.big
  have hp1000 : (c.ppm.get (axisA plane) : ℝ) ≤ 1000 := by exact_mod_cast hc.ppm_le _
  have hmp : (coarse c plane : ℝ) ≤ c.ppm.get (axisA plane) := by
    exact_mod_cast min_le_left _ _
  simp only [arcSA_eq, arcSB_eq, show √(startA plane radius ^ 2 + startB plane radius ^ 2) =
    startDist plane radius from rfl] at sA sB sr
  simp only [arcEA_eq, arcEB_eq, show √(endA plane delta radius ^ 2 + endB plane delta radius ^ 2) =
    endDist plane delta radius from rfl] at eA eB er
  have harc : arcArc c radius plane rot φs φe = |arcTurn rot φs φe| *
      arcRad (arcMpm c plane) plane radius := by simp [arcArc]
  have hfull : arcFull c delta radius plane rot φs φe =
      √(arcArc c radius plane rot φs φe ^ 2 + delta.get (axis3 plane) ^ 2 + delta.e ^ 2) := by
    simp [arcFull, planeAxes_eq, pow_two]
  set t := |arcTurn rot φs φe| with ht
  set rad := arcRad (arcMpm c plane) plane radius with hrad
  set r := startDist plane radius with hr
  set r' := endDist plane delta radius with hr'
  set m : ℝ := (coarse c plane : ℝ) with hmd
  set d3 := delta.get (axis3 plane) with hd3
  have hinv : 1 / m ≤ rad := by rw [div_le_iff₀ hm]; exact n1
  have hrad0 : 0 < rad := lt_of_lt_of_le (by positivity) hinv
  have half : 1 / 2 / m = 1 / m / 2 := by ring
  rw [half] at n2 n3
  rw [abs_le] at n2 n3
  have hinv2 : 1 / m ≤ r := by rw [div_le_iff₀ hm]; exact hd
  have radle : rad ≤ 2000 := by have := h.size; linarith [n2.1]
  have rle : r ≤ 3 / 2 * rad := by linarith [n2.2]
  have rle' : r' ≤ 3 / 2 * rad := by linarith [n3.2]
  set A := arcArc c radius plane rot φs φe with hA
  set L := arcFull c delta radius plane rot φs φe with hL
  have hApos : 0 < A := by rw [harc]; positivity
  have hpi4 := pi_lt_d2
  have hAle : A ≤ 13000 := by
    rw [harc]
    calc t * rad ≤ (2 * π) * 2000 := by gcongr
      _ ≤ 13000 := by linarith
  obtain ⟨hLA, hL3, hLE, hLup⟩ := len_core hApos hAle h.le3 h.leE
  rw [← hfull] at hLA hL3 hLE hLup
  have hLpos : 0 < L := lt_of_lt_of_le hApos hLA
  have low : ∀ x : ℝ, 1 / 1000 ≤ x → 1 / 15000000 ≤ x / L := fun x hx => by
    rw [le_div_iff₀ hLpos]; linarith
  refine ⟨hApos, hLpos, ?_, fun h3 => low _ (h.ge3 h3), fun h3 => low _ (h.geE h3), hLA, hL3, hLE⟩
  rcases h.helix with ⟨z3, zE⟩ | ⟨zA, zB⟩ | ⟨P, hp, hP1000, hdiff, hch⟩
  · have : L = A := by
      rw [hfull, hd3, z3, zE]; simp only [ne_eq, OfNat.ofNat_ne_zero, not_false_eq_true, zero_pow, add_zero]
      exact Real.sqrt_sq hApos.le
    rw [this, div_self hApos.ne']; norm_num
  · have : φs = φe := by
      have ea : arcEA plane delta radius = arcSA plane radius := by
        rw [arcEA_eq, arcSA_eq, endA, startA, zA]; ring
      have eb : arcEB plane delta radius = arcSB plane radius := by
        rw [arcEB_eq, arcSB_eq, endB, startB, zB]; ring
      rw [ea, eb, hs] at he
      cases he; rfl
    refine low _ ?_
    rw [harc, t3 this]
    have h4 : 1 / 1000 ≤ 1 / m := by
      apply one_div_le_one_div_of_le hm; linarith
    have := pi_gt_three
    nlinarith
  · refine low _ ?_
    have hk := chord_turn (r := r) (r' := r') sr.le er.le t2
    rw [← eA, ← eB, ← sA, ← sB] at hk
    have e1 : endA plane delta radius - startA plane radius = delta.get (axisA plane) := by
      unfold endA startA; ring
    have e2 : endB plane delta radius - startB plane radius = delta.get (axisB plane) := by
      unfold endB startB; ring
    rw [e1, e2] at hk
    have h8 : 1 / P ≤ A := by
      rw [harc]
      exact turn_core er.le t0.le hrad0 rle rle' hk hch hdiff
    have h9 : 1 / 1000 ≤ 1 / P := one_div_le_one_div_of_le hp hP1000
    linarith

/-! ## Velocities -/

theorem get_planeVel (p : Plane) (a b e : ℝ) :
    (planeVel p a b e).get (axisA p) = PyNum.round10 a ∧
    (planeVel p a b e).get (axisB p) = PyNum.round10 a ∧
    (planeVel p a b e).get (axis3 p) = PyNum.round10 b ∧
    (planeVel p a b e).get .e = PyNum.round10 e := by
  cases p <;> exact ⟨rfl, rfl, rfl, rfl⟩

theorem axis_cases (p : Plane) (ax : Axis) :
    ax = axisA p ∨ ax = axisB p ∨ ax = axis3 p ∨ ax = .e := by
  cases p <;> cases ax <;> simp [axisA, axisB, axis3]

/-- The relative speed of an axis. -/
noncomputable def arcShare (c : Cfg) (delta radius : V4 ℝ) (plane : Plane) (rot : Rot) (φs φe : ℝ) (ax : Axis) : ℝ :=
  if ax = axisA plane ∨ ax = axisB plane then
    arcArc c radius plane rot φs φe / arcFull c delta radius plane rot φs φe
  else |delta.get ax| / arcFull c delta radius plane rot φs φe

/-- The velocities: proportional to the shares up to rounding, positive where there is motion. -/
theorem arc_vel (hc : SaneCfg c) (h : SizedArc c delta radius plane v) {rot : Rot} {φs φe : ℝ}
    (hs : angle (arcSA plane radius) (arcSB plane radius) = .ok φs)
    (he : angle (arcEA plane delta radius) (arcEB plane delta radius) = .ok φe) :
    ∃ maxV, adjustVelocity c (arcVel c delta radius plane rot v φs φe) = .ok maxV ∧
      (∀ ax, 0 ≤ maxV.get ax) ∧ 0 < maxV.get (axisA plane) ∧ 0 < maxV.get (axisB plane) ∧
      (delta.get (axis3 plane) ≠ 0 → 0 < maxV.get (axis3 plane)) ∧
      (delta.e ≠ 0 → 0 < maxV.get .e) := by
  obtain ⟨l1, l2, l3, l4, l5, l6, l7, l8⟩ := lengths hc h (rot := rot) hs he
  set A := arcArc c radius plane rot φs φe with hA
  set L := arcFull c delta radius plane rot φs φe with hL
  have hv := h.feed
  set w := arcVel c delta radius plane rot v φs φe with hw
  have hwA : ∀ ax, w.get ax = PyNum.round10
      (arcShare c delta radius plane rot φs φe ax * (v / 60)) := by
    intro ax
    obtain ⟨g1, g2, g3, g4⟩ := get_planeVel plane (A / L * (v / 60))
      (|delta.get (axis3 plane)| / L * (v / 60)) (|delta.e| / L * (v / 60))
    have hw' : w = planeVel plane (A / L * (v / 60)) (|delta.get (axis3 plane)| / L * (v / 60))
        (|delta.e| / L * (v / 60)) := by
      have hne : ¬ ((L =ₚ zeroF) = true) := by simpa using l2.ne'
      rw [hw, arcVel]
      simp only [← hL, ← hA, if_neg hne, planeAxes_eq, abs_eq, div_eq, mul_eq, secInMin_eq]
    rw [hw']
    rcases axis_cases plane ax with rfl | rfl | rfl | rfl
    · rw [g1, arcShare, if_pos (.inl rfl)]
    · rw [g2, arcShare, if_pos (.inr rfl)]
    · rw [g3, arcShare, if_neg (by simp [axis3_ne_a, axis3_ne_b])]
    · rw [g4, arcShare, if_neg (by simp [axisE_ne_a, axisE_ne_b])]; rfl
  set ρ := arcShare c delta radius plane rot φs φe with hρ
  have hρ0 : ∀ ax, 0 ≤ ρ ax ∧ ρ ax ≤ 1 := by
    intro ax
    rw [hρ]; unfold arcShare
    split
    · exact ⟨by positivity, (div_le_one l2).2 l6⟩
    · next hx =>
      refine ⟨by positivity, (div_le_one l2).2 ?_⟩
      rcases axis_cases plane ax with rfl | rfl | rfl | rfl
      · exact absurd (.inl rfl) hx
      · exact absurd (.inr rfl) hx
      · exact l7
      · exact l8
  have hE : (1 : ℝ) / 2 / E10 = 1 / 2 / 10 ^ 10 := rfl
  have hw0 : ∀ ax, 0 ≤ w.get ax := fun ax => by
    rw [hwA]; exact round10_nonneg (mul_nonneg (hρ0 ax).1 (by linarith))
  have hnear : ∀ ax, |w.get ax - ρ ax * (v / 60)| ≤ 1 / 2 / 10 ^ 10 := fun ax => by
    rw [hwA, ← hE]; exact round10_near _
  have hwle : ∀ ax, w.get ax ≤ 2 * (v / 60) := fun ax => by
    have h1 := (abs_le.1 (hnear ax)).2
    have h2 : ρ ax * (v / 60) ≤ 1 * (v / 60) := by
      have := (hρ0 ax).2
      gcongr
    norm_num at h1
    linarith
  have hlow : ∀ ax, 1 / 15000000 ≤ ρ ax → ρ ax * (v / 60) / 2 ≤ w.get ax := fun ax hx => by
    have h1 := (abs_le.1 (hnear ax)).1
    have h2 : 1 / 15000000 * (1 / 60) ≤ ρ ax * (v / 60) := by gcongr
    norm_num at h1 h2
    linarith
  have posr : ∀ x : ℝ, 1 / (2 * 10 ^ 9) ≤ x → 0 < PyNum.round10 x := fun x hx => by
    have h1 := (abs_le.1 (round10_near x)).1
    rw [hE] at h1
    generalize PyNum.round10 x = y at *
    norm_num at h1 hx
    linarith
  have fin : ∀ maxV : V4 ℝ, (∀ ax, 0 ≤ maxV.get ax) →
      (∀ ax, 1 / 15000000 ≤ ρ ax → 0 < maxV.get ax) →
      (∀ ax, 0 ≤ maxV.get ax) ∧ 0 < maxV.get (axisA plane) ∧ 0 < maxV.get (axisB plane) ∧
      (delta.get (axis3 plane) ≠ 0 → 0 < maxV.get (axis3 plane)) ∧
      (delta.e ≠ 0 → 0 < maxV.get .e) := by
    intro maxV h1 h2
    refine ⟨h1, h2 _ ?_, h2 _ ?_, fun h3 => h2 _ ?_, fun h3 => h2 _ ?_⟩
    · rw [hρ, arcShare, if_pos (.inl rfl)]; exact l3
    · rw [hρ, arcShare, if_pos (.inr rfl)]; exact l3
    · rw [hρ, arcShare, if_neg (by simp [axis3_ne_a, axis3_ne_b])]; exact l4 h3
    · rw [hρ, arcShare, if_neg (by simp [axisE_ne_a, axisE_ne_b])]; exact l5 h3
  by_cases ha : c.autoVel = true
  · have hM : ∀ ax, 0 < c.maxVel.get ax := fun ax => lt_of_lt_of_le (by norm_num) (hc.maxVel ax)
    obtain ⟨κ, k1, k2, k3, k4, k5⟩ := adjustVelocity_ok hM hw0 ha
    refine ⟨_, k1, fin _ (fun ax => ?_) fun ax hx => ?_⟩
    · rw [get_smul]; exact round10_nonneg (mul_nonneg (hw0 ax) k2.le)
    · rw [get_smul]
      refine posr _ ?_
      have h1 := hlow ax hx
      have hx' : 1 / 15000000 * (1 / 60) ≤ ρ ax * (v / 60) := by gcongr
      rcases k5 with rfl | ⟨ax', k6, rfl⟩
      · norm_num at hx' ⊢; linarith
      · have hM' : (60 : ℝ) ≤ c.maxVel.get ax' := by exact_mod_cast hc.maxVel ax'
        have hwp : 0 < w.get ax' := by nlinarith [hw0 ax']
        have h2 := hwle ax'
        have h3 : 1 / (2 * (v / 60)) ≤ c.maxVel.get ax' / w.get ax' / 60 := by
          rw [div_div, div_le_div_iff₀ (by linarith) (by positivity)]
          nlinarith
        calc (1 : ℝ) / (2 * 10 ^ 9) ≤ 1 / 15000000 / 4 := by norm_num
          _ ≤ ρ ax / 4 := by gcongr
          _ = ρ ax * (v / 60) / 2 * (1 / (2 * (v / 60))) := by
            have : v ≠ 0 := by linarith
            field_simp; norm_num
          _ ≤ w.get ax * (c.maxVel.get ax' / w.get ax' / 60) := by
            have := hw0 ax
            gcongr
  · refine ⟨w, ?_, fin _ hw0 fun ax hx => ?_⟩
    · unfold adjustVelocity
      rw [if_pos (by simpa using ha)]; rfl
    · have h1 := hlow ax hx
      have hx' : 1 / 15000000 * (1 / 60) ≤ ρ ax * (v / 60) := by gcongr
      norm_num at hx'; linarith

/-- The constructor succeeds. -/
theorem arc_new (hc : SaneCfg c) (h : SizedArc c delta radius plane v) (rot : Rot) :
    ∃ g φs φe, CircGen.new c delta radius plane rot v = .ok g ∧ CircBase c g ∧
      NewFacts c delta radius plane rot g φs φe := by
  obtain ⟨φs, φe, hs, he, hend⟩ := angles_ok h
  obtain ⟨l1, l2, -⟩ := lengths hc h (rot := rot) hs he
  obtain ⟨maxV, h1, h2, h3, h4, h5, h6⟩ := arc_vel hc h (rot := rot) hs he
  have ha : (0 : ℝ) < c.accel := by
    have : (1 : ℝ) ≤ c.accel := by exact_mod_cast hc.accel
    linarith
  have hcirc : 0 < arcCirc plane maxV := by
    rw [arcCirc, planeAxes_eq, pmin_eq]; exact lt_min h3 h4
  have hfm : 0 < Coord.findMax maxV := lt_of_lt_of_le h3 (le_findMax _ _)
  obtain ⟨n1, n2, n3⟩ := rad_near h
  have hm : (0 : ℝ) < coarse c plane := by exact_mod_cast coarse_pos h
  have hrad : 0 < arcRad (arcMpm c plane) plane radius := by
    by_contra hx
    push Not at hx
    nlinarith
  -- the times
  have ht : ∃ mV aT lT, arcTimes c delta radius plane rot φs φe maxV
        (arcRad (arcMpm c plane) plane radius / arcCirc plane maxV) =
      .ok (arcMk c delta radius plane rot φs φe (planeAxes plane maxV).2.2 maxV.e
        (arcRad (arcMpm c plane) plane radius / arcCirc plane maxV) mV aT lT) ∧ 0 ≤ aT ∧
      0 ≤ Coord.findMax mV := by
    unfold arcTimes
    have hne : ¬ ((arcFull c delta radius plane rot φs φe =ₚ zeroF) = true) := by
      simpa using l2.ne'
    simp only [if_neg hne]
    split
    · have hsq : 0 < PyNum.sqrt (arcFull c delta radius plane rot φs φe /ₚ PyNum.ofRat c.accel) := by
        simp only [sqrt_eq, div_eq, ofRat_eq]; positivity
      rw [pdiv_ok hsq.ne']
      refine ⟨_, _, _, rfl, hsq.le, ?_⟩
      refine le_trans ?_ (le_findMax _ (axisA plane))
      have : ∀ f : ℝ → ℝ, (maxV.map f).get (axisA plane) = f (maxV.get (axisA plane)) := by
        cases plane <;> intro f <;> rfl
      rw [this, if_pos (by simpa using h3)]
      positivity
    · have hsq : 0 < PyNum.sqrt (arcCirc plane maxV *ₚ arcCirc plane maxV +ₚ
          (planeAxes plane maxV).2.2 *ₚ (planeAxes plane maxV).2.2 +ₚ maxV.e *ₚ maxV.e) := by
        simp only [sqrt_eq, add_eq, mul_eq]
        refine Real.sqrt_pos.2 ?_
        nlinarith [mul_pos hcirc hcirc, mul_self_nonneg (planeAxes plane maxV).2.2,
          mul_self_nonneg maxV.e]
      rw [pdiv_ok hsq.ne']
      refine ⟨_, _, _, rfl, ?_, hfm.le⟩
      simp only [div_eq, ofRat_eq]; positivity
  obtain ⟨mV, aT, lT, ht, haT, hmV⟩ := ht
  set g := arcMk c delta radius plane rot φs φe (planeAxes plane maxV).2.2 maxV.e
    (arcRad (arcMpm c plane) plane radius / arcCirc plane maxV) mV aT lT with hg
  have hnew : CircGen.new c delta radius plane rot v = .ok g := by
    rw [new_eq, hend]
    simp only [Bool.not_true, Bool.false_eq_true, if_false, hs, he, Except.bind, h1]
    rw [pdiv_ok hcirc.ne']
    exact ht
  have hf : NewFacts c delta radius plane rot g φs φe := mk_facts hs he hend _ _ _ _ _ _
  obtain ⟨s0, s1, -⟩ := angle_ok hs
  refine ⟨g, φs, φe, hnew, ⟨hc.ppm_pos, (div_pos hrad hcirc).le, ⟨s0, s1⟩, abs_nonneg _, ?_, ?_, ?_,
    haT⟩, hf⟩
  · intro hx
    rw [hf.it3, planeAxes_eq] at hx
    have : delta.get (axis3 plane) ≠ 0 := by
      intro h0; simp [h0] at hx
    have := h5 this
    change 0 < (planeAxes plane maxV).2.2
    rw [planeAxes_eq]; exact this
  · intro hx
    rw [hf.itE] at hx
    have : delta.e ≠ 0 := by
      intro h0; simp [h0] at hx
    exact h6 this
  · unfold Gen.twoVmaxPerA
    simp only [mul_eq, div_eq, ofRat_eq]
    have : (0 : ℝ) ≤ Coord.findMax (Gen.circular g).maxVSec := hmV
    positivity

theorem ordinary_sized (hc : SaneCfg c) (h : OrdinaryArc c delta radius plane v) :
    SizedArc c delta radius plane v := by
  have hg := h.grid
  have hp : (0 : ℝ) < c.ppm.get (axisA plane) := by exact_mod_cast hg.posA
  have hq : (0 : ℝ) < c.ppm.get (axisB plane) := by exact_mod_cast hg.posB
  have hp1000 : (c.ppm.get (axisA plane) : ℝ) ≤ 1000 := by exact_mod_cast hc.ppm_le _
  have hm : (0 : ℝ) < coarse c plane := by exact_mod_cast lt_min hg.posA hg.posB
  refine ⟨hg.posA, hg.posB, dist_coarse h, h.ends, h.size, h.le3, h.leE, h.ge3, h.geE, ?_, h.feed⟩
  rcases h.helix with hx | hx | hch
  · exact .inl hx
  · exact .inr (.inl hx)
  · refine .inr (.inr ⟨_, hp, hp1000, ?_, hch⟩)
    rcases hg.fit with heq | ⟨_, _, hx⟩
    · have hmP : (coarse c plane : ℝ) = c.ppm.get (axisA plane) := by
        have : coarse c plane = c.ppm.get (axisA plane) := by rw [coarse, ← heq, min_self]
        rw [this]
      have n2 := abs_le.1 (PyRound.near (startDist plane radius * coarse c plane))
      have n3 := abs_le.1 (PyRound.near (endDist plane delta radius * coarse c plane))
      rw [h.ends] at n3
      rw [← hmP, div_pow, le_div_iff₀ (by positivity), ← mul_pow, sub_mul]
      exact sq_le_sq' (by linarith [n2.1, n3.2]) (by linarith [n2.2, n3.1])
    · rw [hx, sub_self, zero_pow two_ne_zero]; exact sq_nonneg _

/-- The constructor succeeds, and the generator can be iterated. -/
theorem arc_good (hc : SaneCfg c) (h : OrdinaryArc c delta radius plane v) (rot : Rot) :
    ∃ g, CircGen.new c delta radius plane rot v = .ok g ∧ CircGood c g ∧ g.plane = plane := by
  obtain ⟨g, φs, φe, hnew, hbase, hf⟩ := arc_new hc (ordinary_sized hc h) rot
  have hs := hf.angS
  have he := hf.angE
  obtain ⟨R, RB, A, B, EA, EB, hi, r1, r2, r3, r4, p1, p2, hits, q1, q2, _, _⟩ := arc_ints h.grid hf
  obtain ⟨s0, s1, sA, sB, sr⟩ := angle_ok hs
  simp only [arcSA_eq, arcSB_eq] at sA sB sr
  have hd := hf.dirs
  have hs' := hs
  have he' := he
  rw [arcSA_eq, arcSB_eq] at hs'
  rw [arcEA_eq, arcEB_eq] at he'
  rw [startDirs_eq sr s0 s1 sA sB hi.hp hi.hq hi.hA hi.hB rot] at hd
  have hdA : g.dirA = _ := congrArg Prod.fst hd
  have hdB : g.dirB = _ := congrArg Prod.snd hd
  have hit : g.itA ≤ 4 * R ∧ g.itB ≤ 4 * RB := by
    rcases its_cases hi hs' he' rot with ⟨_, hx⟩ | ⟨_, _, n, m, hx, b1, b2, b3, b4, _⟩
    · rw [hx] at hits
      have e1 : g.itA = _ := congrArg Prod.fst hits
      have e2 : g.itB = _ := congrArg Prod.snd hits
      exact ⟨e1.le, e2.le⟩
    · rw [hx] at hits
      have e1 : g.itA = turned rot R n := congrArg Prod.fst hits
      have e2 : g.itB = turned rot RB m := congrArg Prod.snd hits
      rw [e1, e2]
      unfold turned
      cases rot <;> simp only <;> omega
  obtain rfl := hf.plane_eq
  refine ⟨g, hnew, ⟨hbase, ⟨R, p1, ?_, ?_⟩, ⟨RB, p2, ?_, ?_⟩⟩, rfl⟩
  · rw [hf.rad2A, planeAxes_eq, arcRad_eq, mul_eq, ← pow_two, q1]
  · rw [r1, r3, hdA]; exact helper_inside hi.rA p1 (dirA_or _ _ _) hit.1
  · rw [hf.rad2B, planeAxes_eq, arcRad_eq, mul_eq, ← pow_two, q2]
  · rw [r2, r4, hdB]; exact helper_inside hi.rB p2 (dirB_or _ _ _) hit.2

end Ordinary

end PyCNC
