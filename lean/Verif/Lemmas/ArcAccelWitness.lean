import Verif.Lemmas.ArcTime
import Verif.Lemmas.LinearWitness
import Verif.Lemmas.ArcMachineWitness
import Mathlib.Analysis.SpecialFunctions.Trigonometric.Bounds
import Mathlib.Analysis.Real.Pi.Bounds

/-!
# Arcs that ask for too much acceleration
-/

set_option linter.unusedSectionVars false

namespace PyCNC

open Spec Real

variable [PyRound]

/-! ## Motions -/

theorem Spec.Motion.neg {a : ℝ} {s v : ℝ → ℝ} (h : Motion a s v) :
    Motion a (fun t => - s t) (fun t => - v t) := by
  refine ⟨fun t => (h.deriv t).neg, fun t₁ t₂ => ?_⟩
  rw [show -v t₁ - -v t₂ = -(v t₁ - v t₂) by ring, abs_neg]
  exact h.accel t₁ t₂

theorem Spec.Motion.reverse {a : ℝ} {s v : ℝ → ℝ} (h : Motion a s v) :
    Motion a (fun t => s (-t)) (fun t => - v (-t)) := by
  refine ⟨fun t => ?_, fun t₁ t₂ => ?_⟩
  · have := (h.deriv (-t)).comp t (hasDerivAt_neg t)
    rw [mul_neg, mul_one] at this
    exact this
  · have := h.accel (-t₁) (-t₂)
    rw [show -v (-t₁) - -v (-t₂) = -(v (-t₁) - v (-t₂)) by ring, abs_neg]
    rwa [show -t₁ - -t₂ = -(t₁ - t₂) by ring, abs_neg] at this

/-- How far a motor gets from rest. -/
theorem Spec.Motion.from_rest {a : ℝ} {s v : ℝ → ℝ} (h : Motion a s v) (s0 : s 0 = 0) (v0 : v 0 = 0)
    {t : ℝ} (ht : 0 ≤ t) : |s t| ≤ a * t ^ 2 / 2 := by
  have h1 := h.lower ht
  have h2 := h.neg.lower ht
  simp only [s0, v0, sub_zero, zero_mul, neg_zero, zero_add, add_zero] at h1 h2
  rw [abs_le]
  constructor <;> linarith

/-- Three points of a motion. -/
theorem Spec.Motion.bend {a : ℝ} {s v : ℝ → ℝ} (h : Motion a s v) (t : ℝ) {d : ℝ} (hd : 0 ≤ d) :
    2 * s t - a * d ^ 2 ≤ s (t - d) + s (t + d) := by
  have h1 := h.lower (x := t) (y := t + d) (by linarith)
  have h2 := h.reverse.lower (x := -t) (y := -(t - d)) (by linarith)
  simp only [neg_neg, add_sub_cancel_left] at h1 h2
  rw [show -(t - d) - -t = d by ring] at h2
  linarith

/-! ## A short arc: a quarter of a circle of radius 1 mm -/

omit [PyRound] in
theorem tiny_dist : startDist .xy ⟨0, -1, 0, 0⟩ = 1 ∧
    endDist .xy ⟨1, -1, 0, 0⟩ ⟨0, -1, 0, 0⟩ = 1 := by
  obtain ⟨s1, s2⟩ := arc_sizes (da := 1) (db := -1) (ra := 0) (rb := -1) (d3 := 0) (e := 0)
  rw [s1, s2]
  norm_num

theorem tiny_arc : OrdinaryArc Cfg.default ⟨1, -1, 0, 0⟩ ⟨0, -1, 0, 0⟩ .xy 12000 := by
  obtain ⟨hs, hd⟩ := tiny_dist
  refine ⟨⟨?_, ?_, ⟨0, ?_⟩, ⟨-100, ?_⟩, ⟨100, ?_⟩, ⟨-100, ?_⟩, .inl rfl⟩, ?_, ?_, ?_, ?_, ?_, ?_,
    ?_, .inl ⟨rfl, rfl⟩, ?_⟩
  any_goals first
    | (rw [hs]; norm_num; done)
    | rw [hs, hd]
    | (simp [axisA, axisB, axis3, V4.get, Cfg.default]; done)
    | (simp only [axisA, axisB, V4.get, Cfg.default]; norm_num)

omit [PyRound] in
theorem tiny_ahead : ¬ BackInQuarter .xy ⟨1, -1, 0, 0⟩ ⟨0, -1, 0, 0⟩ := by
  simp only [BackInQuarter, arcQuarter, startA, startB, endA, endB, axisA, axisB, V4.get]
  norm_num

omit [PyRound] in
theorem tiny_sweep : Sweep .xy ⟨1, -1, 0, 0⟩ ⟨0, -1, 0, 0⟩ .cw (π / 2) := by
  obtain ⟨hs, hd⟩ := tiny_dist
  have := pi_pos
  refine ⟨by linarith, by linarith, ?_, ?_⟩
  · rw [hs, hd]; simp [startA, startB, endA, axisA, axisB, V4.get]
  · rw [hs, hd]; simp [startA, startB, endB, axisA, axisB, V4.get]

/-- An arc with a speed of 200 mm/s on a grid of 1/100 mm. -/
theorem fast_flat (hc : SaneCfg Cfg.default) {delta radius : V4 ℝ} {rot : Rot}
    (h : OrdinaryArc Cfg.default delta radius .xy 12000) (z3 : delta.z = 0) (zE : delta.e = 0)
    {k : ℤ} (hk : startDist .xy radius * 100 = k)
    {g : CircGen ℝ} (hg : CircGen.new Cfg.default delta radius .xy rot 12000 = .ok g) :
    FlatArc Cfg.default .xy radius 12000 g 200 (startDist .xy radius) := by
  obtain ⟨V, ρ, hfl⟩ := flat_arc hc h hg z3 zE
  have hV : V = 200 := by
    have := hfl.slow (default_limits true) (by norm_num [Cfg.default, axisA, V4.get])
      (by norm_num [Cfg.default, axisB, V4.get])
    rw [this, show (12000 / 60 : ℝ) = ((200 : ℤ) : ℝ) by norm_num, round10_grid (Grid.int 200)]
    norm_num
  have hρ : ρ = startDist .xy radius := by
    have := hfl.ppmA
    have hp : ((Cfg.default.ppm.get (axisA .xy) : ℚ) : ℝ) = 100 := by
      norm_num [Cfg.default, axisA, V4.get]
    rw [hp, hk, rnd_int] at this
    linarith
  rw [← hV, ← hρ]
  exact hfl

theorem turn_of {c : Cfg} {delta radius : V4 ℝ} {plane : Plane} {rot : Rot} {v T : ℝ} {g : CircGen ℝ}
    (hg : CircGen.new c delta radius plane rot v = .ok g) (hT : Sweep plane delta radius rot T) :
    g.deltaAngle = T := by
  obtain ⟨φs, φe, hf, hd⟩ := new_turn hg
  rw [hd]
  exact arcTurn_sweep hf.angS hf.angE hT

theorem tiny_fast (hc : SaneCfg Cfg.default) {g : CircGen ℝ}
    (hg : CircGen.new Cfg.default ⟨1, -1, 0, 0⟩ ⟨0, -1, 0, 0⟩ .xy .cw 12000 = .ok g)
    {evs : List (Event ℝ)} (he : Emits Cfg.default (.circular g) evs) {s u : ℝ → ℝ} {ρ : ℝ}
    (hm : Motion Cfg.default.accel s u)
    (hρ : |ρ - startDist .xy ⟨0, -1, 0, 0⟩| ≤ 1 / 2 / coarse Cfg.default .xy) (s0 : s 0 = 0)
    (u0 : u 0 = 0) (hn : ∀ n t, 0 ≤ t → t ≤ (Gen.circular g).totalTime → AtTime evs t n →
      |startB .xy ⟨0, -1, 0, 0⟩ * Cfg.default.ppm.get .y + netSteps Cfg.default .y (evs.take n) -
        turnedB .xy ⟨0, -1, 0, 0⟩ .cw (s t / ρ) * Cfg.default.ppm.get .y| ≤ 2) : False := by
  obtain ⟨hs, hd⟩ := tiny_dist
  have hfl := fast_flat hc tiny_arc rfl rfl (k := 100) (by rw [hs]; norm_num) hg
  rw [hs] at hfl
  obtain ⟨g', hg', hgood, -⟩ := arc_good hc tiny_arc .cw
  obtain rfl : g = g' := Except.ok.inj (hg.symm.trans hg')
  obtain ⟨R, RB, A, B, uA, uB, φ, ht⟩ := arc_tracks tiny_arc.grid hg tiny_ahead
  have hb := hgood.toCircBase
  have hl := lin_nonneg hg
  have hT := turn_of hg tiny_sweep
  have ha : ((Cfg.default.accel : ℚ) : ℝ) = 3000 := by norm_num [Cfg.default]
  have p1 := pi_gt_d4
  have p2 := pi_lt_d4
  norm_num at p1 p2
  -- times
  obtain ⟨hA, hB⟩ : g.accT = √(π / 2 / 3000) ∧ g.linT = 0 := by
    have := hfl.shape
    rw [hT, ha, mul_one] at this
    rcases this with ⟨a, -, -⟩ | ⟨-, a, b⟩
    · exfalso; norm_num at a; linarith
    · exact ⟨a, b⟩
  have hA2 : g.accT * g.accT = π / 6000 := by
    rw [hA, Real.mul_self_sqrt (by positivity)]; ring
  have hA0 := hfl.accT0
  have hA3 : g.accT ≤ 229 / 10000 := by
    by_contra hcon
    push Not at hcon
    nlinarith
  have hA4 : 228 / 10000 ≤ g.accT := by
    by_contra hcon
    push Not at hcon
    nlinarith
  have hrd : g.rDivV = 1 / 200 := hfl.rdv
  have htot : (Gen.circular g).totalTime = 2 * g.accT := by rw [hfl.total, hB, add_zero]
  have hat : AtTime evs (19 / 1000) evs.length := by
    refine ⟨fun ax τ hτ => ?_, fun ax τ hτ => by simp [stepTimes] at hτ⟩
    rw [List.take_length, (ht.times hb hl he ax).2, List.mem_map] at hτ
    obtain ⟨i, hi, rfl⟩ := hτ
    rw [List.mem_range] at hi
    have hi0 := (arc_timed ht hb hl).nonneg ax i hi
    have hle : arcPt Cfg.default .cw g R RB uA uB φ ax i ≤ π / 400 := by
      have hpl := ht.plane_eq
      have e : π / 400 = g.rDivV * g.deltaAngle := by rw [hrd, hT]; ring
      have hr : 0 ≤ g.rDivV := by rw [hrd]; norm_num
      rw [e]
      obtain ⟨c1, c2⟩ : g.it3 = 0 ∧ g.itE = 0 := by
        obtain ⟨φs, φe, hf⟩ := new_facts hg
        rw [hf.it3, hf.itE]
        simp [planeAxes]
      unfold CircGen.totals at hi
      unfold arcPt
      split at hi
      · next hax =>
        rw [if_pos hax]
        exact mul_le_mul_of_nonneg_left (ht.ta.turn_le hi) hr
      split at hi
      · next hax hax' =>
        rw [if_neg hax, if_pos hax']
        exact mul_le_mul_of_nonneg_left (ht.tb.turn_le hi) hr
      split at hi
      · rw [c1] at hi; simp at hi
      · rw [c2] at hi; simp at hi
    unfold Gen.sendTime
    rw [hfl.kA]
    change warp (2 * g.accT) g.accT g.linT _ ≤ _
    generalize arcPt Cfg.default .cw g R RB uA uB φ ax i = p at hi0 hle
    have hw : p * (2 * g.accT) ≤ (19 / 1000) ^ 2 := by nlinarith
    unfold warp
    rw [if_pos (Real.sqrt_le_iff.2 ⟨hA0.le, by nlinarith⟩)]
    exact Real.sqrt_le_iff.2 ⟨by norm_num, hw⟩
  have key := hn evs.length (19 / 1000) (by norm_num) (by rw [htot]; linarith) hat
  rw [List.take_length] at key
  obtain ⟨-, nB⟩ := arc_net tiny_arc.grid hg he
  rw [if_neg tiny_ahead, show axisB .xy = .y from rfl] at nB
  rw [nB] at key
  have hp : ((Cfg.default.ppm.get .y : ℚ) : ℝ) = 100 := by norm_num [Cfg.default, V4.get]
  have hsb : startB .xy ⟨0, -1, 0, 0⟩ = 1 := by simp [startB, axisB, V4.get]
  have hsa : startA .xy ⟨0, -1, 0, 0⟩ = 0 := by simp [startA, axisA, V4.get]
  have htb : ∀ x, turnedB .xy ⟨0, -1, 0, 0⟩ .cw x = cos x := fun x => by
    unfold turnedB; rw [hsb, hsa]; ring
  rw [htb, hp, hsb, show (⟨1, -1, 0, 0⟩ : V4 ℝ).get .y = -1 from rfl] at key
  have hm' := hm.from_rest s0 u0 (t := 19 / 1000) (by norm_num)
  rw [ha] at hm'
  rw [hs, coarse_xy] at hρ
  obtain ⟨r1, r2⟩ := abs_le.1 hρ
  norm_num at hm' r1 r2
  have hρ0 : 0 < ρ := by linarith
  have hx : |s (19 / 1000) / ρ| ≤ 6 / 10 := by
    rw [abs_div, abs_of_pos hρ0, div_le_iff₀ hρ0]
    linarith
  have hc1 := Real.one_sub_sq_div_two_le_cos (x := s (19 / 1000) / ρ)
  have hsq : (s (19 / 1000) / ρ) ^ 2 ≤ (6 / 10) ^ 2 := by
    rw [← sq_abs]; gcongr
  have := (abs_le.1 key).1
  norm_num at hsq this
  linarith

/-! ## A full circle of radius 10 mm -/

omit [PyRound] in
theorem wide_dist : startDist .xy ⟨0, -10, 0, 0⟩ = 10 := by
  obtain ⟨s1, -⟩ := arc_sizes (da := 0) (db := 0) (ra := 0) (rb := -10) (d3 := 0) (e := 0)
  rw [s1, show ((0 : ℝ) ^ 2 + (-10) ^ 2) = 10 ^ 2 by norm_num]
  exact Real.sqrt_sq (by norm_num)

omit [PyRound] in
theorem wide_end : endDist .xy ⟨0, 0, 0, 0⟩ ⟨0, -10, 0, 0⟩ = 10 := by
  obtain ⟨-, s2⟩ := arc_sizes (da := 0) (db := 0) (ra := 0) (rb := -10) (d3 := 0) (e := 0)
  rw [s2, show ((0 - 0 : ℝ) ^ 2 + (0 - -10) ^ 2) = 10 ^ 2 by norm_num]
  exact Real.sqrt_sq (by norm_num)

theorem wide_arc : OrdinaryArc Cfg.default ⟨0, 0, 0, 0⟩ ⟨0, -10, 0, 0⟩ .xy 12000 := by
  have hs := wide_dist
  have hd := wide_end
  refine ⟨⟨?_, ?_, ⟨0, ?_⟩, ⟨-1000, ?_⟩, ⟨0, ?_⟩, ⟨0, ?_⟩, .inl rfl⟩, ?_, ?_, ?_, ?_, ?_, ?_,
    ?_, .inl ⟨rfl, rfl⟩, ?_⟩
  any_goals first
    | (rw [hs]; norm_num; done)
    | rw [hs, hd]
    | (simp [axisA, axisB, axis3, V4.get, Cfg.default]; done)
    | (simp only [axisA, axisB, V4.get, Cfg.default]; norm_num)

omit [PyRound] in
theorem wide_ahead : ¬ BackInQuarter .xy ⟨0, 0, 0, 0⟩ ⟨0, -10, 0, 0⟩ := by
  simp only [BackInQuarter, arcQuarter, startA, startB, endA, endB, axisA, axisB, V4.get]
  norm_num

omit [PyRound] in
theorem wide_sweep : Sweep .xy ⟨0, 0, 0, 0⟩ ⟨0, -10, 0, 0⟩ .cw (2 * π) := by
  have hs := wide_dist
  have hd := wide_end
  have := pi_pos
  refine ⟨by linarith, by linarith, ?_, ?_⟩
  · rw [hs, hd]; simp [startA, startB, endA, axisA, axisB, V4.get]
  · rw [hs, hd]; simp [startA, startB, endB, axisA, axisB, V4.get]

theorem wide_strain (hc : SaneCfg Cfg.default) {g : CircGen ℝ}
    (hg : CircGen.new Cfg.default ⟨0, 0, 0, 0⟩ ⟨0, -10, 0, 0⟩ .xy .cw 12000 = .ok g)
    {evs : List (Event ℝ)} (he : Emits Cfg.default (.circular g) evs) {s u : ℝ → ℝ}
    (hm : Motion Cfg.default.accel s u)
    (hn : ∀ n t, 0 ≤ t → t ≤ (Gen.circular g).totalTime → AtTime evs t n →
      |s t * Cfg.default.ppm.get .x - (netSteps Cfg.default .x (evs.take n) : ℝ)| ≤ 2) : False := by
  have hs := wide_dist
  have hfl := fast_flat hc wide_arc rfl rfl (k := 1000) (by rw [hs]; norm_num) hg
  rw [hs] at hfl
  obtain ⟨g', hg', hgood, -⟩ := arc_good hc wide_arc .cw
  obtain rfl : g = g' := Except.ok.inj (hg.symm.trans hg')
  obtain ⟨R, RB, A, B, uA, uB, φ, ht⟩ := arc_tracks wide_arc.grid hg wide_ahead
  have hb := hgood.toCircBase
  have hl := lin_nonneg hg
  have hT := turn_of hg wide_sweep
  have ha : ((Cfg.default.accel : ℚ) : ℝ) = 3000 := by norm_num [Cfg.default]
  have hp : ((Cfg.default.ppm.get .x : ℚ) : ℝ) = 100 := by norm_num [Cfg.default, V4.get]
  have p1 := pi_gt_d4
  have p2 := pi_lt_d4
  norm_num at p1 p2
  obtain ⟨hA, hB⟩ : g.accT = 1 / 15 ∧ g.linT = π / 10 - 1 / 15 := by
    have := hfl.shape
    rw [hT, ha] at this
    rcases this with ⟨-, a, b⟩ | ⟨a, -, -⟩
    · exact ⟨by rw [a]; norm_num, by rw [b]; ring⟩
    · exfalso; norm_num at a; linarith
  have hsb : startB .xy ⟨0, -10, 0, 0⟩ = 10 := by simp [startB, axisB, V4.get]
  have hsa : startA .xy ⟨0, -10, 0, 0⟩ = 0 := by simp [startA, axisA, V4.get]
  have hta : ∀ x, turnedA .xy ⟨0, -10, 0, 0⟩ .cw x = 10 * sin x := fun x => by
    unfold turnedA; rw [hsb, hsa]; simp [turnSign]
  have way : ∀ t, 1 / 15 ≤ t → t ≤ π / 10 → arcWay g 200 t = 200 * (t - 1 / 30) := fun t h1 h2 => by
    unfold arcWay travel
    rw [hA, hB, pos_of_nonneg (by linarith), pos_of_nonpos (by linarith)]
    ring
  have place : ∀ t, 1 / 15 ≤ t → t ≤ π / 10 → |s t - 10 * sin (20 * (t - 1 / 30))| ≤ 4 / 100 := by
    intro t h1 h2
    obtain ⟨n, hat⟩ := arc_atTime ht hb hl he t
    have htt : t ≤ (Gen.circular g).totalTime := by rw [hfl.total, hA, hB]; linarith
    have k1 := hn n t (by linarith) htt hat
    have k2 := (hfl.at_time hb hl ht he (by linarith) htt
      (by rw [way t h1 h2, hT]; linarith) hat).1
    rw [show axisA .xy = .x from rfl, hta, hsa, hp, way t h1 h2, zero_mul, zero_add] at k2
    rw [hp] at k1
    rw [show 200 * (t - 1 / 30) / 10 = 20 * (t - 1 / 30) by ring] at k2
    obtain ⟨a1, a2⟩ := abs_le.1 k1
    obtain ⟨b1, b2⟩ := abs_le.1 k2
    rw [abs_le]
    constructor <;> linarith
  have q0 := place (π / 40 + 1 / 30) (by linarith) (by linarith)
  have q1 := place (π / 40 + 1 / 30 - π / 120) (by linarith) (by linarith)
  have q2 := place (π / 40 + 1 / 30 + π / 120) (by linarith) (by linarith)
  rw [show 20 * (π / 40 + 1 / 30 - 1 / 30) = π / 2 by ring, sin_pi_div_two] at q0
  rw [show 20 * (π / 40 + 1 / 30 - π / 120 - 1 / 30) = π / 3 by ring, sin_pi_div_three] at q1
  rw [show 20 * (π / 40 + 1 / 30 + π / 120 - 1 / 30) = π - π / 3 by ring, sin_pi_sub,
    sin_pi_div_three] at q2
  have hbend := hm.bend (π / 40 + 1 / 30) (d := π / 120) (by positivity)
  rw [ha] at hbend
  have h3 : √3 < 1.7321 := by rw [Real.sqrt_lt' (by norm_num)]; norm_num
  norm_num at h3
  have hpi2 : π ^ 2 ≤ (315 / 100) ^ 2 := by
    gcongr; norm_num; linarith
  obtain ⟨-, a2⟩ := abs_le.1 q1
  obtain ⟨-, b2⟩ := abs_le.1 q2
  obtain ⟨c1, -⟩ := abs_le.1 q0
  nlinarith

end PyCNC
