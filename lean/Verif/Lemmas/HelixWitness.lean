import Verif.Lemmas.HelixTime
import Verif.Lemmas.ArcAccelWitness

/-!
# A helix that stops dead

Witness for `C77_rest_refuted`: one turn of radius 10 mm that climbs 60 mm at 100 mm/s, on a machine whose
Z axis is as fast as its Y axis.
-/

namespace PyCNC

open Spec Real

variable [PyRound]

/-- The default machine with a fast Z axis. -/
def swiftCfg : Cfg := { Cfg.default with maxVel := ⟨24000, 12000, 12000, 1500⟩ }

omit [PyRound] in
theorem swift_sane : SaneCfg swiftCfg := by
  constructor <;> first
    | (intro ax; cases ax <;> norm_num [swiftCfg, Cfg.default, V4.get])
    | norm_num [swiftCfg, Cfg.default]

omit [PyRound] in
theorem climb_dist : startDist .xy ⟨10, 0, 0, 0⟩ = 10 ∧ endDist .xy ⟨0, 0, 60, 0⟩ ⟨10, 0, 0, 0⟩ = 10 := by
  have h5 : √(100 : ℝ) = 10 := by
    rw [show (100 : ℝ) = 10 ^ 2 by norm_num]; exact Real.sqrt_sq (by norm_num)
  constructor
  · simp only [startDist, startA, startB, axisA, axisB, V4.get]; norm_num; exact h5
  · simp only [endDist, endA, endB, axisA, axisB, V4.get]; norm_num; exact h5

theorem climb_arc : OrdinaryArc swiftCfg ⟨0, 0, 60, 0⟩ ⟨10, 0, 0, 0⟩ .xy 6000 := by
  obtain ⟨hs, hd⟩ := climb_dist
  refine ⟨⟨?_, ?_, ⟨1000, ?_⟩, ⟨0, ?_⟩, ⟨0, ?_⟩, ⟨0, ?_⟩, .inl rfl⟩, ?_, ?_, ?_, ?_, ?_, ?_,
    ?_, .inr (.inl ⟨rfl, rfl⟩), ?_⟩
  any_goals first
    | (rw [hs]; norm_num; done)
    | rw [hs, hd]
    | (simp [axisA, axisB, axis3, V4.get, swiftCfg, Cfg.default]; done)
    | (simp only [axisA, axis3, V4.get, swiftCfg, Cfg.default]; norm_num)

omit [PyRound] in
theorem climb_ahead : ¬ BackInQuarter .xy ⟨0, 0, 60, 0⟩ ⟨10, 0, 0, 0⟩ := by
  simp only [BackInQuarter, arcQuarter, startA, startB, endA, endB, axisA, axisB, V4.get]
  norm_num

omit [PyRound] in
theorem climb_sweep : Sweep .xy ⟨0, 0, 60, 0⟩ ⟨10, 0, 0, 0⟩ .cw (2 * π) := by
  obtain ⟨hs, hd⟩ := climb_dist
  have := pi_pos
  refine ⟨by linarith, by linarith, ?_, ?_⟩
  · rw [hs, hd]; simp [startA, startB, endA, axisA, axisB, V4.get]
  · rw [hs, hd]; simp [startA, startB, endB, axisA, axisB, V4.get]

omit [PyRound] in
/-- The way shortly before the end. -/
theorem travel_late {A B x : ℝ} (hA : 0 < A) (h1 : x ≤ A) (hB : 0 ≤ B) :
    travel (2 * A) A B (2 * A + B - x) = A + B - x ^ 2 / (2 * A) := by
  unfold travel
  rw [pos_of_nonneg (by linarith), pos_of_nonneg (by linarith)]
  field_simp; ring

theorem climb_stop {g : CircGen ℝ}
    (hg : CircGen.new swiftCfg ⟨0, 0, 60, 0⟩ ⟨10, 0, 0, 0⟩ .xy .cw 6000 = .ok g)
    {evs : List (Event ℝ)} (he : Emits swiftCfg (.circular g) evs) {s u : ℝ → ℝ}
    (hm : Motion (2 * swiftCfg.accel) s u)
    (hn : ∀ n t, 0 ≤ t → t ≤ (Gen.circular g).totalTime → AtTime evs t n →
      |s t * swiftCfg.ppm.get .z - (netSteps swiftCfg .z (evs.take n) : ℝ)| ≤ 2) : False := by
  have hc := swift_sane
  have h := climb_arc
  obtain ⟨hs, hd⟩ := climb_dist
  obtain ⟨g', hg', hgood, -⟩ := arc_good hc h .cw
  obtain rfl : g = g' := Except.ok.inj (hg.symm.trans hg')
  obtain ⟨R, RB, A, B, uA, uB, φ, ht⟩ := arc_tracks h.grid hg climb_ahead
  have hbase := hgood.toCircBase
  have hl := lin_nonneg hg
  obtain ⟨V, ρ, L, w, M, hx, hz⟩ := helix_new hc h hg
  have hTT := turn_of hg climb_sweep
  obtain ⟨φs, φe, hf⟩ := new_facts hg
  have hacc : ((swiftCfg.accel : ℚ) : ℝ) = 3000 := by norm_num [swiftCfg, Cfg.default]
  have hppm : ((swiftCfg.ppm.get .z : ℚ) : ℝ) = 400 := by norm_num [swiftCfg, Cfg.default, V4.get]
  have hρ : ρ = 10 := by
    have := hz.radA
    rw [hs] at this
    have e : ((swiftCfg.ppm.get (axisA .xy) : ℚ) : ℝ) = 100 := by
      norm_num [swiftCfg, Cfg.default, V4.get, axisA]
    rw [e, show (10 : ℝ) * 100 = ((1000 : ℤ) : ℝ) by norm_num, rnd_int] at this
    push_cast at this
    linarith
  have p1 := pi_gt_d4
  have p2 := pi_lt_d4
  norm_num at p1 p2
  have hL := hx.L0
  -- the length
  have hL2 : L ^ 2 = 400 * π ^ 2 + 3600 := by
    rw [hz.len, Real.sq_sqrt (by positivity), hTT, hρ]
    simp only [axis3, V4.get]; ring
  have hLlo : 8687 / 100 ≤ L := by
    by_contra hcon
    push Not at hcon
    nlinarith
  have hLhi : L ≤ 8688 / 100 := by
    by_contra hcon
    push Not at hcon
    nlinarith
  -- the speeds
  have hw : w = 100 := by
    have harc := abs_le.1 hx.arc
    have h3 := abs_le.1 hx.vel3
    have hE := abs_le.1 hx.velE
    have hle := hz.feed
    norm_num at hle
    rcases hz.top with e | ⟨-, e⟩
    · rw [e]; norm_num
    · exfalso
      have hw0 := hx.s_ge
      have q1 : g.deltaAngle * ρ / L * w ≤ 1 * 100 := by
        have := (hz.shares hx).1
        gcongr
      have q2 : |(⟨0, 0, 60, 0⟩ : V4 ℝ).get (axis3 .xy)| / L * w ≤ 1 * 100 := by
        have := (hz.shares hx).2.1
        gcongr
      simp only [axisA, axisB, axis3, V4.get, swiftCfg, Cfg.default] at e harc h3 hE q2
      norm_num at e harc h3 hE q2
      rcases e with e | e | e | e <;> linarith
  subst hw
  have hWn := abs_le.1 (hz.speed_near hx)
  have hMlo : 7231 / 100 ≤ M := by
    refine le_trans ?_ hz.V_le
    have := (abs_le.1 hx.arc).1
    have q : 72315 / 1000 ≤ g.deltaAngle * ρ / L * 100 := by
      rw [hTT, hρ, div_mul_eq_mul_div, le_div_iff₀ hL]
      linarith
    norm_num at this
    linarith
  have hMhi : M ≤ 7233 / 100 := by
    rcases hz.mem with e | e | e <;> rw [e]
    · have := (abs_le.1 hx.arc).2
      have q : g.deltaAngle * ρ / L * 100 ≤ 72329 / 1000 := by
        rw [hTT, hρ, div_mul_eq_mul_div, div_le_iff₀ hL]
        linarith
      norm_num at this
      linarith
    · have := (abs_le.1 hx.vel3).2
      have q : 60 / L * 100 ≤ 72329 / 1000 := by
        rw [div_mul_eq_mul_div, div_le_iff₀ hL]
        linarith
      simp only [axis3, V4.get] at this
      norm_num at this
      linarith
    · have := (abs_le.1 hx.velE).2
      norm_num at this
      linarith
  have hW := hz.speed_pos hx
  -- the times
  obtain ⟨hA, hB⟩ : g.accT = M / 3000 ∧ g.linT * helixSpeed g V = L - M ^ 2 / 3000 := by
    rcases hz.shape with ⟨-, h1, h2⟩ | ⟨h1, -, -⟩
    · rw [hacc] at h1 h2
      refine ⟨h1, ?_⟩
      rw [h2]
      exact div_mul_cancel₀ _ hW.ne'
    · exfalso
      rw [hacc, lt_div_iff₀ (by norm_num)] at h1
      nlinarith
  have hA0 := hz.acc_pos hx
  have htot := hz.total hx
  have hA1 : 24 / 1000 ≤ g.accT := by rw [hA]; linarith
  -- the way at some time before the end
  have way : ∀ x : ℝ, x ≤ 24 / 1000 →
      helixSpeed g V * travel (2 * g.accT) g.accT g.linT ((Gen.circular g).totalTime - x) =
      L + M * (helixSpeed g V - M) / 3000 - helixSpeed g V * x ^ 2 * 1500 / M := fun x h1 => by
    have hM0 : M ≠ 0 := by linarith
    rw [htot, travel_late hA0 (by linarith) hl, mul_sub, mul_add, mul_comm _ g.linT, hB, hA]
    field_simp
    ring
  norm_num at hWn
  have near : ∀ x : ℝ, 0 ≤ x → x ≤ 24 / 1000 → |s ((Gen.circular g).totalTime - x) * 400 -
      helixWay g V L ((Gen.circular g).totalTime - x) / L * (60 * 400)| ≤ 33 / 10 := fun x h0 h1 => by
    have t0 : 0 ≤ (Gen.circular g).totalTime - x := by rw [htot]; linarith
    have t1 : (Gen.circular g).totalTime - x ≤ (Gen.circular g).totalTime := by linarith
    obtain ⟨n, hat⟩ := arc_atTime ht hbase hl he ((Gen.circular g).totalTime - x)
    have q1 := hn n _ t0 t1 hat
    have q2 := hz.net_at hx ht hbase hl hf hc.ppm_le he t0 t1 hat (ax := .z) (.inl rfl)
    rw [hppm] at q1 q2
    have := abs_add_le _ _ |>.trans (add_le_add q1 q2)
    refine le_trans (le_of_eq ?_) (this.trans (by norm_num))
    congr 1
    simp only [V4.get]
    ring
  have full : ∀ x : ℝ, 0 ≤ x → x ≤ 177 / 10000 →
      helixWay g V L ((Gen.circular g).totalTime - x) = L := fun x h0 h1 => by
    unfold helixWay
    refine min_eq_right ?_
    rw [way x (by linarith)]
    have k1 : x ^ 2 ≤ 31329 / 10 ^ 8 := by nlinarith
    have k2 : helixSpeed g V * x ^ 2 * 1500 / M ≤ 65 / 100 := by
      rw [div_le_iff₀ (by linarith)]
      have := mul_le_mul hWn.2 k1 (by positivity) (by linarith)
      nlinarith
    have k3 : 66 / 100 ≤ M * (helixSpeed g V - M) / 3000 := by nlinarith
    linarith
  have late : helixWay g V L ((Gen.circular g).totalTime - 24 / 1000) ≤ L - 52 / 100 := by
    unfold helixWay
    refine (min_le_left _ _).trans ?_
    rw [way _ le_rfl]
    have k2 : 119 / 100 ≤ helixSpeed g V * (24 / 1000) ^ 2 * 1500 / M := by
      rw [le_div_iff₀ (by linarith)]
      nlinarith
    have k3 : M * (helixSpeed g V - M) / 3000 ≤ 67 / 100 := by nlinarith
    linarith
  have n0 := near (24 / 1000) (by norm_num) le_rfl
  have n1 := near (177 / 10000) (by norm_num) (by norm_num)
  have n2 := near (114 / 10000) (by norm_num) (by norm_num)
  rw [full _ (by norm_num) (by norm_num), div_self hL.ne'] at n1 n2
  have hbend := hm.bend ((Gen.circular g).totalTime - 177 / 10000) (d := 63 / 10000) (by norm_num)
  rw [show (Gen.circular g).totalTime - 177 / 10000 - 63 / 10000 = (Gen.circular g).totalTime - 24 / 1000 by ring,
    show (Gen.circular g).totalTime - 177 / 10000 + 63 / 10000 = (Gen.circular g).totalTime - 114 / 10000 by ring,
    hacc] at hbend
  have k4 : helixWay g V L ((Gen.circular g).totalTime - 24 / 1000) / L * (60 * 400) ≤ 24000 - 143 := by
    rw [div_mul_eq_mul_div, div_le_iff₀ hL]
    linarith
  have m0 := (abs_le.1 n0).2
  have m1 := (abs_le.1 n1).1
  have m2 := (abs_le.1 n2).2
  norm_num at hbend m1 m2
  linarith

end PyCNC
