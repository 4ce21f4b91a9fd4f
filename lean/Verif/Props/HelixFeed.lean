import Verif.Lemmas.HelixTime
import Verif.Lemmas.HelixWitness
import Verif.Props.Feed

/-!
# Properties C76, C77 and C80 for arcs with a third axis or the extruder

Exact arithmetic, for every nearest-integer rounding (`PyRound`).
-/

namespace PyCNC.Props

open PyCNC Spec Real

/-- **C80 for all ordinary arcs.** An arc, also one that moves the third axis or the extruder, has a way of
length `L`, which is put together from the way along the circle and the other distances, and a speed `W`
on it, put together from speeds as the feed asks for (`HelixFeed`).  From `W / a` seconds after the start
until `W / a` seconds before the end the way `s` grows uniformly with `W`; it never grows faster, nor
shrinks, and all motors are always within a few steps of the place that belongs to `s`: the part `s / L`
of the whole angle and of the distances.  The arc takes the time of its length at the speed `W`, and at
most `W / a` more.

Missing: arcs whose end lies before their start in the same quarter of the circle (`C80_refuted`). -/
theorem C80_helix_partial [PyRound] {c : Cfg} {delta radius : V4 ℝ} {plane : Plane} {v : ℝ}
    (hc : SaneCfg c) (hd : DecimalLimits c) (h : OrdinaryArc c delta radius plane v) {rot : Rot}
    (hb : ¬ BackInQuarter plane delta radius) {T : ℝ} (hT : Sweep plane delta radius rot T)
    {g : CircGen ℝ} (hg : CircGen.new c delta radius plane rot v = .ok g) {evs : List (Event ℝ)}
    (he : Emits c (.circular g) evs) :
    ∃ (V v₃ vE ρ L W : ℝ) (s : ℝ → ℝ), HelixFeed c delta plane (T * ρ) v V v₃ vE ∧ 0 < ρ ∧
      |ρ - startDist plane radius| ≤ 1 / 2 / coarse c plane ∧
      L = √((T * ρ) ^ 2 + delta.get (axis3 plane) ^ 2 + delta.e ^ 2) ∧
      W = √(V ^ 2 + v₃ ^ 2 + vE ^ 2) ∧ 0 < W ∧ s 0 = 0 ∧ s (Gen.circular g).totalTime = L ∧
      (∀ t t', 0 ≤ t → t ≤ t' → t' ≤ (Gen.circular g).totalTime →
        0 ≤ s t' - s t ∧ s t' - s t ≤ W * (t' - t)) ∧
      (∀ t t', W / c.accel ≤ t → t ≤ t' → t' ≤ (Gen.circular g).totalTime - W / c.accel →
        s t' - s t = W * (t' - t)) ∧
      L / W ≤ (Gen.circular g).totalTime ∧ (Gen.circular g).totalTime ≤ L / W + W / c.accel ∧
      (∀ t, ∃ n, AtTime evs t n) ∧
      ∀ n t, 0 ≤ t → t ≤ (Gen.circular g).totalTime → AtTime evs t n →
        |startA plane radius * c.ppm.get (axisA plane) + netSteps c (axisA plane) (evs.take n) -
          turnedA plane radius rot (s t / L * T) * c.ppm.get (axisA plane)| ≤ 5 / 2 ∧
        |startB plane radius * c.ppm.get (axisB plane) + netSteps c (axisB plane) (evs.take n) -
          turnedB plane radius rot (s t / L * T) * c.ppm.get (axisB plane)| ≤ 5 / 2 ∧
        ∀ ax, ax = axis3 plane ∨ ax = .e →
          |(netSteps c ax (evs.take n) : ℝ) - s t / L * (delta.get ax * c.ppm.get ax)| ≤ 13 / 10 := by
  obtain ⟨g', hg', hgood, -⟩ := arc_good hc h rot
  obtain rfl : g = g' := Except.ok.inj (hg.symm.trans hg')
  obtain ⟨R, RB, A, B, uA, uB, φ, ht⟩ := arc_tracks h.grid hg hb
  have hbase := hgood.toCircBase
  have hl := lin_nonneg hg
  obtain ⟨V, ρ, L, s, M, hx, hz⟩ := helix_new hc h hg
  have hTT : g.deltaAngle = T := by
    obtain ⟨φs, φe, hf, hd⟩ := new_turn hg
    rw [hd]
    exact arcTurn_sweep hf.angS hf.angE hT
  obtain ⟨φs, φe, hf⟩ := new_facts hg
  have hρ := hx.ρ0
  have hL := hx.L0
  have hW := hz.speed_pos hx
  have hA := hz.acc_pos hx
  have ha := hz.a0
  have hM := hz.M0 hx
  have hMW := hz.M_le hx
  have hWM := hz.le_M hx
  have hfit := hz.fits hx
  have htot := hz.total hx
  have hs0 : 0 < s := by linarith [hx.s_ge]
  have hlen := hz.len
  have harc := hx.arc
  have hv3 := hx.vel3
  have hvE := hx.velE
  rw [hTT] at hlen harc
  rw [hlen] at harc hv3 hvE
  have e1 : 2 * (g.accT * g.accT / (2 * g.accT)) = g.accT := by field_simp
  have hend : travel (2 * g.accT) g.accT g.linT (Gen.circular g).totalTime = g.accT + g.linT := by
    rw [htot, travel_end (by linarith) hA.le hl (.inl rfl), e1]
  have hcap : L ≤ helixSpeed g V * (g.accT + g.linT) := by
    rw [div_le_iff₀ hW] at hfit; linarith
  -- the way without the end
  have hmono : ∀ t t', 0 ≤ t → t ≤ t' → t' ≤ (Gen.circular g).totalTime →
      0 ≤ travel (2 * g.accT) g.accT g.linT t' - travel (2 * g.accT) g.accT g.linT t ∧
      travel (2 * g.accT) g.accT g.linT t' - travel (2 * g.accT) g.accT g.linT t ≤ t' - t := by
    intro t t' h0 h1 h2
    refine ⟨sub_nonneg.2 (travel_mono (by linarith) hA.le hl h0 h1 (by rwa [htot] at h2)), ?_⟩
    obtain hlt | rfl := h1.lt_or_eq
    · obtain ⟨x, hx', e⟩ := exists_hasDerivAt_eq_slope (travel (2 * g.accT) g.accT g.linT)
        (speed (2 * g.accT) g.accT g.linT) hlt
        (fun y _ => (hasDerivAt_travel _ _ _ y).continuousAt.continuousWithinAt)
        (fun y _ => hasDerivAt_travel _ _ _ y)
      have p2 := speed_le (k := 2 * g.accT) (A := g.accT) (B := g.linT) (t := x) (by linarith)
      rw [div_self (by positivity), e, div_le_one (by linarith)] at p2
      exact p2
    · simp
  refine ⟨V, g.vel3, g.velE, ρ, L, helixSpeed g V, helixWay g V L, ⟨s, hs0, hz.feed, harc, hv3, hvE,
    fun a => hz.limit a hd, hz.top⟩, hρ, ?_, hlen, rfl, hW, ?_, ?_, fun t t' h1 h2 h3 => ?_,
    fun t t' h1 h2 h3 => ?_, ?_, ?_, arc_atTime ht hbase hl he, fun n t h0 h1 hat => ?_⟩
  · exact hz.radius_near hx hc.ppm_pos
  · unfold helixWay
    rw [travel_zero hA.le hl, mul_zero]; exact min_eq_left hL.le
  · unfold helixWay
    rw [hend]; exact min_eq_right hcap
  · obtain ⟨p1, p2⟩ := hmono t t' h1 h2 h3
    have q1 := mul_nonneg hW.le p1
    have q2 := mul_le_mul_of_nonneg_left p2 hW.le
    rw [mul_sub] at q1 q2
    unfold helixWay
    constructor
    · have := min_le_min_right L (show helixSpeed g V * travel (2 * g.accT) g.accT g.linT t ≤
        helixSpeed g V * travel (2 * g.accT) g.accT g.linT t' by linarith)
      linarith
    · have hVt : 0 ≤ helixSpeed g V * (t' - t) := mul_nonneg hW.le (by linarith)
      rcases min_cases (helixSpeed g V * travel (2 * g.accT) g.accT g.linT t) L with ⟨q, -⟩ | ⟨q, -⟩ <;> rw [q]
      · have := min_le_left (helixSpeed g V * travel (2 * g.accT) g.accT g.linT t') L; linarith
      · have := min_le_right (helixSpeed g V * travel (2 * g.accT) g.accT g.linT t') L; linarith
  · rcases hz.shape with ⟨-, h4, h5⟩ | ⟨h4, h5, h6⟩
    · have hle : g.accT ≤ helixSpeed g V / c.accel := by rw [h4]; gcongr
      have cap : ∀ x, g.accT ≤ x → x ≤ (Gen.circular g).totalTime - helixSpeed g V / c.accel →
          helixWay g V L x = helixSpeed g V * (x - g.accT / 2) := fun x x0 x1 => by
        unfold helixWay
        rw [travel_uniform hA x0 (by linarith), min_eq_left]
        have h5' : g.linT * helixSpeed g V = L - M ^ 2 / c.accel := by
          rw [h5]
          exact div_mul_cancel₀ _ hW.ne'
        have h6 : x - g.accT / 2 ≤ g.accT / 2 + g.linT := by linarith
        have h7 := mul_le_mul_of_nonneg_left h6 hW.le
        refine h7.trans ?_
        have h8 : helixSpeed g V * (g.accT / 2) ≤ M ^ 2 / c.accel := by
          rw [h4, show helixSpeed g V * (M / c.accel / 2) = helixSpeed g V / 2 * (M / c.accel) by ring,
            show M ^ 2 / (c.accel : ℝ) = M * (M / c.accel) by ring]
          gcongr
          linarith
        linarith
      rw [cap t (by linarith) (by linarith), cap t' (by linarith) (by linarith)]
      ring
    · exfalso
      have h7 : g.accT < helixSpeed g V / c.accel := by
        refine lt_of_lt_of_le (b := M / c.accel) ?_ (by gcongr)
        rw [h5, Real.sqrt_lt' (by positivity), div_lt_iff₀ ha]
        calc _ < M ^ 2 / c.accel := h4
          _ = _ := by field_simp
      rw [htot, h6] at h3
      linarith
  · rw [htot]
    linarith
  · rw [htot]
    rcases hz.shape with ⟨-, h4, h5⟩ | ⟨h4, h5, h6⟩
    · rw [h4, h5]
      change 2 * (M / c.accel) + (L - M ^ 2 / c.accel) / helixSpeed g V ≤ _
      have e : L / helixSpeed g V + helixSpeed g V / c.accel - (2 * (M / c.accel) +
          (L - M ^ 2 / c.accel) / helixSpeed g V) =
          (helixSpeed g V - M) ^ 2 / (c.accel * helixSpeed g V) := by field_simp; ring
      have : 0 ≤ (helixSpeed g V - M) ^ 2 / (c.accel * helixSpeed g V) := by positivity
      linarith
    · rw [h6, add_zero]
      have e4 : L = c.accel * (g.accT * g.accT) := by
        rw [h5, Real.mul_self_sqrt (by positivity)]; field_simp
      rw [e4, div_add_div _ _ hW.ne' ha.ne', le_div_iff₀ (by positivity)]
      nlinarith [sq_nonneg (c.accel * g.accT - helixSpeed g V)]
  · obtain ⟨r1, r2⟩ := hz.plane_at hx ht hbase hl hc.ppm_le he h0 h1 hat
    rw [hTT] at r1 r2
    exact ⟨r1, r2, fun ax hax => hz.net_at hx ht hbase hl hf hc.ppm_le he h0 h1 hat hax⟩

/-- The quarter of a circle of radius 10 mm with 1 mm of filament at 10 mm/s. -/
example [PyRound] : ∃ T, Sweep .xy ⟨10, 10, 0, 1⟩ ⟨10, 0, 0, 0⟩ .cw T ∧
    OrdinaryArc Cfg.default ⟨10, 10, 0, 1⟩ ⟨10, 0, 0, 0⟩ .xy 600 ∧
    ¬ BackInQuarter .xy ⟨10, 10, 0, 1⟩ ⟨10, 0, 0, 0⟩ ∧ DecimalLimits Cfg.default := by
  have h5 : √(100 : ℝ) = 10 := by
    rw [show (100 : ℝ) = 10 ^ 2 by norm_num]; exact Real.sqrt_sq (by norm_num)
  have hs : startDist .xy ⟨10, 0, 0, 0⟩ = 10 := by
    simp only [startDist, startA, startB, axisA, axisB, V4.get]; norm_num; exact h5
  have hd : endDist .xy ⟨10, 10, 0, 1⟩ ⟨10, 0, 0, 0⟩ = 10 := by
    simp only [endDist, endA, endB, axisA, axisB, V4.get]; norm_num; exact h5
  have hpi := pi_pos
  refine ⟨π / 2, ⟨by linarith, by linarith, ?_, ?_⟩, quarter_arc 1 (.inr (by norm_num)) (by norm_num),
    quarter_arc_ahead 1, default_limits true⟩
  · rw [hs, hd]; simp [startA, startB, endA, axisA, axisB, V4.get]
  · rw [hs, hd]; simp [startA, startB, endB, axisA, axisB, V4.get]

/-- **C76 for all ordinary arcs.** With automatic velocity adjustment two successive step pulses of any
axis, the third one and the extruder included, are at least as far apart as they are at its maximum
velocity; the last two pulses of the third axis and of the extruder when their distance is a whole number
of steps.

Missing: the last two pulses of an axis of the plane (`C76_refuted`, and `C76_step_rate_partial` for arcs
that move no other axis), arcs whose end lies before their start in the same quarter of the circle. -/
theorem C76_helix_partial [PyRound] {c : Cfg} {delta radius : V4 ℝ} {plane : Plane} {v : ℝ}
    (hc : SaneCfg c) (hd : DecimalLimits c) (ha : c.autoVel = true)
    (h : OrdinaryArc c delta radius plane v) {rot : Rot}
    (hb : ¬ BackInQuarter plane delta radius) {g : CircGen ℝ}
    (hg : CircGen.new c delta radius plane rot v = .ok g) {evs : List (Event ℝ)}
    (he : Emits c (.circular g) evs) {ax : Axis} {i : ℕ}
    {τ₁ τ₂ : ℝ} (h1 : (stepTimes ax evs)[i]? = some τ₁)
    (h2 : (stepTimes ax evs)[i + 1]? = some τ₂)
    (hi : i + 2 < steps ax evs ∨
      ((ax = axis3 plane ∨ ax = .e) ∧ ∃ k : ℤ, delta.get ax * c.ppm.get ax = k)) :
    1 / ((c.ppm.get ax : ℝ) * ((c.maxVel.get ax : ℝ) / 60)) ≤ τ₂ - τ₁ := by
  obtain ⟨g', hg', hgood, -⟩ := arc_good hc h rot
  obtain rfl : g = g' := Except.ok.inj (hg.symm.trans hg')
  obtain ⟨R, RB, A, B, uA, uB, φ, ht⟩ := arc_tracks h.grid hg hb
  have hbase := hgood.toCircBase
  have hl := lin_nonneg hg
  obtain ⟨V, ρ, L, s, M, hx, hz⟩ := helix_new hc h hg
  obtain ⟨φs, φe, hf⟩ := new_facts hg
  have hf3 : g.it3 = |delta.get (axis3 plane)| * c.ppm.get (axis3 plane) := by
    rw [hf.it3, planeAxes_eq, planeAxes_eq]; simp
  have hfE : g.itE = |delta.e| * c.ppm.get .e := by
    rw [hf.itE]; simp [V4.get]
  have hpl := ht.plane_eq
  have hρ := hx.ρ0
  have hL := hx.L0
  have hV := hx.V0
  have hW := hz.speed_pos hx
  have hA := hz.acc_pos hx
  have hfit := hz.fits hx
  have htime := hz.time_le hx
  obtain ⟨shA, sh3, shE⟩ := hz.shares hx
  obtain ⟨lA, lB, l3, lE⟩ := hz.limit ha hd
  obtain ⟨hst, htm⟩ := ht.times hbase hl he ax
  have htmd := arc_timed ht hbase hl
  rw [htm, List.getElem?_map] at h1 h2
  have hlt : i + 1 < g.totals ax := by
    by_contra hcon
    rw [List.getElem?_eq_none (by simpa using hcon)] at h2
    cases h2
  rw [List.getElem?_range hlt] at h2
  rw [List.getElem?_range (by omega)] at h1
  obtain rfl := Option.some.inj h1
  obtain rfl := Option.some.inj h2
  clear h1 h2
  rw [hst] at hi
  have hp : (0 : ℝ) < c.ppm.get ax := by exact_mod_cast hc.ppm_pos ax
  have hp2 : (c.ppm.get ax : ℝ) ≤ 1000 := by exact_mod_cast hc.ppm_le ax
  have e1 : 2 * (g.accT * g.accT / (2 * g.accT)) = g.accT := by field_simp
  -- it is enough to look at the uniform times
  have main : ∀ w : ℝ, 0 < w → w ≤ (c.maxVel.get ax : ℝ) / 60 →
      1 / (c.ppm.get ax * w) ≤ arcPt c rot g R RB uA uB φ ax (i + 1) - arcPt c rot g R RB uA uB φ ax i →
      arcPt c rot g R RB uA uB φ ax (i + 1) ≤ L / helixSpeed g V →
      1 / ((c.ppm.get ax : ℝ) * ((c.maxVel.get ax : ℝ) / 60)) ≤
        (Gen.circular g).sendTime c (arcPt c rot g R RB uA uB φ ax (i + 1)) -
        (Gen.circular g).sendTime c (arcPt c rot g R RB uA uB φ ax i) := by
    intro w hw hwl hgap hend
    have key := warp_gap (k := 2 * g.accT) (A := g.accT) (B := g.linT)
      (p := arcPt c rot g R RB uA uB φ ax i) (q := arcPt c rot g R RB uA uB φ ax (i + 1)) (by linarith)
      hA.le hl (.inl rfl) (htmd.nonneg ax i (by omega)) (htmd.mono ax _ _ (by omega) hlt)
      (by rw [e1]; linarith)
    rw [div_self (by positivity), one_mul] at key
    unfold Gen.sendTime
    rw [hz.kA]
    refine le_trans ?_ (hgap.trans key)
    exact div_le_div_of_nonneg_left zero_le_one (by positivity) (mul_le_mul_of_nonneg_left hwl hp.le)
  -- an axis of the plane
  have inPlane : ∀ (K u : ℤ) (ψ : ℝ) (m : ℕ), Track K u ψ g.deltaAngle m → g.totals ax = m → i + 2 < m →
      ρ * c.ppm.get ax = K →
      (∀ j, arcPt c rot g R RB uA uB φ ax j = g.rDivV * turnAt K u ψ g.deltaAngle m j) →
      V ≤ (c.maxVel.get ax : ℝ) / 60 →
      1 / ((c.ppm.get ax : ℝ) * ((c.maxVel.get ax : ℝ) / 60)) ≤
        (Gen.circular g).sendTime c (arcPt c rot g R RB uA uB φ ax (i + 1)) -
        (Gen.circular g).sendTime c (arcPt c rot g R RB uA uB φ ax i) := by
    intro K u ψ m hT hm him hK hpt hlim
    have k1 := (hT.turn_gap (i := i) (by omega)).1 him
    have k2 := (hT.turn_gap (i := i + 1) (by omega)).2.1
    have k3 := hT.turn_le (i := i + 2) (by omega)
    rw [← hK] at k1 k2
    refine main V hV hlim ?_ ?_
    · rw [hpt, hpt, ← mul_sub, hx.rdv, div_le_iff₀ (by positivity)]
      calc 1 ≤ _ := k1
        _ = _ := by field_simp
    · rw [hpt, hx.rdv]
      have hη := (abs_le.1 (hz.share hx (by have := hx.T0; positivity) shA hx.arc)).1
      -- the end of the circle against the end of the way
      have h3 : g.deltaAngle * ρ - L / helixSpeed g V * V ≤ 28 / 100000 := by
        have e : g.deltaAngle * ρ - L / helixSpeed g V * V =
            L / helixSpeed g V * (g.deltaAngle * ρ / L * helixSpeed g V - V) := by field_simp
        rw [e]
        calc _ ≤ L / helixSpeed g V * (3 / 10 ^ 10) := by gcongr; linarith
          _ ≤ 900001 * (3 / 10 ^ 10) := by gcongr
          _ ≤ _ := by norm_num
      have h4 : 1 / 2000 ≤ ρ * (turnAt K u ψ g.deltaAngle m (i + 1 + 1) - turnAt K u ψ g.deltaAngle m (i + 1)) := by
        have h5 : ρ * c.ppm.get ax * (turnAt K u ψ g.deltaAngle m (i + 1 + 1) -
            turnAt K u ψ g.deltaAngle m (i + 1)) ≤ 1000 * (ρ * (turnAt K u ψ g.deltaAngle m (i + 1 + 1) -
            turnAt K u ψ g.deltaAngle m (i + 1))) := by
          have h6 : 0 ≤ ρ * (turnAt K u ψ g.deltaAngle m (i + 1 + 1) - turnAt K u ψ g.deltaAngle m (i + 1)) :=
            mul_nonneg hρ.le (sub_nonneg.2 (hT.turn_lt (by omega) (by omega)).le)
          rw [mul_right_comm, mul_comm]
          gcongr
        linarith
      have h7 : ρ * turnAt K u ψ g.deltaAngle m (i + 1 + 1) ≤ ρ * g.deltaAngle := by gcongr
      rw [mul_sub] at h4
      rw [div_mul_eq_mul_div, div_le_iff₀ hV]
      linarith
  -- another axis
  have other : ∀ u : ℝ, |u - |delta.get ax| / L * s| ≤ 1 / 10 ^ 10 → |delta.get ax| / L ≤ 1 →
      (delta.get ax ≠ 0 → 1 / 15000000 ≤ |delta.get ax| / L) →
      g.totals ax = ⌈|delta.get ax| * c.ppm.get ax⌉₊ →
      (∀ j : ℕ, arcPt c rot g R RB uA uB φ ax j = (j : ℝ) / c.ppm.get ax / u) →
      u ≤ (c.maxVel.get ax : ℝ) / 60 →
      (i + 2 < g.totals ax ∨ ∃ k : ℤ, delta.get ax * c.ppm.get ax = k) →
      1 / ((c.ppm.get ax : ℝ) * ((c.maxVel.get ax : ℝ) / 60)) ≤
        (Gen.circular g).sendTime c (arcPt c rot g R RB uA uB φ ax (i + 1)) -
        (Gen.circular g).sendTime c (arcPt c rot g R RB uA uB φ ax i) := by
    intro u hu hsh hlow htot hpt hlim hi
    have hz0 : delta.get ax ≠ 0 := fun h0 => by
      rw [htot, h0, abs_zero, zero_mul, Nat.ceil_zero] at hlt
      omega
    obtain ⟨u0, -⟩ := helix_time hL hx.s_ge (hlow hz0) hu
    have hη := (abs_le.1 (hz.share hx (by positivity) hsh hu)).1
    have hin : ((i : ℝ) + 2) ≤ |delta.get ax| * c.ppm.get ax := by
      rcases hi with hi | ⟨k, hk⟩
      · rw [htot] at hi
        have := Nat.lt_ceil.1 hi
        push_cast at this
        exact this.le
      · have hk' : |delta.get ax| * c.ppm.get ax = ((k.natAbs : ℕ) : ℝ) := by
          rw [Nat.cast_natAbs, Int.cast_abs, ← hk, abs_mul, abs_of_pos hp]
        rw [htot, hk', Nat.ceil_natCast] at hlt
        rw [hk']
        exact_mod_cast hlt
    refine main u u0 hlim ?_ ?_
    · rw [hpt, hpt]
      push_cast
      rw [← sub_div, ← sub_div, add_sub_cancel_left, div_div]
    · rw [hpt]
      push_cast
      rw [div_div, div_le_iff₀ (by positivity)]
      have e : L / helixSpeed g V * (c.ppm.get ax * u) = |delta.get ax| * c.ppm.get ax +
          L / helixSpeed g V * (u - |delta.get ax| / L * helixSpeed g V) * c.ppm.get ax := by
        field_simp; ring
      have h3 : -(900001 * (3 / 10 ^ 10) * 1000) ≤
          L / helixSpeed g V * (u - |delta.get ax| / L * helixSpeed g V) * c.ppm.get ax := by
        have h4 : L / helixSpeed g V * (-(u - |delta.get ax| / L * helixSpeed g V)) * c.ppm.get ax ≤
            900001 * (3 / 10 ^ 10) * 1000 := by
          have h5 : L / helixSpeed g V * (-(u - |delta.get ax| / L * helixSpeed g V)) ≤
              L / helixSpeed g V * (3 / 10 ^ 10) := by gcongr; linarith
          calc _ ≤ L / helixSpeed g V * (3 / 10 ^ 10) * c.ppm.get ax := by gcongr
            _ ≤ _ := by gcongr
        linarith
      rw [e]
      norm_num at h3
      linarith
  have rA : ρ * c.ppm.get (axisA plane) = (R : ℝ) := by rw [hz.radA, ht.rA]
  have rB : ρ * c.ppm.get (axisB plane) = (RB : ℝ) := by rw [hz.radB, ht.rB]
  rcases axis_cases plane ax with rfl | rfl | rfl | rfl
  · have hm : g.totals (axisA plane) = g.itA.toNat := by simp [CircGen.totals, hpl]
    refine inPlane _ _ _ _ ht.ta hm ?_ rA (fun j => by simp [arcPt, hpl]) lA
    rcases hi with hi | ⟨hi | hi, -⟩
    · omega
    · exact absurd hi.symm (axis3_ne_a _)
    · exact absurd hi.symm (axisE_ne_a _)
  · have hm : g.totals (axisB plane) = g.itB.toNat := by simp [CircGen.totals, hpl, axisB_ne]
    refine inPlane _ _ _ _ ht.tb hm ?_ rB (fun j => by simp [arcPt, hpl, axisB_ne]) lB
    rcases hi with hi | ⟨hi | hi, -⟩
    · omega
    · exact absurd hi.symm (axis3_ne_b _)
    · exact absurd hi.symm (axisE_ne_b _)
  · refine other g.vel3 hx.vel3 sh3 hx.low3 ?_ (fun j => ?_) l3 (hi.imp id And.right)
    · simp [CircGen.totals, hpl, axis3_ne_a, axis3_ne_b, hf3]
    · simp [arcPt, hpl, axis3_ne_a, axis3_ne_b]
  · refine other g.velE hx.velE shE hx.lowE ?_ (fun j => ?_) lE (hi.imp id And.right)
    · simp [CircGen.totals, axisE_ne_a, axisE_ne_b, axisE_ne_3, hfE]; rfl
    · simp [arcPt, axisE_ne_a, axisE_ne_b, axisE_ne_3]

/-- The quarter of a circle of radius 10 mm with 1 mm of filament: no two pulses of the extruder are closer
than at 25 mm/s, the last two included. -/
example [PyRound] (rot : Rot) : ∃ (g : CircGen ℝ) (evs : List (Event ℝ)),
    CircGen.new Cfg.default ⟨10, 10, 0, 1⟩ ⟨10, 0, 0, 0⟩ .xy rot 600 = .ok g ∧
      Emits Cfg.default (.circular g) evs ∧
      ∀ i τ₁ τ₂, (stepTimes .e evs)[i]? = some τ₁ → (stepTimes .e evs)[i + 1]? = some τ₂ →
        1 / ((Cfg.default.ppm.get .e : ℝ) * ((Cfg.default.maxVel.get .e : ℝ) / 60)) ≤ τ₂ - τ₁ := by
  have ho : OrdinaryArc Cfg.default ⟨10, 10, 0, 1⟩ ⟨10, 0, 0, 0⟩ .xy 600 :=
    quarter_arc 1 (.inr (by norm_num)) (by norm_num)
  obtain ⟨g, evs, hg, he⟩ := C36_no_exception_partial sane_cfg ho rot
  refine ⟨g, evs, hg, he, fun i τ₁ τ₂ h1 h2 => ?_⟩
  refine C76_helix_partial sane_cfg (default_limits true) rfl ho (quarter_arc_ahead 1) hg he h1 h2
    (.inr ⟨.inr rfl, 150, ?_⟩)
  simp only [V4.get, Cfg.default]; norm_num

/-- **C77 for all long ordinary arcs.** An arc that is long enough to reach its speed, also one that moves
the third axis or the extruder, starts at rest, and the way along the circle, the way of the third axis and
that of the extruder are motions that never exceed the acceleration by more than a ten-millionth: they are
the parts of one way `s` of length `L`, with the speed `u`, which never exceeds the feed by more than the
rounding to ten digits, and all motors are always within a few steps of the place that belongs to `s`.

Missing: the end, where such arcs do not come to rest (`C77_rest_refuted`; those in a plane do,
`C77_acceleration_partial`), short arcs (`C77_short_refuted`), the acceleration towards the centre
(`C77_centre_refuted`), arcs whose end lies before their start in the same quarter of the circle. -/
theorem C77_helix_partial [PyRound] {c : Cfg} {delta radius : V4 ℝ} {plane : Plane} {v : ℝ}
    (hc : SaneCfg c) (h : OrdinaryArc c delta radius plane v) {rot : Rot}
    (hb : ¬ BackInQuarter plane delta radius) {T : ℝ} (hT : Sweep plane delta radius rot T)
    (hlong : (v / 60 + 1 / 10 ^ 10) ^ 2 ≤ c.accel * max (T * (startDist plane radius - 1 / 2 / coarse c plane))
      (max |delta.get (axis3 plane)| |delta.e|))
    {g : CircGen ℝ} (hg : CircGen.new c delta radius plane rot v = .ok g) {evs : List (Event ℝ)}
    (he : Emits c (.circular g) evs) :
    ∃ (s u : ℝ → ℝ) (ρ L : ℝ), |ρ - startDist plane radius| ≤ 1 / 2 / coarse c plane ∧
      L = √((T * ρ) ^ 2 + delta.get (axis3 plane) ^ 2 + delta.e ^ 2) ∧ s 0 = 0 ∧ u 0 = 0 ∧
      (∀ x, x = T * ρ ∨ x = |delta.get (axis3 plane)| ∨ x = |delta.e| →
        Motion (c.accel * (1 + 1 / 10 ^ 7)) (fun t => x / L * s t) (fun t => x / L * u t)) ∧
      (∀ t, 0 ≤ t → t ≤ (Gen.circular g).totalTime → 0 ≤ u t ∧ u t ≤ v / 60 + 2 / 10 ^ 10) ∧
      L ≤ s (Gen.circular g).totalTime ∧ (∀ t, ∃ n, AtTime evs t n) ∧
      ∀ n t, 0 ≤ t → t ≤ (Gen.circular g).totalTime → AtTime evs t n →
        |startA plane radius * c.ppm.get (axisA plane) + netSteps c (axisA plane) (evs.take n) -
          turnedA plane radius rot (min (s t) L / L * T) * c.ppm.get (axisA plane)| ≤ 5 / 2 ∧
        |startB plane radius * c.ppm.get (axisB plane) + netSteps c (axisB plane) (evs.take n) -
          turnedB plane radius rot (min (s t) L / L * T) * c.ppm.get (axisB plane)| ≤ 5 / 2 ∧
        ∀ ax, ax = axis3 plane ∨ ax = .e →
          |(netSteps c ax (evs.take n) : ℝ) - min (s t) L / L * (delta.get ax * c.ppm.get ax)| ≤ 13 / 10 := by
  obtain ⟨g', hg', hgood, -⟩ := arc_good hc h rot
  obtain rfl : g = g' := Except.ok.inj (hg.symm.trans hg')
  obtain ⟨R, RB, A, B, uA, uB, φ, ht⟩ := arc_tracks h.grid hg hb
  have hbase := hgood.toCircBase
  have hl := lin_nonneg hg
  obtain ⟨V, ρ, L, s, M, hx, hz⟩ := helix_new hc h hg
  have hTT : g.deltaAngle = T := by
    obtain ⟨φs, φe, hf, hd⟩ := new_turn hg
    rw [hd]
    exact arcTurn_sweep hf.angS hf.angE hT
  obtain ⟨φs, φe, hf⟩ := new_facts hg
  have hL := hx.L0
  have hW := hz.speed_pos hx
  have hA := hz.acc_pos hx
  have ha := hz.a0
  have hM := hz.M0 hx
  have hWM := hz.le_M hx
  have hfit := hz.fits hx
  have htot := hz.total hx
  have hnear := abs_le.1 (hz.speed_near hx)
  have hsge := hx.s_ge
  have hrad := hz.radius_near hx hc.ppm_pos
  have hlen := hz.len
  obtain ⟨shA, sh3, shE⟩ := hz.shares hx
  rw [div_le_one hL] at shA sh3 shE
  have hT0 := hx.T0
  have hρ0 := hx.ρ0
  -- the arc is long
  have hacc : g.accT = M / c.accel := by
    rcases hz.shape with ⟨-, h1, -⟩ | ⟨h1, -, -⟩
    · exact h1
    · exfalso
      have hMs : M ≤ v / 60 + 1 / 10 ^ 10 := by
        have key : ∀ u x : ℝ, |u - x / L * s| ≤ 1 / 10 ^ 10 → x ≤ L → u ≤ v / 60 + 1 / 10 ^ 10 := by
          intro u x h1 h2
          have h3 : x / L * s ≤ 1 * s := by
            gcongr
            rwa [div_le_one hL]
          have := (abs_le.1 h1).2
          have := hz.feed
          linarith
        rcases hz.mem with e | e | e <;> rw [e]
        · exact key _ _ hx.arc shA
        · exact key _ _ hx.vel3 sh3
        · exact key _ _ hx.velE shE
      rw [lt_div_iff₀ ha] at h1
      have h2 : M ^ 2 ≤ (v / 60 + 1 / 10 ^ 10) ^ 2 := by gcongr
      have h3 : max (T * (startDist plane radius - 1 / 2 / coarse c plane))
          (max |delta.get (axis3 plane)| |delta.e|) ≤ L := by
        refine max_le (le_trans ?_ shA) (max_le sh3 shE)
        rw [hTT] at hT0 ⊢
        gcongr
        linarith [(abs_le.1 hrad).1]
      have h4 : c.accel * max (T * (startDist plane radius - 1 / 2 / coarse c plane))
          (max |delta.get (axis3 plane)| |delta.e|) ≤ c.accel * L := by gcongr
      linarith
  have key : ∀ x u : ℝ, 0 ≤ x → x ≤ L → |u - x / L * s| ≤ 1 / 10 ^ 10 → u ≤ M →
      Motion (c.accel * (1 + 1 / 10 ^ 7))
        (fun t => x / L * (helixSpeed g V * travel (2 * g.accT) g.accT g.linT t))
        (fun t => x / L * (helixSpeed g V * speed (2 * g.accT) g.accT g.linT t)) := by
    intro x u hx0 hxL hu huM
    have hη := (abs_le.1 (hz.share hx (by positivity) ((div_le_one hL).2 hxL) hu)).1
    refine ⟨fun t => ((hasDerivAt_travel _ _ _ t).const_mul _).const_mul _, fun t₁ t₂ => ?_⟩
    have hlip := speed_lip (k := 2 * g.accT) (A := g.accT) (B := g.linT) (by linarith) hl t₁ t₂
    rw [← mul_sub, ← mul_sub, ← mul_assoc, abs_mul, abs_of_nonneg (by positivity)]
    calc x / L * helixSpeed g V * |speed (2 * g.accT) g.accT g.linT t₁ - speed (2 * g.accT) g.accT g.linT t₂|
        ≤ (M + 3 / 10 ^ 10) * (2 / (2 * g.accT) * |t₁ - t₂|) := by
          gcongr
          linarith
      _ = c.accel * (1 + 3 / 10 ^ 10 / M) * |t₁ - t₂| := by rw [hacc]; field_simp
      _ ≤ _ := by
          have hsmall : 3 / 10 ^ 10 / M ≤ 1 / 10 ^ 7 := by
            rw [div_le_iff₀ hM]
            norm_num at hnear hsge ⊢
            linarith [hnear.1]
          gcongr
  refine ⟨fun t => helixSpeed g V * travel (2 * g.accT) g.accT g.linT t,
    fun t => helixSpeed g V * speed (2 * g.accT) g.accT g.linT t, ρ, L, hrad, by rw [← hTT]; exact hlen, ?_, ?_, ?_,
    fun t h0 h1 => ?_, ?_, arc_atTime ht hbase hl he, fun n t h0 h1 hat => ?_⟩
  · simp only [travel_zero hA.le hl, mul_zero]
  · simp only [speed]
    rw [pos_of_nonpos (by linarith), pos_of_nonpos (by linarith)]; simp
  · rintro x (rfl | rfl | rfl)
    · rw [← hTT]
      exact key _ _ (by positivity) shA hx.arc hz.V_le
    · exact key _ _ (abs_nonneg _) sh3 hx.vel3 hz.v3_le
    · exact key _ _ (abs_nonneg _) shE hx.velE hz.vE_le
  · have p1 := speed_le (k := 2 * g.accT) (A := g.accT) (B := g.linT) (t := t) (by linarith)
    rw [div_self (by positivity)] at p1
    constructor
    · exact mul_nonneg hW.le (speed_nonneg (by linarith) h0 (by rwa [htot] at h1) hA.le hl)
    · have := mul_le_mul_of_nonneg_left p1 hW.le
      have := hz.feed
      dsimp only
      linarith [hnear.2]
  · have e1 : 2 * (g.accT * g.accT / (2 * g.accT)) = g.accT := by field_simp
    dsimp only
    rw [htot, travel_end (by linarith) hA.le hl (.inl rfl), e1]
    rw [div_le_iff₀ hW] at hfit; linarith
  · obtain ⟨r1, r2⟩ := hz.plane_at hx ht hbase hl hc.ppm_le he h0 h1 hat
    rw [hTT] at r1 r2
    exact ⟨r1, r2, fun ax hax => hz.net_at hx ht hbase hl hf hc.ppm_le he h0 h1 hat hax⟩

/-- The quarter of a circle of radius 10 mm with 1 mm of filament at 10 mm/s is long enough. -/
example [PyRound] : ∃ T, Sweep .xy ⟨10, 10, 0, 1⟩ ⟨10, 0, 0, 0⟩ .cw T ∧
    OrdinaryArc Cfg.default ⟨10, 10, 0, 1⟩ ⟨10, 0, 0, 0⟩ .xy 600 ∧
    ((600 : ℝ) / 60 + 1 / 10 ^ 10) ^ 2 ≤ Cfg.default.accel *
      max (T * (startDist .xy ⟨10, 0, 0, 0⟩ - 1 / 2 / coarse Cfg.default .xy))
        (max |(⟨10, 10, 0, 1⟩ : V4 ℝ).get (axis3 .xy)| |(⟨10, 10, 0, 1⟩ : V4 ℝ).e|) := by
  have h5 : √(100 : ℝ) = 10 := by
    rw [show (100 : ℝ) = 10 ^ 2 by norm_num]; exact Real.sqrt_sq (by norm_num)
  have hs : startDist .xy ⟨10, 0, 0, 0⟩ = 10 := by
    simp only [startDist, startA, startB, axisA, axisB, V4.get]; norm_num; exact h5
  have hd : endDist .xy ⟨10, 10, 0, 1⟩ ⟨10, 0, 0, 0⟩ = 10 := by
    simp only [endDist, endA, endB, axisA, axisB, V4.get]; norm_num; exact h5
  have hpi := pi_pos
  refine ⟨π / 2, ⟨by linarith, by linarith, ?_, ?_⟩, quarter_arc 1 (.inr (by norm_num)) (by norm_num), ?_⟩
  · rw [hs, hd]; simp [startA, startB, endA, axisA, axisB, V4.get]
  · rw [hs, hd]; simp [startA, startB, endB, axisA, axisB, V4.get]
  · have hacc : ((Cfg.default.accel : ℚ) : ℝ) = 3000 := by norm_num [Cfg.default]
    rw [hacc]
    refine le_trans ?_ (mul_le_mul_of_nonneg_left (le_max_right _ _) (by norm_num))
    refine le_trans ?_ (mul_le_mul_of_nonneg_left (le_max_right _ _) (by norm_num))
    norm_num

/-- **C77 is false at the end of a helix**: it is driven as if it were longer than it is, so all
motors are done while the speed is still high.  One turn of radius 10 mm that climbs 60 mm at 100 mm/s stops
dead: no motion with even twice the acceleration stays within two steps of the pulses of the Z axis. -/
theorem C77_rest_refuted [PyRound] : SaneCfg swiftCfg ∧
    OrdinaryArc swiftCfg ⟨0, 0, 60, 0⟩ ⟨10, 0, 0, 0⟩ .xy 6000 ∧
    ¬ BackInQuarter .xy ⟨0, 0, 60, 0⟩ ⟨10, 0, 0, 0⟩ ∧
    ((6000 : ℝ) / 60 + 1 / 10 ^ 10) ^ 2 ≤ swiftCfg.accel * |(⟨0, 0, 60, 0⟩ : V4 ℝ).z| ∧
    ∃ g evs, CircGen.new swiftCfg ⟨0, 0, 60, 0⟩ ⟨10, 0, 0, 0⟩ .xy .cw 6000 = .ok g ∧
      Emits swiftCfg (.circular g) evs ∧
      ¬ ∃ s u : ℝ → ℝ, Motion (2 * swiftCfg.accel) s u ∧
        ∀ n t, 0 ≤ t → t ≤ (Gen.circular g).totalTime → AtTime evs t n →
          |s t * swiftCfg.ppm.get .z - (netSteps swiftCfg .z (evs.take n) : ℝ)| ≤ 2 := by
  refine ⟨swift_sane, climb_arc, climb_ahead, ?_, ?_⟩
  · have hacc : ((swiftCfg.accel : ℚ) : ℝ) = 3000 := by norm_num [swiftCfg, Cfg.default]
    rw [hacc]
    norm_num
  obtain ⟨g, evs, hg, he⟩ := C36_no_exception_partial swift_sane climb_arc .cw
  refine ⟨g, evs, hg, he, ?_⟩
  rintro ⟨s, u, hm, hn⟩
  exact climb_stop hg he hm hn

end PyCNC.Props
