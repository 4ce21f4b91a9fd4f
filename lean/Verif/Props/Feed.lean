import Verif.Lemmas.Feed
import Verif.Props.ArcAccel

/-!
# Property C80: moves run at the programmed feed

Exact arithmetic, for every nearest-integer rounding (`PyRound`).
-/

namespace PyCNC.Props

open PyCNC Spec Real

/-- **C80.** A straight move has speeds `w` of the motors, which are the programmed feed in the
direction of the move, or, with automatic adjustment, a lower speed in that direction at which some
axis reaches its limit.  From `|w| / a` seconds after the start until `|w| / a` seconds before the
end, every motor steps uniformly with these speeds.  The whole move takes at least the time its length
takes at the speed `|w|`, and at most `2 |w| / a` more. -/
theorem C80_feed [PyRound] {c : Cfg} {delta : V4 ℝ} {v : ℝ} (hc : SaneCfg c)
    (hm : OrdinaryMove delta v) {g : LinearGen ℝ} (hg : LinearGen.new c delta v = .ok g)
    {evs : List (Event ℝ)} (he : Emits c (.linear g) evs) :
    ∃ w : V4 ℝ, FeedVelocity c delta v w ∧ 0 < norm4 w ∧
      (∀ (ax : Axis) (i j : ℕ) (τ σ : ℝ), (stepTimes ax evs)[i]? = some τ →
        (stepTimes ax evs)[j]? = some σ →
        norm4 w / c.accel ≤ τ → τ ≤ (Gen.linear g).totalTime - norm4 w / c.accel →
        norm4 w / c.accel ≤ σ → σ ≤ (Gen.linear g).totalTime - norm4 w / c.accel →
        (σ - τ) * w.get ax * c.ppm.get ax = (j : ℝ) - i) ∧
      norm4 delta / norm4 w ≤ (Gen.linear g).totalTime ∧
      (Gen.linear g).totalTime ≤ norm4 delta / norm4 w + 2 * (norm4 w / c.accel) := by
  have hlf := linear_facts hc hm hg
  obtain ⟨r, he', _, _, _, hti, _⟩ := good_emits hlf.good
  cases emits_unique he he'
  obtain ⟨w, h1, h2, h3, h4, h5⟩ := linear_feed hc hm hg
  refine ⟨w, h1, h2, fun ax i j τ σ hτ hσ a1 a2 a3 a4 => ?_, h4, h5⟩
  have e : stepTimes ax (Event.dir (invertDirs c g.dir) :: r) = stepTimes ax r := rfl
  have key : ∀ {k : ℕ} {ρ : ℝ}, (stepTimes ax (Event.dir (invertDirs c g.dir) :: r))[k]? = some ρ →
      k < (g.total.get ax).toNat ∧ ρ = g.at c (g.pt c ax k) := by
    intro k ρ h
    rw [e, hti ax, List.getElem?_map] at h
    have hlt : k < (g.total.get ax).toNat := by
      by_contra hcon
      rw [List.getElem?_eq_none (by simpa using hcon)] at h
      cases h
    rw [List.getElem?_range hlt] at h
    cases h
    exact ⟨hlt, rfl⟩
  obtain ⟨b1, rfl⟩ := key hτ
  obtain ⟨b2, rfl⟩ := key hσ
  exact h3 ax i j b1 b2 a1 a3 a2 a4

/-- X30 Y40 at F3000 in the default configuration. -/
example [PyRound] : ∃ g : LinearGen ℝ, LinearGen.new Cfg.default ⟨30, 40, 0, 0⟩ 3000 = .ok g ∧
    SaneCfg Cfg.default ∧ OrdinaryMove ⟨30, 40, 0, 0⟩ 3000 ∧
    ∃ evs, Emits Cfg.default (.linear g) evs := by
  obtain ⟨g, h1, _⟩ := diag_new
  obtain ⟨r, he, _⟩ := good_emits (linear_facts (c := Cfg.default) (default_sane true) diag_ordinary h1).good
  exact ⟨g, h1, default_sane true, diag_ordinary, _, he⟩

/-- **C80 for arcs.** An arc is followed with a speed `V`, which is the feed, or, with automatic
adjustment, the limit of one of the two axes: from `V / a` seconds after the start until `V / a` seconds
before the end the way `s` along the circle grows uniformly with `V`; it never grows faster, nor shrinks,
and both motors are always within two steps of the start turned by the angle that belongs to `s`.  The
arc takes the time of its length at the speed `V`, and at most `V / a` more.

Missing: arcs that move a third axis or the extruder (`C80_helix_partial`), arcs whose end lies before their start in the same
quarter of the circle (`C80_refuted`). -/
theorem C80_arc_partial [PyRound] {c : Cfg} {delta radius : V4 ℝ} {plane : Plane} {v : ℝ}
    (hc : SaneCfg c) (hd : DecimalLimits c) (h : OrdinaryArc c delta radius plane v) {rot : Rot}
    (hflat : delta.get (axis3 plane) = 0 ∧ delta.e = 0)
    (hb : ¬ BackInQuarter plane delta radius) {T : ℝ} (hT : Sweep plane delta radius rot T)
    {g : CircGen ℝ} (hg : CircGen.new c delta radius plane rot v = .ok g) {evs : List (Event ℝ)}
    (he : Emits c (.circular g) evs) :
    ∃ (V ρ : ℝ) (s : ℝ → ℝ), ArcFeed c plane v V ∧ 0 < V ∧ 0 < ρ ∧
      |ρ - startDist plane radius| ≤ 1 / 2 / coarse c plane ∧ s 0 = 0 ∧
      s (Gen.circular g).totalTime = T * ρ ∧
      (∀ t t', 0 ≤ t → t ≤ t' → t' ≤ (Gen.circular g).totalTime →
        0 ≤ s t' - s t ∧ s t' - s t ≤ V * (t' - t)) ∧
      (∀ t t', V / c.accel ≤ t → t ≤ t' → t' ≤ (Gen.circular g).totalTime - V / c.accel →
        s t' - s t = V * (t' - t)) ∧
      T * ρ / V ≤ (Gen.circular g).totalTime ∧
      (Gen.circular g).totalTime ≤ T * ρ / V + V / c.accel ∧
      (∀ t, ∃ n, AtTime evs t n) ∧
      ∀ n t, 0 ≤ t → t ≤ (Gen.circular g).totalTime → AtTime evs t n →
        |startA plane radius * c.ppm.get (axisA plane) + netSteps c (axisA plane) (evs.take n) -
          turnedA plane radius rot (s t / ρ) * c.ppm.get (axisA plane)| ≤ 2 ∧
        |startB plane radius * c.ppm.get (axisB plane) + netSteps c (axisB plane) (evs.take n) -
          turnedB plane radius rot (s t / ρ) * c.ppm.get (axisB plane)| ≤ 2 := by
  obtain ⟨V, ρ, hfl⟩ := flat_arc hc h hg hflat.1 hflat.2
  obtain ⟨g', hg', hgood, -⟩ := arc_good hc h rot
  obtain rfl : g = g' := Except.ok.inj (hg.symm.trans hg')
  obtain ⟨R, RB, A, B, uA, uB, φ, ht⟩ := arc_tracks h.grid hg hb
  have hbase := hgood.toCircBase
  have hl := lin_nonneg hg
  have hTT : g.deltaAngle = T := by
    obtain ⟨φs, φe, hf, hd⟩ := new_turn hg
    rw [hd]
    exact arcTurn_sweep hf.angS hf.angE hT
  have hn := hfl.radius_near hc.ppm_pos
  obtain ⟨s1, -⟩ := hfl.starts hl
  obtain ⟨e1, -⟩ := hfl.ends hl
  have hV := hfl.V0
  have hρ := hfl.ρ0
  have hA := hfl.accT0
  have ha := hfl.a0
  have hT0 := hfl.T0
  rw [hTT] at hT0
  have hL : 0 < T * ρ := mul_pos hT0 hρ
  have htot := hfl.total
  have hfit : T * ρ ≤ V * (g.accT + g.linT) := by
    have := hfl.fits
    rw [hfl.rdv, hTT, div_mul_eq_mul_div, div_le_iff₀ hV] at this
    linarith
  -- the way without the end
  have hmono : ∀ t t', 0 ≤ t → t ≤ t' → t' ≤ (Gen.circular g).totalTime →
      0 ≤ arcWay g V t' - arcWay g V t ∧ arcWay g V t' - arcWay g V t ≤ V * (t' - t) := by
    intro t t' h0 h1 h2
    obtain hlt | rfl := h1.lt_or_eq
    · obtain ⟨x, hx, e⟩ := exists_hasDerivAt_eq_slope (arcWay g V) (arcPace g V) hlt
        (fun y _ => ((hfl.motion hl).1 y).continuousAt.continuousWithinAt)
        (fun y _ => (hfl.motion hl).1 y)
      obtain ⟨p1, p2⟩ := hfl.pace hl (t := x) (by linarith [hx.1]) (by linarith [hx.2])
      have : 0 < t' - t := by linarith
      rw [e] at p1 p2
      rw [div_le_iff₀ this] at p2
      rw [le_div_iff₀ this] at p1
      exact ⟨by linarith, p2⟩
    · simp
  refine ⟨V, ρ, fun t => min (arcWay g V t) (T * ρ), ?_, hV, hρ, hn, ?_, ?_, fun t t' h1 h2 h3 => ?_,
    fun t t' h1 h2 h3 => ?_, ?_, ?_, arc_atTime ht hbase hl he, fun n t h0 h1 hat => ?_⟩
  · rcases hfl.top with h1 | ⟨h1, h2⟩
    · exact .inl h1
    · exact .inr ⟨h1, hfl.feed, hfl.limit h1 hd, h2⟩
  · simp only [s1]; exact min_eq_left hL.le
  · simp only [e1]; exact min_eq_right hfit
  · obtain ⟨p1, p2⟩ := hmono t t' h1 h2 h3
    constructor
    · have : min (arcWay g V t) (T * ρ) ≤ min (arcWay g V t') (T * ρ) :=
        min_le_min_right _ (by linarith)
      linarith
    · simp only
      have hVt : 0 ≤ V * (t' - t) := mul_nonneg hV.le (by linarith)
      rcases min_cases (arcWay g V t) (T * ρ) with ⟨q, -⟩ | ⟨q, -⟩ <;> rw [q]
      · have := min_le_left (arcWay g V t') (T * ρ); linarith
      · have := min_le_right (arcWay g V t') (T * ρ); linarith
  · rcases hfl.shape with ⟨-, h4, h5⟩ | ⟨h4, h5, h6⟩
    · have e3 : V * (g.accT + g.linT) = T * ρ := by rw [h4, h5, hTT]; field_simp; ring
      rw [← h4] at h1 h3
      have hcap : ∀ x, 0 ≤ x → x ≤ (Gen.circular g).totalTime → arcWay g V x ≤ T * ρ := fun x x0 x1 => by
        have := (hmono x _ x0 x1 le_rfl).1
        rw [e1, e3] at this
        linarith
      simp only
      rw [min_eq_left (hcap t (by linarith) (by linarith)),
        min_eq_left (hcap t' (by linarith) (by linarith))]
      unfold arcWay
      rw [travel_uniform hA h1 (by linarith), travel_uniform hA (by linarith) (by linarith)]
      ring
    · exfalso
      have h7 : g.accT < V / c.accel := by
        rw [h5, Real.sqrt_lt' (by positivity), div_lt_iff₀ ha]
        calc _ < V ^ 2 / c.accel := h4
          _ = _ := by field_simp
      rw [htot, h6] at h3
      linarith
  · rw [htot, div_le_iff₀ hV]
    have : 0 ≤ V * g.accT := by positivity
    linarith
  · rcases hfl.shape with ⟨-, h4, h5⟩ | ⟨h4, h5, h6⟩
    · rw [htot, h4, h5, hTT]; linarith
    · rw [htot, h6, add_zero]
      have e4 : T * ρ = c.accel * (g.accT * g.accT) := by
        rw [h5, hTT, Real.mul_self_sqrt (by positivity)]; field_simp
      rw [e4, div_add_div _ _ hV.ne' ha.ne', le_div_iff₀ (by positivity)]
      nlinarith [sq_nonneg (c.accel * g.accT - V)]
  · have := hfl.at_time_min hbase hl ht he h0 h1 hat
    have e5 : min (arcWay g V t) (T * ρ) / ρ = min (arcWay g V t / ρ) g.deltaAngle := by
      rw [hTT, ← min_div_div_right hρ.le, mul_div_assoc T, div_self hρ.ne', mul_one]
    simp only
    rwa [e5]

/-- The quarter of a circle of radius 10 mm at 10 mm/s. -/
example [PyRound] : ∃ T, Sweep .xy ⟨10, 10, 0, 0⟩ ⟨10, 0, 0, 0⟩ .cw T ∧
    OrdinaryArc Cfg.default ⟨10, 10, 0, 0⟩ ⟨10, 0, 0, 0⟩ .xy 600 ∧
    ¬ BackInQuarter .xy ⟨10, 10, 0, 0⟩ ⟨10, 0, 0, 0⟩ ∧ DecimalLimits Cfg.default := by
  have h5 : √(100 : ℝ) = 10 := by
    rw [show (100 : ℝ) = 10 ^ 2 by norm_num]; exact Real.sqrt_sq (by norm_num)
  have hs : startDist .xy ⟨10, 0, 0, 0⟩ = 10 := by
    simp only [startDist, startA, startB, axisA, axisB, V4.get]; norm_num; exact h5
  have hd : endDist .xy ⟨10, 10, 0, 0⟩ ⟨10, 0, 0, 0⟩ = 10 := by
    simp only [endDist, endA, endB, axisA, axisB, V4.get]; norm_num; exact h5
  have hpi := pi_pos
  refine ⟨π / 2, ⟨by linarith, by linarith, ?_, ?_⟩, quarter_arc 0 (.inl rfl) (by simp),
    quarter_arc_ahead 0, default_limits true⟩
  · rw [hs, hd]; simp [startA, startB, endA, axisA, axisB, V4.get]
  · rw [hs, hd]; simp [startA, startB, endB, axisA, axisB, V4.get]

/-- **C80 is false** for arcs whose end lies before their start in the same quarter of the circle: on
the arc of 16 degrees from (4, 3) to (3, 4) around the origin no way along the circle that ends with the
arc is within 2 steps of the X motor; the machine goes round the whole circle instead. -/
theorem C80_refuted [PyRound] : OrdinaryArc Cfg.default ⟨-1, 1, 0, 0⟩ ⟨-4, -3, 0, 0⟩ .xy 600 ∧
    ∃ g evs, CircGen.new Cfg.default ⟨-1, 1, 0, 0⟩ ⟨-4, -3, 0, 0⟩ .xy .ccw 600 = .ok g ∧
      Emits Cfg.default (.circular g) evs ∧
      ¬ ∃ (T ρ : ℝ) (s : ℝ → ℝ), Sweep .xy ⟨-1, 1, 0, 0⟩ ⟨-4, -3, 0, 0⟩ .ccw T ∧ 0 < ρ ∧
        (∀ t, (Gen.circular g).totalTime ≤ t → s t = T * ρ) ∧
        ∀ n t, 0 ≤ t → AtTime evs t n →
          |startA .xy ⟨-4, -3, 0, 0⟩ * Cfg.default.ppm.get .x + netSteps Cfg.default .x (evs.take n) -
            turnedA .xy ⟨-4, -3, 0, 0⟩ .ccw (s t / ρ) * Cfg.default.ppm.get .x| ≤ 2 := by
  refine ⟨short_arc, ?_⟩
  obtain ⟨delta, radius, g, evs, rfl, rfl, h4, he, h5, -⟩ := C34_refuted
  refine ⟨g, evs, h4, he, ?_⟩
  rintro ⟨T, ρ, s, ⟨-, -, h1, -⟩, hρ, h2, h3⟩
  -- a time after all pulses
  obtain ⟨t, t0, t1, t2⟩ : ∃ t : ℝ, 0 ≤ t ∧ (Gen.circular g).totalTime ≤ t ∧
      ∀ ax, ∀ τ ∈ stepTimes ax evs, τ ≤ t := by
    have key : ∀ l : List ℝ, ∃ b : ℝ, ∀ τ ∈ l, τ ≤ b := fun l => by
      obtain ⟨b, hb⟩ := l.toFinset.bddAbove
      exact ⟨b, fun τ hτ => hb (by simpa using hτ)⟩
    obtain ⟨b1, k1⟩ := key (stepTimes .x evs)
    obtain ⟨b2, k2⟩ := key (stepTimes .y evs)
    obtain ⟨b3, k3⟩ := key (stepTimes .z evs)
    obtain ⟨b4, k4⟩ := key (stepTimes .e evs)
    refine ⟨max 0 (max (Gen.circular g).totalTime (max b1 (max b2 (max b3 b4)))), le_max_left _ _,
      (le_max_left _ _).trans (le_max_right _ _), fun ax τ hτ => ?_⟩
    cases ax
    · exact le_max_of_le_right (le_max_of_le_right (le_max_of_le_left (k1 τ hτ)))
    · exact le_max_of_le_right (le_max_of_le_right (le_max_of_le_right (le_max_of_le_left (k2 τ hτ))))
    · exact le_max_of_le_right (le_max_of_le_right (le_max_of_le_right
        (le_max_of_le_right (le_max_of_le_left (k3 τ hτ)))))
    · exact le_max_of_le_right (le_max_of_le_right (le_max_of_le_right
        (le_max_of_le_right (le_max_of_le_right (k4 τ hτ)))))
  have h6 := h3 evs.length t t0 ⟨by rw [List.take_length]; exact t2, by simp [stepTimes]⟩
  rw [List.take_length, h5, h2 t t1, mul_div_assoc, div_self hρ.ne', mul_one] at h6
  have h25 : √(25 : ℝ) = 5 := by
    rw [show (25 : ℝ) = 5 ^ 2 by norm_num]; exact Real.sqrt_sq (by norm_num)
  have hs : startDist .xy ⟨-4, -3, 0, 0⟩ = 5 := by
    simp only [startDist, startA, startB, axisA, axisB, V4.get]; norm_num; exact h25
  have he' : endDist .xy ⟨-1, 1, 0, 0⟩ ⟨-4, -3, 0, 0⟩ = 5 := by
    simp only [endDist, endA, endB, axisA, axisB, V4.get]; norm_num; exact h25
  rw [hs, he'] at h1
  have h7 : turnedA .xy ⟨-4, -3, 0, 0⟩ .ccw T = 3 := by
    have : endA .xy ⟨-1, 1, 0, 0⟩ ⟨-4, -3, 0, 0⟩ = 3 := by
      simp only [endA, axisA, V4.get]; norm_num
    rw [this] at h1
    unfold turnedA turnSign
    linarith
  rw [h7] at h6
  simp only [startA, axisA, V4.get, Cfg.default] at h6
  norm_num [abs_le] at h6

end PyCNC.Props
