import Verif.Lemmas.ArcRateWitness
import Verif.Lemmas.LinearWitness
import Verif.Props.ArcPath

/-!
# Property C76: the step rate of circular moves

Exact arithmetic, for every nearest-integer rounding (`PyRound`).
-/

set_option linter.unusedSectionVars false

namespace PyCNC.Props

open PyCNC Spec Real

variable [PyRound]

/-- What the two axes of an arc have in common. -/
theorem arc_axis_gap {c : Cfg} {delta radius : V4 ℝ} {plane : Plane} {v : ℝ}
    (hc : SaneCfg c) (h : OrdinaryArc c delta radius plane v) {rot : Rot}
    (z3 : delta.get (axis3 plane) = 0) (zE : delta.e = 0)
    (hb : ¬ BackInQuarter plane delta radius) {g : CircGen ℝ}
    (hg : CircGen.new c delta radius plane rot v = .ok g) {evs : List (Event ℝ)}
    (he : Emits c (.circular g) evs) {ax : Axis} (hax : ax = axisA plane ∨ ax = axisB plane) {i : ℕ}
    {τ₁ τ₂ : ℝ} (h1 : (stepTimes ax evs)[i]? = some τ₁)
    (h2 : (stepTimes ax evs)[i + 1]? = some τ₂) :
    ∃ V, 0 < V ∧ V ≤ v / 60 + 1 / 10 ^ 10 ∧
      (c.autoVel = true → DecimalLimits c → V ≤ (c.maxVel.get ax : ℝ) / 60) ∧
      1 / 2 / ((c.ppm.get ax : ℝ) * V) ≤ τ₂ - τ₁ ∧
      (i + 2 < steps ax evs → 1 / ((c.ppm.get ax : ℝ) * V) ≤ τ₂ - τ₁) ∧
      ((∃ k : ℤ, endDist plane delta radius * c.ppm.get ax = k) →
        1 / ((c.ppm.get ax : ℝ) * V) ≤ τ₂ - τ₁) := by
  obtain ⟨V, ρ, hfl⟩ := flat_arc hc h hg z3 zE
  obtain ⟨g', hg', hgood, -⟩ := arc_good hc h rot
  obtain rfl : g = g' := Except.ok.inj (hg.symm.trans hg')
  obtain ⟨R, RB, A, B, uA, uB, φ, ht⟩ := arc_tracks h.grid hg hb
  have hbase := hgood.toCircBase
  have hl := lin_nonneg hg
  obtain ⟨hst, htm⟩ := ht.times hbase hl he ax
  rw [htm, List.getElem?_map] at h1 h2
  have hlt : i + 1 < g.totals ax := by
    by_contra hcon
    rw [List.getElem?_eq_none (by simpa using hcon)] at h2
    cases h2
  rw [List.getElem?_range hlt] at h2
  rw [List.getElem?_range (by omega)] at h1
  obtain rfl := Option.some.inj h1
  obtain rfl := Option.some.inj h2
  clear h1 h2
  have hV := hfl.V0
  have hp : (0 : ℝ) < c.ppm.get ax := by exact_mod_cast hc.ppm_pos ax
  have fin : ∀ {x t₁ t₂ d : ℝ}, ρ * (t₂ - t₁) / V ≤ d → x ≤ ρ * c.ppm.get ax * (t₂ - t₁) →
      x / (c.ppm.get ax * V) ≤ d := fun {x t₁ t₂ d} a b => by
    refine le_trans ?_ a
    rw [div_le_div_iff₀ (by positivity) hV]
    nlinarith
  have main : ∀ (K u : ℤ) (ψ : ℝ) (m : ℕ), Track K u ψ g.deltaAngle m → g.totals ax = m →
      ρ * c.ppm.get ax = K →
      (∀ j, arcPt c rot g R RB uA uB φ ax j = g.rDivV * turnAt K u ψ g.deltaAngle m j) →
      ((∃ k : ℤ, endDist plane delta radius * c.ppm.get ax = k) →
        K * sin (Psi K (u + m)) = K * sin (ψ + g.deltaAngle)) →
      (c.autoVel = true → DecimalLimits c → V ≤ (c.maxVel.get ax : ℝ) / 60) →
      ∃ V, 0 < V ∧ V ≤ v / 60 + 1 / 10 ^ 10 ∧
      (c.autoVel = true → DecimalLimits c → V ≤ (c.maxVel.get ax : ℝ) / 60) ∧
      1 / 2 / ((c.ppm.get ax : ℝ) * V) ≤
        (Gen.circular g).sendTime c (arcPt c rot g R RB uA uB φ ax (i + 1)) -
        (Gen.circular g).sendTime c (arcPt c rot g R RB uA uB φ ax i) ∧
      (i + 2 < steps ax evs → 1 / ((c.ppm.get ax : ℝ) * V) ≤
        (Gen.circular g).sendTime c (arcPt c rot g R RB uA uB φ ax (i + 1)) -
        (Gen.circular g).sendTime c (arcPt c rot g R RB uA uB φ ax i)) ∧
      ((∃ k : ℤ, endDist plane delta radius * c.ppm.get ax = k) →
        1 / ((c.ppm.get ax : ℝ) * V) ≤
        (Gen.circular g).sendTime c (arcPt c rot g R RB uA uB φ ax (i + 1)) -
        (Gen.circular g).sendTime c (arcPt c rot g R RB uA uB φ ax i)) := by
    intro K u ψ m hT hm hK hpt hE hlim
    rw [hst, hm]
    rw [hm] at hlt
    obtain ⟨k1, k2, k3⟩ := hT.turn_gap hlt
    rw [← hK] at k1 k2
    have hgap := hfl.gap hl (hT.turn_pos (by omega : i < m)).le
      (hT.turn_lt (Nat.lt_succ_self i) hlt).le (hT.turn_le hlt)
    rw [hpt, hpt]
    refine ⟨V, hV, hfl.feed, hlim, fin hgap k2, fun h => fin hgap (k1 h), fun h => fin hgap ?_⟩
    have := k3 (hE h)
    rwa [← hK] at this
  have hpl := ht.plane_eq
  obtain ⟨eA, eB⟩ := ht.end_exact h.grid h.start hg hb he
  rcases hax with rfl | rfl
  · refine main R _ _ _ ht.ta ?_ ?_ ?_ eA fun a b => (hfl.limit a b).1
    · simp [CircGen.totals, hpl]
    · rw [hfl.ppmA, ht.rA]
    · intro j; simp [arcPt, hpl]
  · refine main RB _ _ _ ht.tb ?_ ?_ ?_ eB fun a b => (hfl.limit a b).2
    · simp [CircGen.totals, hpl, axisB_ne]
    · rw [hfl.ppmB, ht.rB]
    · intro j; simp [arcPt, hpl, axisB_ne]

/-- **C76.** With automatic velocity adjustment two successive step pulses of an axis of the plane
of an ordinary arc are at least as far apart as they are at its maximum velocity; the last two
pulses of the axis at least half as far, and in full when the end of the arc is a whole number of
steps away from its centre.

Missing: arcs that move a third axis or the extruder (`C76_helix_partial`), arcs whose end lies before their start in the
same quarter of the circle, and the last step of an axis when the end is not exactly on the circle
(`C76_refuted`). -/
theorem C76_step_rate_partial {c : Cfg} {delta radius : V4 ℝ} {plane : Plane} {v : ℝ}
    (hc : SaneCfg c) (hd : DecimalLimits c) (ha : c.autoVel = true)
    (h : OrdinaryArc c delta radius plane v) {rot : Rot}
    (hflat : delta.get (axis3 plane) = 0 ∧ delta.e = 0)
    (hb : ¬ BackInQuarter plane delta radius) {g : CircGen ℝ}
    (hg : CircGen.new c delta radius plane rot v = .ok g) {evs : List (Event ℝ)}
    (he : Emits c (.circular g) evs) {ax : Axis} (hax : ax = axisA plane ∨ ax = axisB plane) {i : ℕ}
    {τ₁ τ₂ : ℝ} (h1 : (stepTimes ax evs)[i]? = some τ₁)
    (h2 : (stepTimes ax evs)[i + 1]? = some τ₂) :
    1 / 2 / ((c.ppm.get ax : ℝ) * ((c.maxVel.get ax : ℝ) / 60)) ≤ τ₂ - τ₁ ∧
    ((i + 2 < steps ax evs ∨ ∃ k : ℤ, endDist plane delta radius * c.ppm.get ax = k) →
      1 / ((c.ppm.get ax : ℝ) * ((c.maxVel.get ax : ℝ) / 60)) ≤ τ₂ - τ₁) := by
  obtain ⟨V, hV, -, hlim, k1, k2, k3⟩ := arc_axis_gap hc h hflat.1 hflat.2 hb hg he hax h1 h2
  have hp : (0 : ℝ) < c.ppm.get ax := by exact_mod_cast hc.ppm_pos ax
  have hVm := hlim ha hd
  have key : ∀ x : ℝ, 0 ≤ x → x / ((c.ppm.get ax : ℝ) * ((c.maxVel.get ax : ℝ) / 60)) ≤
      x / ((c.ppm.get ax : ℝ) * V) := fun x hx =>
    div_le_div_of_nonneg_left hx (by positivity) (mul_le_mul_of_nonneg_left hVm hp.le)
  refine ⟨(key _ (by norm_num)).trans k1, ?_⟩
  rintro (hx | hx)
  · exact (key _ (by norm_num)).trans (k2 hx)
  · exact (key _ (by norm_num)).trans (k3 hx)

/-- **C76.** The head never goes faster than the programmed feed along the arc: successive pulses of
an axis are at least as far apart as steps of the circle at this speed (rounded to ten digits), with
or without velocity adjustment.  Missing: as for `C76_step_rate_partial`. -/
theorem C76_feed_partial {c : Cfg} {delta radius : V4 ℝ} {plane : Plane} {v : ℝ}
    (hc : SaneCfg c) (h : OrdinaryArc c delta radius plane v) {rot : Rot}
    (hflat : delta.get (axis3 plane) = 0 ∧ delta.e = 0)
    (hb : ¬ BackInQuarter plane delta radius) {g : CircGen ℝ}
    (hg : CircGen.new c delta radius plane rot v = .ok g) {evs : List (Event ℝ)}
    (he : Emits c (.circular g) evs) {ax : Axis} (hax : ax = axisA plane ∨ ax = axisB plane) {i : ℕ}
    {τ₁ τ₂ : ℝ} (h1 : (stepTimes ax evs)[i]? = some τ₁)
    (h2 : (stepTimes ax evs)[i + 1]? = some τ₂) :
    1 / 2 / ((c.ppm.get ax : ℝ) * (v / 60 + 1 / 10 ^ 10)) ≤ τ₂ - τ₁ ∧
    ((i + 2 < steps ax evs ∨ ∃ k : ℤ, endDist plane delta radius * c.ppm.get ax = k) →
      1 / ((c.ppm.get ax : ℝ) * (v / 60 + 1 / 10 ^ 10)) ≤ τ₂ - τ₁) := by
  obtain ⟨V, hV, hVm, -, k1, k2, k3⟩ := arc_axis_gap hc h hflat.1 hflat.2 hb hg he hax h1 h2
  have hp : (0 : ℝ) < c.ppm.get ax := by exact_mod_cast hc.ppm_pos ax
  have key : ∀ x : ℝ, 0 ≤ x → x / ((c.ppm.get ax : ℝ) * (v / 60 + 1 / 10 ^ 10)) ≤
      x / ((c.ppm.get ax : ℝ) * V) := fun x hx =>
    div_le_div_of_nonneg_left hx (by positivity) (mul_le_mul_of_nonneg_left hVm hp.le)
  refine ⟨(key _ (by norm_num)).trans k1, ?_⟩
  rintro (hx | hx)
  · exact (key _ (by norm_num)).trans (k2 hx)
  · exact (key _ (by norm_num)).trans (k3 hx)

/-- The quarter of a circle of radius 10 mm: the pulses of X and Y are never closer than at 400 mm/s
and 200 mm/s, nor closer than at the programmed 10 mm/s. -/
example (rot : Rot) : ∃ (g : CircGen ℝ) (evs : List (Event ℝ)),
    CircGen.new Cfg.default ⟨10, 10, 0, 0⟩ ⟨10, 0, 0, 0⟩ .xy rot 600 = .ok g ∧
      Emits Cfg.default (.circular g) evs ∧
      ∀ i τ₁ τ₂, (stepTimes .y evs)[i]? = some τ₁ → (stepTimes .y evs)[i + 1]? = some τ₂ →
        1 / ((Cfg.default.ppm.get .y : ℝ) * ((Cfg.default.maxVel.get .y : ℝ) / 60)) ≤ τ₂ - τ₁ := by
  have ho : OrdinaryArc Cfg.default ⟨10, 10, 0, 0⟩ ⟨10, 0, 0, 0⟩ .xy 600 :=
    quarter_arc 0 (.inl rfl) (by simp)
  obtain ⟨g, evs, hg, he⟩ := C36_no_exception_partial sane_cfg ho rot
  refine ⟨g, evs, hg, he, fun i τ₁ τ₂ h1 h2 => ?_⟩
  refine (C76_step_rate_partial sane_cfg (default_limits true) rfl ho ⟨rfl, rfl⟩
    (quarter_arc_ahead 0) hg he (.inr rfl) h1 h2).2 (.inr ⟨1000, ?_⟩)
  have h5 : √(100 : ℝ) = 10 := by
    rw [show (100 : ℝ) = 10 ^ 2 by norm_num]; exact Real.sqrt_sq (by norm_num)
  have hd : endDist .xy ⟨10, 10, 0, 0⟩ ⟨10, 0, 0, 0⟩ = 10 := by
    simp only [endDist, endA, endB, axisA, axisB, V4.get]; norm_num; exact h5
  rw [hd]
  simp only [axisB, V4.get, Cfg.default]; norm_num

/-- **C76 is false** for the last step of an axis when the end of the arc is not a whole number of
steps away from the centre: a machine limited to 1 mm/s makes the last step of X of the arc from
(0, 0.08) to (0.06, 0.06) around the origin in less than the 10 ms that a step takes at 1 mm/s. -/
theorem C76_refuted : SaneCfg slowCfg ∧ DecimalLimits slowCfg ∧ slowCfg.autoVel = true ∧
    slowCfg.maxVel.get .x = 60 ∧ slowCfg.ppm.get .x = 100 ∧
    OrdinaryArc slowCfg lastDelta lastRadius .xy 60 ∧ ¬ BackInQuarter .xy lastDelta lastRadius ∧
    ∃ g evs τ₁ τ₂, CircGen.new slowCfg lastDelta lastRadius .xy .cw 60 = .ok g ∧
      Emits slowCfg (.circular g) evs ∧ (stepTimes .x evs)[4]? = some τ₁ ∧
      (stepTimes .x evs)[5]? = some τ₂ ∧
      τ₂ - τ₁ < 1 / ((slowCfg.ppm.get .x : ℝ) * ((slowCfg.maxVel.get .x : ℝ) / 60)) := by
  refine ⟨slow_sane, slow_limits, rfl, rfl, rfl, last_ordinary, last_ahead, ?_⟩
  obtain ⟨g, evs, hg, he⟩ := C36_no_exception_partial slow_sane last_ordinary .cw
  obtain ⟨τ₁, τ₂, h1, h2, h3⟩ := last_fast hg he
  refine ⟨g, evs, τ₁, τ₂, hg, he, h1, h2, h3.trans_eq ?_⟩
  norm_num [slowCfg, Cfg.default, V4.get]

end PyCNC.Props
