import Verif.Lemmas.ArcCheckWitness
import Verif.Props.Head

/-!
# Property C79: the points of an arc that are checked

Exact arithmetic, for every nearest-integer rounding (`PyRound`).
-/

set_option linter.unusedSectionVars false

namespace PyCNC.Props

open PyCNC Spec Real

variable [PyRound] {c : Cfg} {env : Env ℝ} {delta radius : V4 ℝ} {v : ℝ} {rot : Rot} {s s' : MState ℝ}

/-- **C79, what holds.** When an arc of less than a full turn has been accepted, all points on its way
where it is outermost in the direction of an axis, except for the last, are on the table.

Missing: the last of these points (`C79_refuted`), and all of them when the end of the arc is rounded
to its start (`C79_turn_refuted`). -/
theorem C79_borders_partial (ht : StepTable c) (hpos : ∀ ax, ax ≠ .e → 0 ≤ s.pos.get ax ∧
      s.pos.get ax ≤ tableSize c ax)
    (h : moveCircular c env delta radius v rot s = (.ok (), s')) :
    ∃ g rest, s'.trace = rest ++ .move (.circular g) :: s.trace ∧
      CircGen.new c g.delta (roundToSteps c radius) s.plane rot v = .ok g ∧
      ∀ T, Sweep s.plane g.delta (roundToSteps c radius) rot T → T < 2 * π →
        ∀ ax, ax = axisA s.plane ∨ ax = axisB s.plane → ∀ θ θ', 0 < θ → θ < θ' → θ' < T →
          OutermostOn s.plane (roundToSteps c radius) rot θ ax →
          Outermost s.plane (roundToSteps c radius) rot θ' →
          TurnedOnTable c s.pos (roundToSteps c radius) s.plane rot θ ax := by
  rcases moveCircular_cases (c := c) (env := env) delta radius v rot s with ⟨e, h0, _⟩ |
    ⟨ce, g, lg, _, k2, k3, _, _, h0⟩
  · rw [h] at h0; cases h0
  obtain ⟨_, _, hf⟩ := new_facts k3
  have hdel := hf.delta_eq
  rw [h] at h0
  refine ⟨g, match lg with | none => [] | some l => [.move (.linear l)], ?_, by rw [hdel]; exact k3, ?_⟩
  · rcases lg with _ | lg <;> exact circ_trace h0.symm
  intro T hT hT2 ax hax θ θ' t0 t1 t2 hout hlast
  rw [hdel] at hT
  have hstep : ∀ {ax}, ax = axisA s.plane ∨ ax = axisB s.plane → DecimalStep c ax ∧ 0 < c.ppm.get ax :=
    fun {ax} h => ht.step ax (by rintro rfl; revert h; cases s.plane <;> simp [axisA, axisB])
  obtain ⟨dA, qA⟩ := hstep (.inl rfl)
  obtain ⟨dB, qB⟩ := hstep (.inr rfl)
  have hE : endDist s.plane (roundToSteps c ce) (roundToSteps c radius) ≠ 0 := by
    have := (angle_ok hf.angE).2.2.2.2
    rw [arcEA_eq, arcEB_eq] at this
    exact this.ne'
  have hne : axisB s.plane ≠ axisA s.plane := by cases s.plane <;> simp [axisA, axisB]
  have l3 : turnedA s.plane (roundToSteps c radius) rot θ' = 0 ∨
      turnedB s.plane (roundToSteps c radius) rot θ' = 0 := by
    rcases hlast with l3 | l3 <;> unfold OutermostOn turnedOn at l3
    · rw [if_pos rfl, if_neg hne] at l3; exact .inr l3
    · rw [if_neg hne, if_pos rfl] at l3; exact .inl l3
  have hcheck := arc_check dA dB qA qB k2 ⟨_, rts_steps dA radius⟩ ⟨_, rts_steps dB radius⟩ hE hT t0
    (.inr ⟨hT2, θ', t1, t2, l3⟩)
  obtain ⟨hneA, hneB⟩ : axisA s.plane ≠ .e ∧ axisB s.plane ≠ .e := by
    cases s.plane <;> simp [axisA, axisB]
  unfold OutermostOn at hout
  unfold TurnedOnTable
  rcases hax with rfl | rfl
  · rw [if_pos rfl, turnedOn, if_neg hne] at hout
    rw [turnedOn, if_pos rfl]
    exact hcheck.1 (hpos _ hneA) hout
  · rw [if_neg hne, turnedOn, if_pos rfl] at hout
    rw [turnedOn, if_neg hne]
    exact hcheck.2 (hpos _ hneB) hout

/-- `G2 X95 Y95 J-5` at (100, 100), three quarters of a turn, is accepted.  After one quarter it is
outermost on the right, after two it is lowest. -/
example {env : Env ℝ} (henv : ∀ tr, env.move tr = none) {s : MState ℝ}
    (hs : s.pos = ⟨100, 100, 0, 0⟩) (hpl : s.plane = .xy) :
    StepTable Cfg.default ∧
    (∀ ax, ax ≠ .e → 0 ≤ s.pos.get ax ∧ s.pos.get ax ≤ tableSize Cfg.default ax) ∧
    (∃ s', moveCircular Cfg.default env ⟨-5, -5, 0, 0⟩ ⟨0, -5, 0, 0⟩ 600 .cw s = (.ok (), s')) ∧
    Sweep .xy ⟨-5, -5, 0, 0⟩ ⟨0, -5, 0, 0⟩ .cw (π + π / 2) ∧
    OutermostOn .xy ⟨0, -5, 0, 0⟩ .cw (π / 2) .x ∧ Outermost .xy ⟨0, -5, 0, 0⟩ .cw π := by
  have := pi_pos
  refine ⟨default_stepTable, fun ax hax => ?_, three_moves henv hs hpl, ⟨by linarith, by linarith, ?_, ?_⟩,
    ?_, .inr ?_⟩
  · rw [hs]
    cases ax
    · norm_num [V4.get, tableSize, Cfg.default]
    · norm_num [V4.get, tableSize, Cfg.default]
    · norm_num [V4.get, tableSize, Cfg.default]
    · exact absurd rfl hax
  · norm_num [endA, endB, endDist, startA, startB, startDist, axisA, axisB, V4.get, sin_add, cos_add,
      mul_comm]
  · norm_num [endA, endB, endDist, startA, startB, startDist, axisA, axisB, V4.get, sin_add, cos_add,
      mul_comm]
  · simp [OutermostOn, turnedOn, axisA, axisB, turnedB, startA, startB, turnSign, V4.get]
  · simp [OutermostOn, turnedOn, axisA, axisB, turnedA, startA, startB, turnSign, V4.get]

/-- **C79** for programmed full circles: when an arc to its own start has been accepted, the whole
circle is on the table. -/
theorem C79_full
    (hz : (roundToSteps c delta).get (axisA s.plane) = 0 ∧ (roundToSteps c delta).get (axisB s.plane) = 0)
    (h : moveCircular c env delta radius v rot s = (.ok (), s')) :
    ∀ ax, ax = axisA s.plane ∨ ax = axisB s.plane → ∀ θ,
      TurnedOnTable c s.pos (roundToSteps c radius) s.plane rot θ ax := by
  rcases moveCircular_cases (c := c) (env := env) delta radius v rot s with ⟨e, h0, _⟩ |
    ⟨ce, g, lg, _, k2, _, _, _, h0⟩
  · rw [h] at h0; cases h0
  intro ax hax θ
  obtain ⟨h1, h2⟩ := full_check k2 hz hax
  obtain ⟨h3, h4⟩ := abs_le.1 (turned_le s.plane (roundToSteps c radius) rot θ ax)
  exact ⟨by linarith, by linarith⟩

/-- The full circle `G2 J-5` at (100, 100) is accepted. -/
example {env : Env ℝ} (henv : ∀ tr, env.move tr = none) {s : MState ℝ}
    (hs : s.pos = ⟨100, 100, 0, 0⟩) (hpl : s.plane = .xy) :
    ((roundToSteps Cfg.default (⟨0, 0, 0, 0⟩ : V4 ℝ)).get (axisA s.plane) = 0 ∧
      (roundToSteps Cfg.default (⟨0, 0, 0, 0⟩ : V4 ℝ)).get (axisB s.plane) = 0) ∧
    ∃ s', moveCircular Cfg.default env ⟨0, 0, 0, 0⟩ ⟨0, -5, 0, 0⟩ 600 .cw s = (.ok (), s') := by
  have rd := rts_vec (x := 0) (y := 0) (z := 0) 0 0 0 (by norm_num) (by norm_num) (by norm_num)
  refine ⟨?_, full_moves henv hs hpl⟩
  rw [rd, hpl]
  exact ⟨rfl, rfl⟩

/-- **C79 is false**: `G2 X199 Y90 J-5` at (199, 100), a half circle to the right on a table of 200 mm.
After a quarter turn it is outermost, at X204. -/
theorem C79_refuted {env : Env ℝ} (henv : ∀ tr, env.move tr = none) {s : MState ℝ}
    (hs : s.pos = ⟨199, 100, 0, 0⟩) (hpl : s.plane = .xy) :
    ∃ g : CircGen ℝ, CircGen.new Cfg.default ⟨0, -10, 0, 0⟩ ⟨0, -5, 0, 0⟩ .xy .cw 600 = .ok g ∧
      (moveCircular Cfg.default env ⟨0, -10, 0, 0⟩ ⟨0, -5, 0, 0⟩ 600 .cw s).1 = .ok () ∧
      (moveCircular Cfg.default env ⟨0, -10, 0, 0⟩ ⟨0, -5, 0, 0⟩ 600 .cw s).2.trace =
        .move (.circular g) :: s.trace ∧
      Sweep .xy ⟨0, -10, 0, 0⟩ ⟨0, -5, 0, 0⟩ .cw π ∧
      OutermostOn .xy ⟨0, -5, 0, 0⟩ .cw (π / 2) .x ∧
      ¬ TurnedOnTable Cfg.default s.pos ⟨0, -5, 0, 0⟩ .xy .cw (π / 2) .x := by
  obtain ⟨g, hg, p, hm⟩ := half_moves henv (m := 19900) (n := 10000) (by norm_num) (by norm_num) (s := s)
    (by rw [hs]; norm_num) hpl
  refine ⟨g, hg, by rw [hm], by rw [hm], ?_, ?_, ?_⟩
  · have := pi_pos
    refine ⟨this, by linarith, ?_, ?_⟩ <;>
      norm_num [endA, endB, endDist, startA, startB, startDist, axisA, axisB, V4.get, mul_comm]
  · simp [OutermostOn, turnedOn, axisA, axisB, turnedB, startA, startB, turnSign, V4.get]
  · rintro ⟨-, h⟩
    rw [hs] at h
    norm_num [turnedOn, axisA, axisB, turnedA, startA, startB, turnSign, V4.get, tableSize,
      Cfg.default] at h

/-- **C79 is false** of small arcs also before the last point: `G2 X200 Y99.99 I-0.5` at (0.9, 100),
an arc of less than half a degree around (0.4, 100), with an end that is not on the circle.  The end
is put on the circle in the next quarter, so that nothing is checked, and is then rounded to the start:
the machine makes a full turn, and after half of it, long before the last of its outermost points, it
is at X-0.1. -/
theorem C79_turn_refuted {env : Env ℝ} (henv : ∀ tr, env.move tr = none) {s : MState ℝ}
    (hs : s.pos = ⟨9 / 10, 100, 0, 0⟩) (hpl : s.plane = .xy) :
    ∃ g lg, CircGen.new Cfg.default ⟨0, 0, 0, 0⟩ ⟨-1 / 2, 0, 0, 0⟩ .xy .cw 600 = .ok g ∧
      LinearGen.new Cfg.default ⟨1991 / 10, -1 / 100, 0, 0⟩ 600 = .ok lg ∧
      (moveCircular Cfg.default env ⟨1991 / 10, -1 / 100, 0, 0⟩ ⟨-1 / 2, 0, 0, 0⟩ 600 .cw s).1 = .ok () ∧
      (moveCircular Cfg.default env ⟨1991 / 10, -1 / 100, 0, 0⟩ ⟨-1 / 2, 0, 0, 0⟩ 600 .cw s).2.trace =
        .move (.linear lg) :: .move (.circular g) :: s.trace ∧
      Sweep .xy ⟨0, 0, 0, 0⟩ ⟨-1 / 2, 0, 0, 0⟩ .cw (2 * π) ∧
      OutermostOn .xy ⟨-1 / 2, 0, 0, 0⟩ .cw π .x ∧
      ¬ TurnedOnTable Cfg.default s.pos ⟨-1 / 2, 0, 0, 0⟩ .xy .cw π .x := by
  obtain ⟨g, lg, p, hg, hl, hm⟩ := turn_moves henv hs hpl
  refine ⟨g, lg, hg, hl, by rw [hm], by rw [hm], ?_, ?_, ?_⟩
  · have := pi_pos
    refine ⟨by linarith, le_rfl, ?_, ?_⟩ <;>
      simp [endA, endB, endDist, startA, startB, startDist, axisA, axisB, V4.get] <;> ring
  · simp [OutermostOn, turnedOn, axisA, axisB, turnedB, startA, startB, turnSign, V4.get]
  · rintro ⟨h, -⟩
    rw [hs] at h
    norm_num [turnedOn, axisA, axisB, turnedA, startA, startB, turnSign, V4.get] at h

end PyCNC.Props
