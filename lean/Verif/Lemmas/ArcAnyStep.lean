import Verif.Lemmas.ArcAny
import Verif.Lemmas.ArcEnds

/-!
# Arcs whose ends are not on their circles: what the machine makes of them
-/

set_option linter.unusedSectionVars false

namespace PyCNC

open Spec

variable [PyRound] {c : Cfg} {env : Env ℝ}

theorem toEnd_e {r : Ref} {w : Axis → Option ℚ} (h : r.go c w .e = 0) : (r.toEnd c w).e = 0 := by
  change dec ((r.go c w .e : ℝ) / c.ppm.e) = 0
  rw [h, Int.cast_zero, zero_div, dec_zero']

/-- What is needed of the arc that is made. -/
structure FairEnd (c : Cfg) (r : Ref) (plane : Plane) (w k : Axis → Option ℚ) (R v : ℝ) (E : V4 ℝ) :
    Prop where
  ordinary : OrdinaryArc c E (r.toCentre c k) plane v
  ahead : ¬ BackInQuarter plane E (r.toCentre c k)
  third : E.get (axis3 plane) = (r.toEnd c w).get (axis3 plane)
  extruder : E.e = 0
  near : E = r.toEnd c w ∨ ∀ ax, ax = axisA plane ∨ ax = axisB plane → |E.get ax| ≤ 3 * R

/-- The arc that is made. -/
theorem fair_end (hc : PlainMachine c) {r : Ref} {plane : Plane} {rot : Rot} {w k : Axis → Option ℚ}
    {R v : ℝ} (hR : R ≤ 1000) (hv : 1 ≤ v) (h : FairArc c r plane w k R) {pos ce : V4 ℝ}
    (hce : circleEnd c plane (r.toEnd c w) (r.toCentre c k) pos rot = .ok ce) {g : CircGen ℝ}
    (hg : CircGen.new c (roundToSteps c ce) (r.toCentre c k) plane rot v = .ok g) :
    FairEnd c r plane w k R v (roundToSteps c ce) := by
  obtain ⟨na, nb, n3⟩ := axes_ne_e plane
  have hP : ∀ ax, (0 : ℝ) < c.ppm.get ax := fun ax => by exact_mod_cast hc.sane.cfg.ppm_pos ax
  have hP' : ∀ ax, (c.ppm.get ax : ℝ) ≤ 1000 := fun ax => by exact_mod_cast hc.sane.cfg.ppm_le ax
  obtain ⟨h0, c3, cE, hcases⟩ := circleEnd_ok hce
  have hE0 := toEnd_e (c := c) h.extruder
  have e3 : (roundToSteps c ce).get (axis3 plane) = (r.toEnd c w).get (axis3 plane) := by
    rw [roundToSteps_decimal (hc.step _ n3), c3, toEnd_get n3, onSteps_div (hP _), rnd_int]
  have eE : (roundToSteps c ce).e = 0 := by
    have : (roundToSteps c ce).get .e = 0 := roundToSteps_zero (by change ce.e = 0; rw [cE, hE0])
    exact this
  have hend : PyRound.rnd (endDist plane (roundToSteps c ce) (r.toCentre c k) * coarse c plane) =
      PyRound.rnd (startDist plane (r.toCentre c k) * coarse c plane) := by
    obtain ⟨_, _, hf⟩ := new_facts hg
    have hmpm : arcMpm c plane ≠ 0 := by
      rw [arcMpm_eq]
      exact (lt_min (hc.sane.cfg.ppm_pos _) (hc.sane.cfg.ppm_pos _)).ne'
    have := (arcEndOk_eq c _ _ plane hmpm).1 hf.endOk
    rwa [coarse_eq] at this
  have radOn : ∀ {ax}, ax ≠ .e → OnSteps c (r.toCentre c k) ax := fun {ax} hax =>
    ⟨r.centre c k ax, by rw [toCentre_get hax, onSteps_div (hP _)]⟩
  have ge3 : (roundToSteps c ce).get (axis3 plane) ≠ 0 →
      1 / 1000 ≤ |(roundToSteps c ce).get (axis3 plane)| := by
    intro hne
    rw [e3, toEnd_get n3] at hne ⊢
    have h1 : r.go c w (axis3 plane) ≠ 0 := by
      rintro h1
      rw [h1] at hne
      simp at hne
    have h2 : (1 : ℝ) ≤ |(r.go c w (axis3 plane) : ℝ)| := by
      rw [← Int.cast_abs]
      exact_mod_cast Int.one_le_abs h1
    rw [abs_div, abs_of_pos (hP _)]
    exact div_le_div₀ (by linarith) h2 (hP _) (hP' _)
  have z3 : r.go c w (axis3 plane) = 0 → (roundToSteps c ce).get (axis3 plane) = 0 := fun h1 => by
    rw [e3, toEnd_get n3, h1]; simp
  have le3 : |(roundToSteps c ce).get (axis3 plane)| ≤ 1000 := by rw [e3]; exact h.third
  rcases h.ends with ⟨heq, hq, ⟨hr2, hasd⟩, h3⟩ | ⟨hcirc, hpl, hb, hfit, h3⟩
  · -- an end in another quarter
    rcases hcases with ⟨zA, zB, -⟩ | ⟨-, cA, cB⟩
    · exfalso
      apply hq
      simp only [startA, startB, endA, endB, zA, zB, zero_sub]
    set P : ℝ := ((c.ppm.get (axisA plane) : ℚ) : ℝ) with hPdef
    have hPB : (c.ppm.get (axisB plane) : ℝ) = P := by rw [hPdef, heq]
    have hPp : 0 < P := hP _
    obtain ⟨aA, aB⟩ := point_away hPp hr2 hasd
    have tA : endA plane (roundToSteps c ce) (r.toCentre c k) * P =
        (PyRound.rnd ((r.centre c k (axisA plane) : ℤ) +
          (circlePoint (endA plane (r.toEnd c w) (r.toCentre c k))
            (endB plane (r.toEnd c w) (r.toCentre c k)) (startDist plane (r.toCentre c k) ^ 2)).1 * P) : ℝ) -
        (r.centre c k (axisA plane) : ℤ) := by
      have h1 := rts_steps (hc.step _ na) ce
      rw [cA, add_mul, toCentre_get na, onSteps_div (hP _), ← hPdef] at h1
      rw [endA, sub_mul, h1, toCentre_get na, ← hPdef, onSteps_div hPp]
    have tB : endB plane (roundToSteps c ce) (r.toCentre c k) * P =
        (PyRound.rnd ((r.centre c k (axisB plane) : ℤ) +
          (circlePoint (endA plane (r.toEnd c w) (r.toCentre c k))
            (endB plane (r.toEnd c w) (r.toCentre c k)) (startDist plane (r.toCentre c k) ^ 2)).2 * P) : ℝ) -
        (r.centre c k (axisB plane) : ℤ) := by
      have h1 := rts_steps (hc.step _ nb) ce
      rw [cB, add_mul, toCentre_get nb, onSteps_div (hP _), hPB] at h1
      rw [endB, sub_mul, h1, toCentre_get nb, hPB, onSteps_div hPp]
    have wA := rnd_away (n := r.centre c k (axisA plane)) aA
    have wB := rnd_away (n := r.centre c k (axisB plane)) aB
    rw [← tA] at wA
    rw [← tB] at wB
    have hq' : arcQuarter (startA plane (r.toCentre c k)) (startB plane (r.toCentre c k)) ≠
        arcQuarter (endA plane (roundToSteps c ce) (r.toCentre c k))
          (endB plane (roundToSteps c ce) (r.toCentre c k)) := by
      rw [← arcQuarter_scale (a := endA plane (roundToSteps c ce) (r.toCentre c k)) hPp,
        arcQuarter_sign (away_sign wA) (away_sign wB)]
      exact hq
    refine ⟨⟨⟨hc.sane.cfg.ppm_pos _, hc.sane.cfg.ppm_pos _, radOn na, radOn nb, rts_onSteps (hc.step _ na) _,
      rts_onSteps (hc.step _ nb) _, .inl heq⟩, h0, hend, h.size.trans hR, le3, by rw [eE]; norm_num, ge3,
      fun hne => absurd eE hne, ?_, hv⟩, fun hb => hq' hb.1, e3, eE, .inr ?_⟩
    · rcases h3 with h3 | ⟨i1, i2⟩
      · exact .inl ⟨z3 h3, eE⟩
      · right; right
        have hqs : arcQuarter (startA plane (r.toCentre c k) * P) (startB plane (r.toCentre c k) * P) ≠
            arcQuarter (endA plane (roundToSteps c ce) (r.toCentre c k) * P)
              (endB plane (roundToSteps c ce) (r.toCentre c k) * P) := by
          rw [arcQuarter_scale hPp, arcQuarter_scale hPp]
          exact hq'
        have h4 := quarters_apart wA wB hqs
          (fun hx => by rw [abs_mul, abs_of_pos hPp]; exact i1 hx)
          (fun hx => by rw [abs_mul, abs_of_pos hPp, ← hPB]; exact i2 hx)
        have f1 : endA plane (roundToSteps c ce) (r.toCentre c k) * P - startA plane (r.toCentre c k) * P =
            (roundToSteps c ce).get (axisA plane) * P := by rw [endA, startA]; ring
        have f2 : endB plane (roundToSteps c ce) (r.toCentre c k) * P - startB plane (r.toCentre c k) * P =
            (roundToSteps c ce).get (axisB plane) * P := by rw [endB, startB]; ring
        rw [f1, f2] at h4
        rw [div_pow, div_le_iff₀ (by positivity)]
        calc _ = (4 : ℝ) := by norm_num
          _ ≤ _ := h4
          _ = _ := by ring
    · have hr0 : 0 ≤ startDist plane (r.toCentre c k) := Real.sqrt_nonneg _
      obtain ⟨l1, l2⟩ := point_le (x := endA plane (r.toEnd c w) (r.toCentre c k))
        (y := endB plane (r.toEnd c w) (r.toCentre c k)) hr0
      have hhalf : 1 / 2 / P ≤ startDist plane (r.toCentre c k) / 4 := by
        rw [div_le_iff₀ hPp]; linarith
      have rA : |(r.toCentre c k).get (axisA plane)| ≤ startDist plane (r.toCentre c k) := by
        unfold startDist startA startB
        rw [← Real.sqrt_sq_eq_abs]
        exact Real.sqrt_le_sqrt (by rw [neg_sq]; nlinarith [sq_nonneg (-(r.toCentre c k).get (axisB plane))])
      have rB : |(r.toCentre c k).get (axisB plane)| ≤ startDist plane (r.toCentre c k) := by
        unfold startDist startA startB
        rw [← Real.sqrt_sq_eq_abs]
        exact Real.sqrt_le_sqrt (by rw [neg_sq (r.toCentre c k |>.get (axisB plane))]
                                    nlinarith [sq_nonneg (-(r.toCentre c k).get (axisA plane))])
      have key : ∀ {ax : Axis} {X : ℝ}, ax ≠ .e → (c.ppm.get ax : ℝ) = P →
          ce.get ax = (r.toCentre c k).get ax + X → |X| ≤ startDist plane (r.toCentre c k) →
          |(r.toCentre c k).get ax| ≤ startDist plane (r.toCentre c k) →
          |(roundToSteps c ce).get ax| ≤ 3 * R := by
        intro ax X hax hPx hcx hX hrx
        have h5 : |(roundToSteps c ce).get ax - ce.get ax| ≤ 1 / 2 / P := by
          rw [roundToSteps_decimal (hc.step _ hax), hPx]
          have := PyRound.near (ce.get ax * P)
          have e : (PyRound.rnd (ce.get ax * P) : ℝ) / P - ce.get ax =
              ((PyRound.rnd (ce.get ax * P) : ℝ) - ce.get ax * P) / P := by field_simp
          rw [e, abs_div, abs_of_pos hPp]
          exact div_le_div_of_nonneg_right this hPp.le
        have h6 := h.size
        rw [hcx] at h5
        rw [abs_le] at *
        constructor <;> linarith [h5.1, h5.2, hX.1, hX.2, hrx.1, hrx.2]
      rintro ax (rfl | rfl)
      · exact key na rfl cA l1 rA
      · exact key nb hPB cB l2 rB
  · -- an end on the circle
    have hpl' : endA plane (r.toEnd c w) (r.toCentre c k) = 0 ∨
        endB plane (r.toEnd c w) (r.toCentre c k) = 0 ∨
        |endA plane (r.toEnd c w) (r.toCentre c k)| = |endB plane (r.toEnd c w) (r.toCentre c k)| ∨
        ((r.toEnd c w).get (axisA plane) = 0 ∧ (r.toEnd c w).get (axisB plane) = 0) := by
      rcases hpl with h | h | h | ⟨h, h'⟩
      · exact .inl h
      · exact .inr (.inl h)
      · exact .inr (.inr (.inl h))
      · refine .inr (.inr (.inr ?_))
        rw [toEnd_get na, toEnd_get nb, h, h']; simp
    have hgood := circleEnd_good hce hcirc hpl'
    have hid : roundToSteps c ce = r.toEnd c w := by
      rw [hgood]
      apply V4.ext_get
      intro ax
      by_cases hax : ax = .e
      · subst hax
        have hE1 : (r.toEnd c w).get .e = 0 := hE0
        rw [roundToSteps_zero hE1, hE1]
      · rw [roundToSteps_decimal (hc.step _ hax), toEnd_get hax, onSteps_div (hP _), rnd_int]
    rw [hid] at hend e3 ge3 z3 le3 ⊢
    refine ⟨⟨⟨hc.sane.cfg.ppm_pos _, hc.sane.cfg.ppm_pos _, radOn na, radOn nb,
      ⟨r.go c w (axisA plane), by rw [toEnd_get na, onSteps_div (hP _)]⟩,
      ⟨r.go c w (axisB plane), by rw [toEnd_get nb, onSteps_div (hP _)]⟩, ?_⟩, h0, hend, h.size.trans hR, le3,
      by rw [hE0]; norm_num, ge3, fun hne => absurd hE0 hne, ?_, hv⟩, hb, rfl, hE0, .inl rfl⟩
    · rcases hfit with h' | ⟨h1, h2⟩
      · exact .inl h'
      · exact .inr ⟨h1, h2, hcirc⟩
    · rcases h3 with h' | h' | h'
      · exact .inl ⟨z3 h', hE0⟩
      · right; left
        rw [toEnd_get na, toEnd_get nb, h'.1, h'.2]; simp
      · exact .inr (.inr h')

/-- How an arc ends without exception of the hardware. -/
theorem moveCircular_whole (henv : ∀ tr, env.move tr = none) (d r : V4 ℝ) (v : ℝ) (rot : Rot)
    (s : MState ℝ) :
    (∃ e, moveCircular c env d r v rot s = (.error e, s)) ∨
    ∃ ce g lg, checkDelta c s.pos (roundToSteps c d) = .ok () ∧
      circleEnd c s.plane (roundToSteps c d) (roundToSteps c r) s.pos rot = .ok ce ∧
      CircGen.new c (roundToSteps c ce) (roundToSteps c r) s.plane rot v = .ok g ∧
      extraLinear c (Coord.sub (roundToSteps c d) (roundToSteps c ce)) v = .ok lg ∧
      moveCircular c env d r v rot s = (.ok (), { s with
        pos := Coord.add (Coord.add s.pos (roundToSteps c ce))
          (Coord.sub (roundToSteps c d) (roundToSteps c ce))
        trace := match lg with
          | none => .move (.circular g) :: s.trace
          | some l => .move (.linear l) :: .move (.circular g) :: s.trace }) := by
  rcases moveCircular_cases (c := c) (env := env) d r v rot s with ⟨e, h', _⟩ |
    ⟨ce, g, lg, h1, h2, h3, _, h5, h'⟩
  · exact .inl ⟨e, h'⟩
  · right
    refine ⟨ce, g, lg, h1, h2, h3, h5, ?_⟩
    rcases arcMoves_cases (env := env) g lg (fun s : MState ℝ => { s with
        pos := Coord.add (Coord.add s.pos (roundToSteps c ce))
          (Coord.sub (roundToSteps c d) (roundToSteps c ce)) }) s with ⟨e, s2, _, ⟨tr, h4⟩, _⟩ |
      ⟨s2, hs2, h4, _⟩
    · rw [henv] at h4; cases h4
    · rw [h', h4, hs2]
      cases lg <;> rfl

/-- The arcs that are made, and the straight moves after them. -/
def FairGen (c : Cfg) (R : ℚ) (g : CircGen ℝ) : Prop :=
  ∃ radius plane rot v, CircGen.new c g.delta radius plane rot v = .ok g ∧
    OrdinaryArc c g.delta radius plane v ∧ ¬ BackInQuarter plane g.delta radius ∧
    startDist plane radius ≤ R ∧ |g.delta.get (axis3 plane)| ≤ tableSize c (axis3 plane) ∧
    g.delta.e = 0
def RestGen (c : Cfg) (R : ℚ) (l : LinearGen ℝ) : Prop :=
  ∃ d v plane, OrdinaryMove d v ∧ LinearGen.new c d v = .ok l ∧
    (∀ ax, ax = axisA plane ∨ ax = axisB plane →
      (l.total.get ax : ℝ) ≤ (tableSize c ax + 3 * R) * c.ppm.get ax) ∧
    l.total.get (axis3 plane) = 0 ∧ l.total.e = 0

/-- What an arc adds to a trace. -/
def AddsFair (c : Cfg) (R : ℚ) (tr tr' : List (HalCall ℝ)) : Prop :=
  ∃ g, FairGen c R g ∧ (tr' = .move (.circular g) :: tr ∨
    ∃ l, RestGen c R l ∧ tr' = .move (.linear l) :: .move (.circular g) :: tr)

omit [PyRound] in
theorem extraLinear_some {d : V4 ℝ} {v : ℝ} {l : LinearGen ℝ} [PyRound]
    (h : extraLinear c d v = .ok (some l)) : (∃ ax, d.get ax ≠ 0) ∧ LinearGen.new c d v = .ok l := by
  rcases extraLinear_ok h with ⟨h', -⟩ | ⟨l', h', hl⟩
  · cases h'
  cases h'
  refine ⟨?_, hl⟩
  by_contra hz
  push Not at hz
  unfold extraLinear at h
  rw [(isZero_iff _).2 hz] at h
  simp only [Bool.not_true, Bool.false_eq_true, if_false] at h
  cases h

theorem toEnd_table (hc : PlainMachine c) {s : MState ℝ} {r : Ref} (hs : Reachable c env s)
    (hm : Matches c s r) {w : Axis → Option ℚ} (h1 : StepsOnTable c (r.target c w)) :
    ∀ ax, ax ≠ .e → |(r.toEnd c w).get ax| ≤ tableSize c ax := by
  have hP : ∀ ax, (0 : ℝ) < c.ppm.get ax := fun ax => by exact_mod_cast hc.sane.cfg.ppm_pos ax
  intro ax hax
  have b1 := h1 ax hax
  have b2 := matches_onTable hc hs hm ax hax
  have b3 : (0 : ℝ) ≤ r.target c w ax := by exact_mod_cast b1.1
  have b4 : (0 : ℝ) ≤ r.steps ax := by exact_mod_cast b2.1
  rw [toEnd_get hax, abs_div, abs_of_pos (hP _), div_le_iff₀ (hP _), abs_le]
  unfold Ref.go
  push_cast
  constructor <;> linarith [b1.2, b2.2]

theorem toEnd_steps (hc : PlainMachine c) {r : Ref} {w : Axis → Option ℚ} (h : r.go c w .e = 0) :
    ∀ ax, (r.toEnd c w).get ax * c.ppm.get ax = (r.go c w ax : ℤ) := by
  have hP : ∀ ax, (0 : ℝ) < c.ppm.get ax := fun ax => by exact_mod_cast hc.sane.cfg.ppm_pos ax
  intro ax
  by_cases hax : ax = .e
  · subst hax
    have : (r.toEnd c w).get .e = 0 := toEnd_e h
    rw [this, h]; simp
  · rw [toEnd_get hax, onSteps_div (hP _)]

/-- The straight move after the arc. -/
theorem rest_ordinary (hc : PlainMachine c) {R : ℚ}
    (hRt : ∀ ax, ax ≠ .e → (tableSize c ax : ℝ) + 3 * R ≤ 10 ^ 4) (hR0 : (0 : ℝ) ≤ R) {r : Ref} {plane : Plane}
    {w k : Axis → Option ℚ} {v : ℝ} (hv : 1 ≤ v) (hx0 : r.go c w .e = 0)
    (htab : ∀ ax, ax ≠ .e → |(r.toEnd c w).get ax| ≤ tableSize c ax) {E : V4 ℝ} (gE : GridV E)
    (gD : GridV (r.toEnd c w)) (hEn : ∀ ax, ∃ n : ℤ, E.get ax * c.ppm.get ax = n)
    (hfe : FairEnd c r plane w k R v E) :
    (∀ ax, ∃ n : ℤ, (Coord.sub (r.toEnd c w) E).get ax * c.ppm.get ax = n) ∧
    (∀ ax, ax = axisA plane ∨ ax = axisB plane →
      |(Coord.sub (r.toEnd c w) E).get ax| ≤ tableSize c ax + 3 * R) ∧
    (Coord.sub (r.toEnd c w) E).get (axis3 plane) = 0 ∧ (Coord.sub (r.toEnd c w) E).get .e = 0 ∧
    ((∃ ax, (Coord.sub (r.toEnd c w) E).get ax ≠ 0) → OrdinaryMove (Coord.sub (r.toEnd c w) E) v) := by
  have hP : ∀ ax, (0 : ℝ) < c.ppm.get ax := fun ax => by exact_mod_cast hc.sane.cfg.ppm_pos ax
  have hP' : ∀ ax, (c.ppm.get ax : ℝ) ≤ 1000 := fun ax => by exact_mod_cast hc.sane.cfg.ppm_le ax
  obtain ⟨na, nb, n3⟩ := axes_ne_e plane
  have hsub := get_sub_grid gD gE
  have hDn := toEnd_steps hc hx0
  have hint : ∀ ax, ∃ n : ℤ, (Coord.sub (r.toEnd c w) E).get ax * c.ppm.get ax = n := by
    intro ax
    obtain ⟨n, hn⟩ := hEn ax
    exact ⟨r.go c w ax - n, by rw [hsub, sub_mul, hDn, hn]; push_cast; ring⟩
  have hle : ∀ ax, ax = axisA plane ∨ ax = axisB plane →
      |(Coord.sub (r.toEnd c w) E).get ax| ≤ tableSize c ax + 3 * R := by
    intro ax hax
    rw [hsub]
    have hax' : ax ≠ .e := by rcases hax with rfl | rfl <;> assumption
    have h5 := htab ax hax'
    rcases hfe.near with h6 | h6
    · rw [h6, sub_self, abs_zero]
      linarith [(abs_nonneg _).trans h5]
    · linarith [abs_sub ((r.toEnd c w).get ax) (E.get ax), h6 ax hax]
  have h3z : (Coord.sub (r.toEnd c w) E).get (axis3 plane) = 0 := by rw [hsub, hfe.third, sub_self]
  have hez : (Coord.sub (r.toEnd c w) E).get .e = 0 := by
    have e1 : E.get .e = 0 := hfe.extruder
    have e2 : (r.toEnd c w).get .e = 0 := toEnd_e hx0
    rw [hsub, e1, e2, sub_self]
  refine ⟨hint, hle, h3z, hez, fun hne => ⟨gridV_sub _ _, hne, fun ax => ?_, fun ax hx => ?_, hv⟩⟩
  · rcases axis_cases plane ax with rfl | rfl | rfl | rfl
    · exact (hle _ (.inl rfl)).trans (hRt _ na)
    · exact (hle _ (.inr rfl)).trans (hRt _ nb)
    · rw [h3z]; norm_num
    · rw [hez]; norm_num
  · obtain ⟨n, hn⟩ := hint ax
    have hn0 : n ≠ 0 := by
      rintro rfl
      rw [Int.cast_zero] at hn
      exact hx ((mul_eq_zero.1 hn).resolve_right (hP ax).ne')
    have h5 : (1 : ℝ) ≤ |(Coord.sub (r.toEnd c w) E).get ax| * c.ppm.get ax := by
      rw [← abs_of_pos (hP ax), ← abs_mul, hn, ← Int.cast_abs]
      exact_mod_cast Int.one_le_abs hn0
    have h6 := mul_le_mul_of_nonneg_left (hP' ax)
      (abs_nonneg ((Coord.sub (r.toEnd c w) E).get ax))
    linarith

/-- An arc. -/
theorem fair_refstep (hc : PlainMachine c) (henv : ∀ tr, env.move tr = none) {R : ℚ}
    (hR : (R : ℝ) ≤ 1000) (hRt : ∀ ax, ax ≠ .e → (tableSize c ax : ℝ) + 3 * R ≤ 10 ^ 4)
    {s : MState ℝ} {r : Ref} (hs : Reachable c env s) (hm : Matches c s r) {g : GCode} {d rad : V4 ℝ}
    (hd : readDelta s g = .ok d) {w k : Axis → Option ℚ} (hw : Words g w)
    (hr : g.radius Coord.zero s.conv = .ok rad) (hk : CentreWords g k) {rot : Rot} {v : ℝ} (hv : 1 ≤ v)
    (hF : StepsOnTable c (r.target c w) → HasCentre c r s.plane k → FairArc c r s.plane w k R) :
    (∃ e, moveCircular c env d rad v rot s = (.error e, s)) ∨
    (StepsOnTable c (r.target c w) ∧ HasCentre c r s.plane k ∧
      ∃ s', moveCircular c env d rad v rot s = (.ok (), s') ∧
        Matches c s' { r with steps := r.target c w } ∧ AddsFair c R s.trace s'.trace ∧
        s'.plane = s.plane) := by
  have ht := tidy_reachable hs
  have hck := move_on_table hc ht hm hd hw
  have eD := end_steps hc ht hm hd hw
  have eR := radius_steps hc hm hr hk
  have hP : ∀ ax, (0 : ℝ) < c.ppm.get ax := fun ax => by exact_mod_cast hc.sane.cfg.ppm_pos ax
  have hP' : ∀ ax, (c.ppm.get ax : ℝ) ≤ 1000 := fun ax => by exact_mod_cast hc.sane.cfg.ppm_le ax
  obtain ⟨na, nb, n3⟩ := axes_ne_e s.plane
  rcases moveCircular_whole henv d rad v rot s with h | ⟨ce, cg, lg, h1, hce, hg, hlg, hmv⟩
  · exact .inl h
  right
  have h1 := hck.1 h1
  rw [eD, eR] at hce
  rw [eR] at hg
  rw [eD] at hlg hmv
  have h2 : HasCentre c r s.plane k := by
    obtain ⟨h0, -⟩ := circleEnd_ok hce
    by_contra hn
    unfold HasCentre at hn
    push Not at hn
    apply h0
    unfold startDist startA startB
    rw [toCentre_get na, toCentre_get nb, hn.1, hn.2]
    simp
  have hFA := hF h1 h2
  have hfe := fair_end hc hR hv hFA hce hg
  set E := roundToSteps c ce with hEdef
  have gE : GridV E := gridV_roundToSteps _
  have gD : GridV (r.toEnd c w) := by rw [← eD]; exact gridV_roundToSteps _
  have hE0 := toEnd_e (c := c) hFA.extruder
  have hsub := get_sub_grid gD gE
  have htab := toEnd_table hc hs hm h1
  have hR0 : (0 : ℝ) ≤ R := (Real.sqrt_nonneg _).trans hFA.size
  -- the steps of the arc
  have hEn : ∀ ax, ∃ n : ℤ, E.get ax * c.ppm.get ax = n := by
    intro ax
    by_cases hax : ax = .e
    · subst hax
      exact ⟨0, by have : E.get .e = 0 := hfe.extruder
                   rw [this]; simp⟩
    · exact ⟨_, rts_steps (hc.step _ hax) ce⟩
  have hDn := toEnd_steps hc hFA.extruder (w := w)
  obtain ⟨cg', hg', hgood, -⟩ := arc_good hc.sane.cfg hfe.ordinary rot
  rw [hg] at hg'
  cases hg'
  obtain ⟨evs, hem⟩ := circ_emits hgood
  have hnet : ∀ ax, (netSteps c ax evs : ℝ) = E.get ax * c.ppm.get ax := by
    intro ax
    obtain ⟨kA, kB⟩ := arc_net hfe.ordinary.grid hg hem
    rw [if_neg hfe.ahead] at kA kB
    rcases axis_cases s.plane ax with rfl | rfl | rfl | rfl
    · exact kA
    · exact kB
    · exact Props.C34_whole_steps hc.sane.cfg hg hem _ (.inl rfl) (hEn _)
    · exact Props.C34_whole_steps hc.sane.cfg hg hem _ (.inr rfl) (hEn _)
  have hfg : FairGen c R cg := by
    obtain ⟨_, _, hf⟩ := new_facts hg
    refine ⟨r.toCentre c k, s.plane, rot, v, ?_, ?_, ?_, hFA.size, ?_, ?_⟩
    · rw [hf.delta_eq]; exact hg
    · rw [hf.delta_eq]; exact hfe.ordinary
    · rw [hf.delta_eq]; exact hfe.ahead
    · rw [hf.delta_eq, hfe.third]; exact htab _ n3
    · rw [hf.delta_eq]; exact hfe.extruder
  have hrest : ∀ l, lg = some l → RestGen c R l ∧ ∃ evs2, Emits c (.linear l) evs2 ∧
      ∀ ax, (netSteps c ax evs2 : ℝ) = r.go c w ax - E.get ax * c.ppm.get ax := by
    rintro l rfl
    obtain ⟨hne, hl⟩ := extraLinear_some hlg
    obtain ⟨hint, hle, h3z, hez, hom⟩ := rest_ordinary hc hRt hR0 hv hFA.extruder htab gE gD hEn hfe
    have hom := hom hne
    have hlf := linear_facts hc.sane.cfg hom hl
    obtain ⟨p, hp, -⟩ := good_emits hlf.good
    have htot : ∀ ax, (l.total.get ax : ℝ) =
        |(Coord.sub (r.toEnd c w) E).get ax| * c.ppm.get ax := by
      intro ax
      obtain ⟨n, hn⟩ := hint ax
      have e : |(Coord.sub (r.toEnd c w) E).get ax| * c.ppm.get ax = ((|n| : ℤ) : ℝ) := by
        rw [← abs_of_pos (hP ax), ← abs_mul, hn, Int.cast_abs]
      rw [hlf.total, e, rnd_int]
    refine ⟨⟨_, v, s.plane, hom, hl, fun ax hax => ?_, ?_, ?_⟩, _, hp, fun ax => ?_⟩
    · rw [htot]
      exact mul_le_mul_of_nonneg_right (hle ax hax) (hP ax).le
    · have := htot (axis3 s.plane)
      rw [h3z, abs_zero, zero_mul] at this
      exact_mod_cast this
    · have := htot .e
      rw [hez, abs_zero, zero_mul] at this
      exact_mod_cast this
    · obtain ⟨n, hn⟩ := hint ax
      have := (linear_train (gridV_sub _ _) hl hp (hc.sane.cfg.ppm_pos ax) (n := n)
        (by rw [hn, sub_self]; norm_num)).1
      rw [this, ← hn, hsub, sub_mul, hDn]
  obtain ⟨evs0, hev, hn0⟩ := hm.motors
  refine ⟨h1, h2, _, hmv, ⟨fun ax => ?_, ?_, hm.loc, hm.conv, hm.mode, hm.vel⟩, ?_, rfl⟩
  · dsimp only
    rw [get_add_grid (gridV_add _ _) (gridV_sub _ _), hsub, get_add_grid ht.pos gE, hm.pos]
    by_cases hax : ax = .e
    · subst hax
      have e1 : E.get .e = 0 := hfe.extruder
      have e2 : (r.toEnd c w).get .e = 0 := hE0
      rw [e1, e2]
      change r.extruded + 0 + (0 - 0) = r.extruded
      ring
    · rw [toEnd_get hax, at_steps hax, at_steps hax]
      unfold Ref.go
      push_cast
      ring
  · rcases lg with _ | l
    · refine ⟨_, .move hem hev, fun ax => ?_⟩
      rw [netSteps_append (emits_announced hem (List.prefix_refl _)), hn0]
      rcases extraLinear_ok hlg with ⟨-, hz⟩ | ⟨l, h', -⟩
      · have hz := hz ax
        rw [hsub, sub_eq_zero] at hz
        have : netSteps c ax evs = r.go c w ax := by
          have := hnet ax
          rw [← hz, hDn] at this
          exact_mod_cast this
        rw [this]
        unfold Ref.go
        dsimp only
        ring
      · cases h'
    · obtain ⟨-, evs2, hem2, hnet2⟩ := hrest l rfl
      refine ⟨_, .move hem2 (.move hem hev), fun ax => ?_⟩
      rw [netSteps_append (emits_announced hem2 (List.prefix_refl _)),
        netSteps_append (emits_announced hem (List.prefix_refl _)), hn0]
      have : netSteps c ax evs + netSteps c ax evs2 = r.go c w ax := by
        have : (netSteps c ax evs : ℝ) + netSteps c ax evs2 = r.go c w ax := by
          rw [hnet, hnet2]; ring
        exact_mod_cast this
      unfold Ref.go at this
      dsimp only
      omega
  · rcases lg with _ | l
    · exact ⟨cg, hfg, .inl rfl⟩
    · exact ⟨cg, hfg, .inr ⟨l, (hrest l rfl).1, rfl⟩⟩

/-- The point of the circle, for an end to the right or left of the centre, or above or below it. -/
theorem point_aligned {x y r : ℝ} (h : (x = 0 ∧ y ≠ 0) ∨ (x ≠ 0 ∧ y = 0)) :
    ((circlePoint x y (r ^ 2)).1 = 0 ∨ (circlePoint x y (r ^ 2)).1 = r ∨ (circlePoint x y (r ^ 2)).1 = -r) ∧
    ((circlePoint x y (r ^ 2)).2 = 0 ∨ (circlePoint x y (r ^ 2)).2 = r ∨ (circlePoint x y (r ^ 2)).2 = -r) ∧
    (circlePoint x y (r ^ 2)).1 ^ 2 + (circlePoint x y (r ^ 2)).2 ^ 2 = r ^ 2 := by
  have h2 := point_second (x := x) (y := y) (sq_nonneg r)
  rcases h with ⟨rfl, hy⟩ | ⟨hx, rfl⟩
  · have h1 : (circlePoint 0 y (r ^ 2)).1 = 0 := by simp [circlePoint]
    rw [h1] at h2 ⊢
    exact ⟨.inl rfl, .inr (sq_eq_sq_iff_eq_or_eq_neg.1 (by linarith)), by linarith⟩
  · have h1 := point_first (y := 0) hx (sq_nonneg r)
    rw [abs_zero, add_zero] at h1
    have h1 := mul_right_cancel₀ (abs_pos.2 hx).ne' h1
    refine ⟨.inr (sq_eq_sq_iff_eq_or_eq_neg.1 h1), .inl ?_, by linarith⟩
    rw [h1, sub_self] at h2
    exact pow_eq_zero_iff (two_ne_zero) |>.1 h2

/-- An arc that is carried out. -/
theorem axis_accepted (hc : PlainMachine c) (henv : ∀ tr, env.move tr = none) {R : ℚ}
    (hR : (R : ℝ) ≤ 1000) (hRt : ∀ ax, ax ≠ .e → (tableSize c ax : ℝ) + 3 * R ≤ 10 ^ 4)
    {s : MState ℝ} {r : Ref} (hs : Reachable c env s) (hm : Matches c s r) {g : GCode} {d rad : V4 ℝ}
    (hd : readDelta s g = .ok d) {w k : Axis → Option ℚ} (hw : Words g w)
    (hr : g.radius Coord.zero s.conv = .ok rad) (hk : CentreWords g k) {rot : Rot} {v : ℝ} (hv : 1 ≤ v)
    (h1 : StepsOnTable c (r.target c w)) (h2 : HasCentre c r s.plane k)
    (hFA : FairArc c r s.plane w k R) (ha : AxisEnd c r s.plane w k) :
    ∃ s', moveCircular c env d rad v rot s = (.ok (), s') := by
  have ht := tidy_reachable hs
  have hck := move_on_table hc ht hm hd hw
  have eD := end_steps hc ht hm hd hw
  have eR := radius_steps hc hm hr hk
  have hP : ∀ ax, (0 : ℝ) < c.ppm.get ax := fun ax => by exact_mod_cast hc.sane.cfg.ppm_pos ax
  obtain ⟨na, nb, n3⟩ := axes_ne_e s.plane
  have h0 := startDist_ne hc.sane.cfg h2
  obtain ⟨ce, hce⟩ := circleEnd_inside (c := c) (plane := s.plane) (delta := r.toEnd c w)
    (pos := s.pos) (rot := rot) h0 fun ax hax => by rw [hm.pos]; exact ha.table ax hax
  obtain ⟨-, c3, cE, hcases⟩ := circleEnd_ok hce
  have hD0 := toEnd_e (c := c) hFA.extruder
  have hDn := toEnd_steps hc hFA.extruder (w := w)
  -- the end of the arc is on the circle and on steps
  have hon : (∃ n : ℤ, ce.get (axisA s.plane) * c.ppm.get (axisA s.plane) = n) ∧
      (∃ n : ℤ, ce.get (axisB s.plane) * c.ppm.get (axisB s.plane) = n) ∧
      endDist s.plane ce (r.toCentre c k) = startDist s.plane (r.toCentre c k) := by
    rcases hcases with ⟨zA, zB, rfl⟩ | ⟨-, cA, cB⟩
    · refine ⟨⟨_, hDn _⟩, ⟨_, hDn _⟩, ?_⟩
      simp only [endDist, startDist, endA, endB, startA, startB, zA, zB, zero_sub]
    · obtain ⟨p1, p2, p3⟩ := point_aligned (r := startDist s.plane (r.toCentre c k)) ha.aligned
      have key : ∀ {ax : Axis} {X : ℝ}, ax ≠ .e → ax = axisA s.plane ∨ ax = axisB s.plane →
          ce.get ax = (r.toCentre c k).get ax + X →
          (X = 0 ∨ X = startDist s.plane (r.toCentre c k) ∨ X = -startDist s.plane (r.toCentre c k)) →
          ∃ n : ℤ, ce.get ax * c.ppm.get ax = n := by
        intro ax X hax hp hcx hX
        obtain ⟨n, hn⟩ := ha.whole ax hp
        rw [hcx, add_mul, toCentre_get hax, onSteps_div (hP _)]
        rcases hX with rfl | rfl | rfl
        · exact ⟨_, by rw [zero_mul, add_zero]⟩
        · exact ⟨r.centre c k ax + n, by rw [hn]; push_cast; ring⟩
        · exact ⟨r.centre c k ax - n, by rw [neg_mul, hn]; push_cast; ring⟩
      refine ⟨key na (.inl rfl) cA p1, key nb (.inr rfl) cB p2, ?_⟩
      have e1 : endA s.plane ce (r.toCentre c k) = (circlePoint (endA s.plane (r.toEnd c w) (r.toCentre c k))
          (endB s.plane (r.toEnd c w) (r.toCentre c k)) (startDist s.plane (r.toCentre c k) ^ 2)).1 := by
        rw [endA, cA]; ring
      have e2 : endB s.plane ce (r.toCentre c k) = (circlePoint (endA s.plane (r.toEnd c w) (r.toCentre c k))
          (endB s.plane (r.toEnd c w) (r.toCentre c k)) (startDist s.plane (r.toCentre c k) ^ 2)).2 := by
        rw [endB, cB]; ring
      rw [endDist, e1, e2, p3]
      exact Real.sqrt_sq (Real.sqrt_nonneg _)
  obtain ⟨⟨mA, hmA⟩, ⟨mB, hmB⟩, hdist⟩ := hon
  have rid : ∀ {ax : Axis} {n : ℤ}, ax ≠ .e → ce.get ax * c.ppm.get ax = n →
      (roundToSteps c ce).get ax = ce.get ax := by
    intro ax n hax h
    rw [roundToSteps_decimal (hc.step _ hax), h, rnd_int, ← h, mul_div_cancel_right₀ _ (hP ax).ne']
  have idA := rid na hmA
  have idB := rid nb hmB
  have z3 : (roundToSteps c ce).get (axis3 s.plane) = 0 := by
    refine roundToSteps_zero ?_
    rw [c3, toEnd_get n3, ha.flat]; simp
  have zE : (roundToSteps c ce).e = 0 := by
    have : (roundToSteps c ce).get .e = 0 := roundToSteps_zero (by change ce.e = 0; rw [cE, hD0])
    exact this
  have hdist' : endDist s.plane (roundToSteps c ce) (r.toCentre c k) =
      startDist s.plane (r.toCentre c k) := by
    rw [← hdist]
    simp only [endDist, endA, endB, idA, idB]
  have hO : OrdinaryArc c (roundToSteps c ce) (r.toCentre c k) s.plane v := by
    refine ⟨⟨hc.sane.cfg.ppm_pos _, hc.sane.cfg.ppm_pos _, ⟨r.centre c k (axisA s.plane), ?_⟩,
      ⟨r.centre c k (axisB s.plane), ?_⟩, ⟨mA, by rw [idA, hmA]⟩, ⟨mB, by rw [idB, hmB]⟩,
      .inr ⟨ha.whole _ (.inl rfl), ha.whole _ (.inr rfl), hdist'⟩⟩, h0, by rw [hdist'], hFA.size.trans hR,
      by rw [z3]; norm_num, by rw [zE]; norm_num, fun h => absurd z3 h, fun h => absurd zE h,
      .inl ⟨z3, zE⟩, hv⟩
    · rw [toCentre_get na, onSteps_div (hP _)]
    · rw [toCentre_get nb, onSteps_div (hP _)]
  obtain ⟨cg, hg, -, hvel⟩ := Props.C32_circular_partial hc.sane.cfg hc.limits hc.auto hO rot (.inl ⟨z3, zE⟩)
  have hfe := fair_end hc hR hv hFA hce hg
  have hlg : ∃ lg, extraLinear c (Coord.sub (r.toEnd c w) (roundToSteps c ce)) v = .ok lg := by
    obtain ⟨-, -, -, -, hom⟩ := rest_ordinary hc hRt ((Real.sqrt_nonneg _).trans hFA.size) hv hFA.extruder
      (toEnd_table hc hs hm h1) (gridV_roundToSteps _) (by rw [← eD]; exact gridV_roundToSteps _)
      (fun ax => by
        by_cases hax : ax = .e
        · subst hax
          exact ⟨0, by have : (roundToSteps c ce).get .e = 0 := zE
                       rw [this]; simp⟩
        · exact ⟨_, rts_steps (hc.step _ hax) ce⟩) hfe
    unfold extraLinear
    cases hz : Coord.isZero (Coord.sub (r.toEnd c w) (roundToSteps c ce))
    · have hne : ∃ ax, (Coord.sub (r.toEnd c w) (roundToSteps c ce)).get ax ≠ 0 := by
        by_contra hn
        push Not at hn
        rw [(isZero_iff _).2 hn] at hz
        cases hz
      have hom := hom hne
      obtain ⟨l, _, _, hl, -⟩ := linear_new hc.sane.cfg hom
      have hcv := checkVelocity_of_le hc.limits (linear_limit hc.sane.cfg hc.limits hc.auto hom hl)
      refine ⟨some l, ?_⟩
      simp only [Bool.not_false, if_true, hl, bind, Except.bind, hcv]
      rfl
    · exact ⟨none, by simp only [Bool.not_true, Bool.false_eq_true, if_false]; rfl⟩
  obtain ⟨lg, hlg⟩ := hlg
  exact ⟨_, circ_moves henv (hck.2 h1) (by rw [eD, eR]; exact hce) (by rw [eR]; exact hg) hvel
    (by rw [eD]; exact hlg)⟩

/-- One line. -/
theorem fairLine_matches (hc : PlainMachine c) (henv : ∀ tr, env.move tr = none) {R : ℚ}
    (hR : (R : ℝ) ≤ 1000) (hRt : ∀ ax, ax ≠ .e → (tableSize c ax : ℝ) + 3 * R ≤ 10 ^ 4)
    {s : MState ℝ} {r : ArcRef} (hs : Reachable c env s) (hm : ArcMatches c s r) {g : GCode} {l : ArcLine}
    (hg : ArcSays g l) {m : ℚ} (hm4 : m ≤ 9999)
    (he : ∀ w, l.stmt = .plain (.move w) → (|r.base.go c w .e| : ℝ) ≤ m * c.ppm.e)
    (ha : ∀ rot w k, l.stmt = .arc rot w k → r.step c l ≠ none →
      FairArc c r.base r.plane w k R) :
    (∃ r' a s', r.step c l = some r' ∧ doCommand c env (some g) s = (.ok a, s') ∧
      ArcMatches c s' r' ∧ (Grown c m s.trace s'.trace ∨ AddsFair c R s.trace s'.trace)) ∨
    ((r.step c l = none ∨ SaysArc l) ∧ ∃ e, doCommand c env (some g) s = (.error e, s)) := by
  by_cases hno : SaysArc l
  · obtain ⟨rot, w, k, hl⟩ := hno
    obtain ⟨st, f⟩ := l
    simp only at hl
    subst hl
    obtain ⟨hn, hf, hg, hw, hk⟩ := hg
    obtain ⟨d, rad, hd, hr, hx⟩ := numbers_cases (env := env) (l := ⟨.arc rot w k, f⟩) hc hm hn hf
    have hstep : r.step c ⟨.arc rot w k, f⟩ = open Classical in
      if ¬ r.feedOf ⟨.arc rot w k, f⟩ < c.minVel ∧ StepsOnTable c (r.base.target c w) ∧
          HasCentre c r.base r.plane k then
        some { r with base := { r.base with
          steps := r.base.target c w, feed := r.feedOf ⟨.arc rot w k, f⟩ } }
      else none := rfl
    have ha' := ha rot w k rfl
    rw [hstep] at ha'
    have hsay : SaysArc ⟨.arc rot w k, f⟩ := ⟨rot, w, k, rfl⟩
    rcases hx with ⟨hlt, h⟩ | ⟨hmin, hv1, hx⟩
    · exact .inr ⟨.inr hsay, _, h⟩
    · have key := fair_refstep hc henv hR hRt hs hm.base hd hw hr hk (rot := rot) hv1 (by
        intro h1 h2
        rw [hm.plane] at h2 ⊢
        exact ha' (by rw [if_pos ⟨hmin, h1, h2⟩]; simp))
      have hex : execCmd c env (lineCmd g) g d rad (r.feedOf ⟨.arc rot w k, f⟩) s =
          (do moveCircular c env d rad (r.feedOf ⟨.arc rot w k, f⟩) rot
              return none : M ℝ (Option (Answer ℝ))) s := by
        cases rot
        · rw [is_lineCmd (cmd := .g2) ⟨_, List.mem_singleton_self _, hg⟩]; rfl
        · rw [is_lineCmd (cmd := .g3) ⟨_, List.mem_singleton_self _, hg⟩]; rfl
      rw [hex] at hx
      rcases key with ⟨e, h2⟩ | ⟨hok1, hok2, s1, h1, h2, h3, h4⟩
      · refine .inr ⟨.inr hsay, ?_⟩
        have h5 := M.bind_error (f := fun _ => (pure none : M ℝ (Option (Answer ℝ)))) h2
        rcases hx with ⟨a, s', h6, h7⟩ | ⟨e', s', h6, h7⟩
        · rw [h5] at h6; cases h6
        · rw [h5] at h6; cases h6
          exact ⟨e, h7⟩
      · left
        rw [hm.plane] at hok2
        have h5 := M.bind_ok (f := fun _ => (pure none : M ℝ (Option (Answer ℝ)))) h1
        rcases hx with ⟨a, s', h6, h7⟩ | ⟨e', s', h6, h7⟩
        · rw [h5] at h6; cases h6
          exact ⟨{ r with base := { r.base with
              steps := r.base.target c w, feed := r.feedOf ⟨.arc rot w k, f⟩ } }, _, _,
            by rw [hstep, if_pos ⟨hmin, hok1, hok2⟩], h7,
            ⟨⟨h2.pos, h2.motors, h2.loc, h2.conv, h2.mode, rfl⟩, h4.trans hm.plane⟩, .inr h3⟩
        · rw [h5] at h6; cases h6
  · obtain ⟨k1, k2⟩ := arcLine_only hc henv hs hm hg hm4 he
      (fun rot w k hl => absurd ⟨rot, w, k, hl⟩ hno)
    cases hr : r.step c l with
    | none =>
      obtain ⟨e, -, h⟩ := k2 hr
      exact .inr ⟨.inl rfl, e, h⟩
    | some r' =>
      obtain ⟨a, s', h1, h2, h3⟩ := k1 r' hr
      refine .inl ⟨r', a, s', rfl, h1, h2, h3.imp_right fun h => absurd h.1 hno⟩

/-- One line with an arc that is carried out. -/
theorem axisLine_accepted (hc : PlainMachine c) (henv : ∀ tr, env.move tr = none) {R : ℚ}
    (hR : (R : ℝ) ≤ 1000) (hRt : ∀ ax, ax ≠ .e → (tableSize c ax : ℝ) + 3 * R ≤ 10 ^ 4)
    {s : MState ℝ} {r r' : ArcRef} (hs : Reachable c env s) (hm : ArcMatches c s r) {g : GCode} {l : ArcLine}
    (hg : ArcSays g l) {rot : Rot} {w k : Axis → Option ℚ} (hl : l.stmt = .arc rot w k)
    (hst : r.step c l = some r') (hFA : FairArc c r.base r.plane w k R)
    (ha : AxisEnd c r.base r.plane w k) :
    ∃ a s', doCommand c env (some g) s = (.ok a, s') ∧ ArcMatches c s' r' := by
  rcases fairLine_matches hc henv hR hRt hs hm hg (m := 0) (by norm_num)
    (fun w' hw' => by rw [hl] at hw'; cases hw')
    (fun rot' w' k' hw' _ => by rw [hl] at hw'; cases hw'; exact hFA) with
    ⟨r1, a, s1, h1, h2, h3, -⟩ | ⟨-, e, h2⟩
  · rw [hst] at h1
    cases h1
    exact ⟨a, s1, h2, h3⟩
  · exfalso
    obtain ⟨st, f⟩ := l
    simp only at hl
    subst hl
    obtain ⟨hn, hf, hg, hw, hk⟩ := hg
    obtain ⟨d, rad, hd, hr, hx⟩ := numbers_cases (env := env) (l := ⟨.arc rot w k, f⟩) hc hm hn hf
    have hstep : r.step c ⟨.arc rot w k, f⟩ = open Classical in
      if ¬ r.feedOf ⟨.arc rot w k, f⟩ < c.minVel ∧ StepsOnTable c (r.base.target c w) ∧
          HasCentre c r.base r.plane k then
        some { r with base := { r.base with
          steps := r.base.target c w, feed := r.feedOf ⟨.arc rot w k, f⟩ } }
      else none := rfl
    rw [hstep] at hst
    split at hst
    · next hcond =>
      rcases hx with ⟨hlt, h⟩ | ⟨hmin, hv1, hx⟩
      · exact hcond.1 hlt
      · obtain ⟨s1, key⟩ := axis_accepted hc henv hR hRt hs hm.base hd hw hr hk (rot := rot) hv1 hcond.2.1
          (by rw [hm.plane]; exact hcond.2.2) (by rw [hm.plane]; exact hFA) (by rw [hm.plane]; exact ha)
        have hex : execCmd c env (lineCmd g) g d rad (r.feedOf ⟨.arc rot w k, f⟩) s =
            (do moveCircular c env d rad (r.feedOf ⟨.arc rot w k, f⟩) rot
                return none : M ℝ (Option (Answer ℝ))) s := by
          cases rot
          · rw [is_lineCmd (cmd := .g2) ⟨_, List.mem_singleton_self _, hg⟩]; rfl
          · rw [is_lineCmd (cmd := .g3) ⟨_, List.mem_singleton_self _, hg⟩]; rfl
        have h5 := M.bind_ok (f := fun _ => (pure none : M ℝ (Option (Answer ℝ)))) key
        rw [hex, h5] at hx
        rcases hx with ⟨a, s', h6, h7⟩ | ⟨e', s', h6, h7⟩
        · rw [h2] at h7; cases h7
        · cases h6
    · cases hst

/-- A program. -/
theorem fairProgram_matches [PyText] (hc : PlainMachine c) (henv : ∀ tr, env.move tr = none) {R : ℚ}
    (hR : (R : ℝ) ≤ 1000) (hRt : ∀ ax, ax ≠ .e → (tableSize c ax : ℝ) + 3 * R ≤ 10 ^ 4)
    (prog : List (List Char × ArcLine))
    (hp : ∀ p ∈ prog, ∃ g, parseLine p.1 = .ok (some g) ∧ ArcSays g p.2)
    {m : ℚ} (hm4 : m ≤ 9999) {Q : List (HalCall ℝ) → Prop}
    (hQ : ∀ tr tr', Q tr → Grown c m tr tr' ∨ AddsFair c R tr tr' → Q tr') :
    ∀ {s : MState ℝ} {r : ArcRef} {fl : List Bool} {s' : MState ℝ}, Reachable c env s →
      ArcMatches c s r → FairArcs c m R r (prog.map (·.2)) → Q s.trace →
      machineRun c env s (prog.map (·.1)) = some (fl, s') →
      ∃ r', Follows c r (prog.map (·.2)) fl r' ∧ Reachable c env s' ∧ ArcMatches c s' r' ∧
        Q s'.trace := by
  induction prog with
  | nil =>
    intro s r fl s' hs hm _ hq h
    cases h
    exact ⟨r, .nil, hs, hm, hq⟩
  | cons p ps ih =>
    intro s r fl s' hs hm hx hq h
    obtain ⟨hx1, hx2, hx3, hx4⟩ := hx
    obtain ⟨g, hpar, hg⟩ := hp p (by simp)
    have ih' := @ih (fun q hq => hp q (by simp [hq]))
    have hstep := Reachable.step (.cmd (some g)) hs
    simp only [List.map_cons, machineRun] at h
    rcases fairLine_matches hc henv hR hRt hs hm hg hm4 hx1 hx2 with
      ⟨r1, a, s1, h1, h2, h3, h4⟩ | ⟨h1, e, h2⟩
    · have hl : doLine c env p.1 s = (.ok (.ok a), s1) := by
        unfold doLine
        rw [hpar]
        simp only [h2]
      simp only [hl] at h
      have hr1 : Reachable c env s1 := by
        have e : (Op.exec c env (.cmd (some g)) s).2 = s1 := by simp [Op.exec, h2]
        exact e ▸ hstep
      cases hrun : machineRun c env s1 (ps.map (·.1)) with
      | none => rw [hrun] at h; cases h
      | some q =>
        rw [hrun] at h
        cases h
        obtain ⟨r', k1, k2⟩ := ih' hr1 h3 (hx3 _ h1) (hQ _ _ hq h4) hrun
        exact ⟨r', .done h1 k1, k2⟩
    · have hl : (∃ e', doLine c env p.1 s = (.error e', s)) ∨ doLine c env p.1 s = (.ok (.error e), s) := by
        unfold doLine
        rw [hpar]
        simp only [h2]
        unfold catchLine
        split <;> simp
      rcases hl with ⟨e', hl⟩ | hl
      · simp only [hl] at h; cases h
      · simp only [hl] at h
        cases hrun : machineRun c env s (ps.map (·.1)) with
        | none => rw [hrun] at h; cases h
        | some q =>
          rw [hrun] at h
          cases h
          obtain ⟨r', k1, k2⟩ := ih' hs hm (hx4 h1) hq hrun
          exact ⟨r', .not h1 k1, k2⟩

/-- The back end carries out these moves. -/
theorem fairGen_ends {p : Pins} {b : Buf} {env : MoveEnv} {fuel N : Nat} {R : ℚ} (hc : SaneCfg c)
    (hppm : ∀ ax, 50 ≤ c.ppm.get ax) (ha : 200 ≤ c.accel) (hb : BufOk b) (hp : PinsOk p)
    (hlen : c.pulseLenUs < 2 ^ 26) (hN : IdleAfter env N) (h1 : 1 ≤ fuel) (hf : N ≤ fuel)
    (hsz : ∀ plane, longestFair c R plane ≤ b.size) {g : CircGen ℝ} (hg : FairGen c R g) (mem : Nat → Word) :
    ∃ evs s, Emits c (.circular g) evs ∧ Hal.move c p b env fuel evs .done mem = (s, .done) := by
  obtain ⟨radius, plane, rot, v, hg, hO, hnb, hr, h3, hE⟩ := hg
  refine arc_ends hc hO hnb hppm ha hb hp hlen hN h1 hf hg ?_ mem
  have hs : ((longestFair c R plane : ℚ) : ℝ) ≤ (b.size : ℝ) := by exact_mod_cast hsz plane
  have hP : ∀ ax, (0 : ℝ) < c.ppm.get ax := fun ax => by exact_mod_cast hc.ppm_pos ax
  simp only [longestFair] at hs
  push_cast at hs
  rw [hE, abs_zero, zero_mul]
  have k2 := mul_le_mul_of_nonneg_right hr (add_pos (hP (axisA plane)) (hP (axisB plane))).le
  have k3 := mul_le_mul_of_nonneg_right h3 (hP (axis3 plane)).le
  linarith

theorem restGen_ends {p : Pins} {b : Buf} {env : MoveEnv} {fuel N : Nat} {R : ℚ} (hc : SaneCfg c)
    (hppm : ∀ ax, 10 ≤ c.ppm.get ax) (hb : BufOk b) (hp : PinsOk p)
    (hlen : c.pulseLenUs < 2 ^ 26) (hN : IdleAfter env N) (h1 : 1 ≤ fuel) (hf : N ≤ fuel)
    (hsz : ∀ plane, longestRest c R plane ≤ b.size) {l : LinearGen ℝ} (hl : RestGen c R l) (mem : Nat → Word) :
    ∃ evs s, Emits c (.linear l) evs ∧ Hal.move c p b env fuel evs .done mem = (s, .done) := by
  obtain ⟨d, v, plane, hm, hnew, hle, h3, hE⟩ := hl
  have hs : ((longestRest c R plane : ℚ) : ℝ) ≤ (b.size : ℝ) := by exact_mod_cast hsz plane
  simp only [longestRest] at hs
  push_cast at hs
  have hnat : ∀ ax, 0 ≤ l.total.get ax := by
    intro ax
    rw [(linear_facts hc hm hnew).total]
    have : ((0 : ℤ) : ℝ) ≤ |d.get ax| * c.ppm.get ax := by
      have : (0 : ℝ) < c.ppm.get ax := by exact_mod_cast hc.ppm_pos ax
      rw [Int.cast_zero]; positivity
    have := rnd_mono this
    rwa [rnd_int] at this
  refine linear_ends hc hppm hb hp hlen hN h1 hf hm hnew (B := fun ax => (l.total.get ax : ℝ))
    (fun ax => ?_) ?_ mem
  · exact le_of_eq (by exact_mod_cast Int.toNat_of_nonneg (hnat ax))
  · have kA := hle _ (.inl rfl)
    have kB := hle _ (.inr rfl)
    have h3' : (l.total.get (axis3 plane) : ℝ) = 0 := by exact_mod_cast h3
    have hE' : (l.total.get .e : ℝ) = 0 := by
      have : l.total.get .e = 0 := hE
      exact_mod_cast this
    cases plane <;> simp only [axisA, axisB, axis3] at kA kB h3' hs ⊢ <;> linarith

end PyCNC
