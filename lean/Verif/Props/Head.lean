import Verif.Lemmas.HeadPlane
import Verif.Lemmas.HeadWitness

/-!
# Properties C10 and C11: where the motors are

All theorems of this file are about exact arithmetic, for every nearest-integer rounding
(`PyRound`).  The head is where the pulses have taken it: `Sends` collects the pulses of all moves
of a history and `netSteps` counts them, forward minus reverse.
-/

namespace PyCNC.Props

open PyCNC Spec

variable [PyRound] {c : Cfg} {env : Env ℝ}

/-! ## C11 -/

/-- **C11, what holds.** As long as the hardware reports no error in a move, the position is, after
every history of calls, where the motors are.  This is for an axis with a decimal step (X, Y and Z
of the default configuration), and for histories whose arcs are on steps and do not end, in the
sense of clockwise motion, before their start in the same quarter. -/
theorem C11_position_partial (henv : ∀ tr, env.move tr = none) {ax : Axis} (hd : DecimalStep c ax)
    (hp : 0 < c.ppm.get ax) {s : MState ℝ} (hs : Reachable c env s)
    (ha : Always (fun call _ => ∀ g, call = .move (.circular g) →
      ∃ radius plane, ArcOf c g radius plane) s.trace)
    {evs : List (Event ℝ)} (he : Sends c s.trace evs) :
    s.pos.get ax * c.ppm.get ax = netSteps c ax evs :=
  position_net henv hd hp hs ha he

/-- **C11, what `position()` returns.** -/
theorem C11_position_call_partial (henv : ∀ tr, env.move tr = none) {ax : Axis}
    (hd : DecimalStep c ax) (hp : 0 < c.ppm.get ax) {s s' : MState ℝ} {p : V4 ℝ}
    (hs : Reachable c env s) (hpos : position s = (.ok p, s'))
    (ha : Always (fun call _ => ∀ g, call = .move (.circular g) →
      ∃ radius plane, ArcOf c g radius plane) s.trace)
    {evs : List (Event ℝ)} (he : Sends c s.trace evs) :
    p.get ax * c.ppm.get ax = netSteps c ax evs := by
  cases hpos
  exact position_net henv hd hp hs ha he

/-- **C11, the default configuration.** Every history whose arcs are in the XY plane and do not end,
in the sense of clockwise motion, before their start in the same quarter. -/
theorem C11_default_partial (henv : ∀ tr, env.move tr = none) {ax : Axis} (hax : ax ≠ .e)
    {s : MState ℝ} (hs : Reachable Cfg.default env s)
    (ha : ∀ g, HalCall.move (.circular g) ∈ s.trace → g.plane = .xy ∧ ¬ EndsBefore Cfg.default g)
    {evs : List (Event ℝ)} (he : Sends Cfg.default s.trace evs) :
    s.pos.get ax * Cfg.default.ppm.get ax = netSteps Cfg.default ax evs := by
  obtain ⟨dx, dy, dz⟩ := default_decimalStep
  have hd : DecimalStep Cfg.default ax ∧ 0 < Cfg.default.ppm.get ax := by
    cases ax
    · exact ⟨dx, by norm_num [V4.get, Cfg.default]⟩
    · exact ⟨dy, by norm_num [V4.get, Cfg.default]⟩
    · exact ⟨dz, by norm_num [V4.get, Cfg.default]⟩
    · exact absurd rfl hax
  refine position_net henv hd.1 hd.2 hs (always_of_mem fun call hc g hg => ?_) he
  subst hg
  obtain ⟨hpl, hb⟩ := ha g hc
  exact arcOf_plane (arcs_fromSteps henv hs g hc) (by rw [hpl]; exact dx) (by rw [hpl]; exact dy)
    (by rw [hpl]; norm_num [axisA, V4.get, Cfg.default])
    (by rw [hpl]; norm_num [axisA, axisB, V4.get, Cfg.default]) hb

/-- **C11, any axis of a history without arcs.** When a step is not a decimal number, as that of the
extruder, the position differs from the motors by at most half of the tenth decimal for each move. -/
theorem C11_drift_partial (henv : ∀ tr, env.move tr = none) {ax : Axis} (hp : 0 < c.ppm.get ax)
    (hp' : c.ppm.get ax < 10 ^ 10) {s : MState ℝ} (hs : Reachable c env s)
    (ha : ∀ g, HalCall.move (.circular g) ∉ s.trace) {evs : List (Event ℝ)}
    (he : Sends c s.trace evs) :
    |s.pos.get ax - netSteps c ax evs / c.ppm.get ax| ≤ moveCount s.trace * (1 / (2 * 10 ^ 10)) := by
  have hP : (0 : ℝ) < c.ppm.get ax := by exact_mod_cast hp
  have h := position_drift henv hp hp' hs ha he
  generalize (c.ppm.get ax : ℝ) = P at *
  generalize s.pos.get ax = x at *
  have e : x - netSteps c ax evs / P = (x * P - netSteps c ax evs) / P := by field_simp
  rw [e, abs_div, abs_of_pos hP, div_le_iff₀ hP]
  calc _ ≤ _ := h
    _ = _ := by ring

/-- **C11, any axis of a history without arcs.** The steps sent are the position rounded to whole
steps, as long as there are not too many moves (66 million for the extruder of the default
configuration). -/
theorem C11_steps_partial (henv : ∀ tr, env.move tr = none) {ax : Axis} (hp : 0 < c.ppm.get ax)
    {s : MState ℝ} (hs : Reachable c env s)
    (ha : ∀ g, HalCall.move (.circular g) ∉ s.trace) {evs : List (Event ℝ)}
    (he : Sends c s.trace evs) (hn : 1 ≤ moveCount s.trace)
    (hmany : moveCount s.trace * c.ppm.get ax < 10 ^ 10) :
    netSteps c ax evs = PyRound.rnd (s.pos.get ax * c.ppm.get ax) := by
  have hP : (0 : ℝ) < c.ppm.get ax := by exact_mod_cast hp
  have h1 : (c.ppm.get ax : ℚ) < 10 ^ 10 := by
    have : (1 : ℚ) ≤ moveCount s.trace := by exact_mod_cast hn
    nlinarith
  have h := position_drift henv hp h1 hs ha he
  have h2 : (moveCount s.trace : ℝ) * c.ppm.get ax < 10 ^ 10 := by exact_mod_cast hmany
  refine (rnd_unique (lt_of_le_of_lt h ?_)).symm
  rw [← mul_div_assoc, div_lt_iff₀ (by norm_num)]
  linarith

/-- **C11 is false of the program.** `G1 X105 Y105`, `G3 X100 Y107.07 I-5 J-5`: the second line asks
for an eighth of a circle, the program sends the pulses of a full circle, after which the motors are
back at (105, 105), and reports the position (100, 107.07). -/
theorem C11_refuted : ∃ (env : Env ℝ) (g1 g2 : GCode) (s1 s2 : MState ℝ) (evs : List (Event ℝ)),
    (∀ tr, env.move tr = none) ∧
    doCommand Cfg.default env (some g1) (MState.init Cfg.default) = (.ok none, s1) ∧
    doCommand Cfg.default env (some g2) s1 = (.ok none, s2) ∧
    Sends Cfg.default s2.trace evs ∧
    s2.pos.x = 100 ∧ netSteps Cfg.default .x evs = 105 * 100 ∧
    s2.pos.y = 107.07 ∧ netSteps Cfg.default .y evs = 105 * 100 := by
  obtain ⟨s1, s2, evs, h1, h2, h3, h4, h5, h6⟩ :=
    back_history (env := ⟨fun _ => none, fun _ => none, fun _ => true, fun _ => none⟩) fun _ => rfl
  refine ⟨_, _, _, s1, s2, evs, fun _ => rfl, h1, h2, h4, ?_, ?_, ?_, ?_⟩
  · rw [h3]
  · rw [h5]; norm_num
  · rw [h3]; norm_num
  · rw [h6]; norm_num

/-- **C11 is false of the extruder.** After `G1 E0.007` one step was sent, and the position is not
the length of a step, because that has no decimal expansion. -/
theorem C11_extruder_refuted : ∃ (env : Env ℝ) (g : GCode) (s : MState ℝ) (evs : List (Event ℝ)),
    (∀ tr, env.move tr = none) ∧
    doCommand Cfg.default env (some g) (MState.init Cfg.default) = (.ok none, s) ∧
    Sends Cfg.default s.trace evs ∧ s.pos.e = 0.0066666667 ∧
    netSteps Cfg.default .e evs = 1 ∧ s.pos.e * Cfg.default.ppm.e ≠ netSteps Cfg.default .e evs := by
  obtain ⟨s, evs, h1, h2, h3, h4, -⟩ :=
    extrude_history (env := ⟨fun _ => none, fun _ => none, fun _ => true, fun _ => none⟩) fun _ => rfl
  refine ⟨_, _, s, evs, fun _ => rfl, h1, h2, by rw [h3]; norm_num, h4, ?_⟩
  rw [h3, h4]
  norm_num [Cfg.default]

/-! ## C10 -/

/-- **C10, what holds.** As long as the hardware reports no error in a move, the head stays on the
table after every single pulse of a history.  This is for tables of a whole number of steps and for
histories with arcs whose ends and, of the points on their way that are outermost in the direction of
an axis, the *last* one lie on the table: the others are checked by the program.  (For full turns all
of these points have to be on the table.  The arcs are on steps and do not end, in the sense of
clockwise motion, before their start in the same quarter.) -/
theorem C10_last_partial (henv : ∀ tr, env.move tr = none) (ht : StepTable c) {ax : Axis}
    (hax : ax ≠ .e) {s : MState ℝ} (hs : Reachable c env s)
    (ha : Always (fun call earlier => ∀ g, call = .move (.circular g) →
      ∃ radius plane, ArcOf c g radius plane ∧ LastInside c earlier g radius plane) s.trace)
    {evs : List (Event ℝ)} (he : Sends c s.trace evs) {pre : List (Event ℝ)} (hpre : pre <+: evs) :
    (0 : ℝ) ≤ netSteps c ax pre / (c.ppm.get ax : ℝ) ∧
      netSteps c ax pre / (c.ppm.get ax : ℝ) ≤ tableSize c ax := by
  have hP : (0 : ℝ) < c.ppm.get ax := by exact_mod_cast (ht.step ax hax).2
  obtain ⟨h1, h2⟩ := stays_on_table henv hax ht hs ha he pre hpre
  exact ⟨by positivity, by rwa [div_le_iff₀ hP]⟩

/-- **C10, what holds.** It is enough that the arcs themselves lie on the table. -/
theorem C10_stays_on_table_partial (henv : ∀ tr, env.move tr = none) (ht : StepTable c) {ax : Axis}
    (hax : ax ≠ .e) {s : MState ℝ} (hs : Reachable c env s)
    (ha : Always (fun call earlier => ∀ g, call = .move (.circular g) →
      ∃ radius plane, ArcOf c g radius plane ∧ ArcInside c earlier g radius plane) s.trace)
    {evs : List (Event ℝ)} (he : Sends c s.trace evs) {pre : List (Event ℝ)} (hpre : pre <+: evs) :
    (0 : ℝ) ≤ netSteps c ax pre / (c.ppm.get ax : ℝ) ∧
      netSteps c ax pre / (c.ppm.get ax : ℝ) ≤ tableSize c ax := by
  refine C10_last_partial henv ht hax hs (always_mono (fun call earlier h g hg => ?_) ha) he hpre
  obtain ⟨radius, plane, h1, h2⟩ := h g hg
  exact ⟨radius, plane, h1, lastInside_of_arc h2⟩

/-- **C10, what holds.** It is enough that the circles of the arcs lie on the table. -/
theorem C10_circles_partial (henv : ∀ tr, env.move tr = none) (ht : StepTable c) {ax : Axis}
    (hax : ax ≠ .e) {s : MState ℝ} (hs : Reachable c env s)
    (ha : Always (fun call earlier => ∀ g, call = .move (.circular g) →
      ∃ radius plane, ArcOf c g radius plane ∧ CircleInside c earlier radius plane) s.trace)
    {evs : List (Event ℝ)} (he : Sends c s.trace evs) {pre : List (Event ℝ)} (hpre : pre <+: evs) :
    (0 : ℝ) ≤ netSteps c ax pre / (c.ppm.get ax : ℝ) ∧
      netSteps c ax pre / (c.ppm.get ax : ℝ) ≤ tableSize c ax := by
  refine C10_stays_on_table_partial henv ht hax hs (always_mono (fun call earlier h g hg => ?_) ha)
    he hpre
  obtain ⟨radius, plane, h1, h2⟩ := h g hg
  exact ⟨radius, plane, h1, arcInside_of_circle ht h1 h2⟩

/-- **C10 is false of the program.** `G1 X199 Y100`, `G2 X199 Y90 J-5`: a half circle to the right.
The program checks the border between two quarters of a circle only if the arc does not end in the
second one, so this arc is not checked at all and takes the head to X204, on a table of 200 mm. -/
theorem C10_refuted : ∃ (env : Env ℝ) (g1 g2 : GCode) (s1 s2 : MState ℝ)
    (evs pre : List (Event ℝ)), (∀ tr, env.move tr = none) ∧
    doCommand Cfg.default env (some g1) (MState.init Cfg.default) = (.ok none, s1) ∧
    doCommand Cfg.default env (some g2) s1 = (.ok none, s2) ∧
    Sends Cfg.default s2.trace evs ∧ pre <+: evs ∧
    netSteps Cfg.default .x pre / (Cfg.default.ppm.x : ℝ) = 204 ∧ Cfg.default.tableX = 200 := by
  obtain ⟨s1, s2, lg, g, e1, e2, pre, h1, h2, _, _, _, _, h5, h6, h7, _, h8, h9⟩ :=
    half_history (m := 19900) (x := "199") (env := ⟨fun _ => none, fun _ => none, fun _ => true, fun _ => none⟩)
      (fun _ => rfl) (by norm_num) (by norm_num; decide)
  refine ⟨_, _, _, s1, s2, _, e1 ++ pre, fun _ => rfl, h1, h2, h5,
    (List.prefix_append_right_inj e1).2 h8, ?_, by norm_num [Cfg.default]⟩
  rw [netSteps_append (emits_announced h6 h8), h7, h9]
  norm_num [Cfg.default]

omit [PyRound] in
theorem default_stepTable : StepTable Cfg.default := by
  obtain ⟨dx, dy, dz⟩ := default_decimalStep
  refine ⟨fun ax hax => ?_, default_tableOk, fun ax hax => ?_⟩
  · cases ax
    · exact ⟨dx, by norm_num [V4.get, Cfg.default]⟩
    · exact ⟨dy, by norm_num [V4.get, Cfg.default]⟩
    · exact ⟨dz, by norm_num [V4.get, Cfg.default]⟩
    · exact absurd rfl hax
  · cases ax
    · exact ⟨20000, by norm_num [V4.get, Cfg.default, tableSize]⟩
    · exact ⟨20000, by norm_num [V4.get, Cfg.default, tableSize]⟩
    · exact ⟨88000, by norm_num [V4.get, Cfg.default, tableSize]⟩
    · exact absurd rfl hax

/-- The hypotheses of `C10_stays_on_table_partial` are met after `G1 X2 Y100`, `G2 X2 Y90 J-5`, the
right half of a circle whose left half is not on the table. -/
theorem half_inside (henv : ∀ tr, env.move tr = none) : ∃ (s : MState ℝ) (evs : List (Event ℝ)),
    StepTable Cfg.default ∧ Reachable Cfg.default env s ∧ Sends Cfg.default s.trace evs ∧
    moveCount s.trace = 2 ∧
    Always (fun call earlier => ∀ g, call = .move (.circular g) →
      ∃ radius plane, ArcOf Cfg.default g radius plane ∧
        ArcInside Cfg.default earlier g radius plane ∧
        ¬ CircleInside Cfg.default earlier radius plane) s.trace := by
  obtain ⟨s1, s2, lg, g, e1, e2, pre, h1, h2, t1, t2, hg, h4, h5, h6, h7, h8, _, _⟩ :=
    half_history (m := 200) (x := "2") henv (by norm_num) (by norm_num; decide)
  have r1 : Reachable Cfg.default env s1 := by
    have := Reachable.step (c := Cfg.default) (env := env) (.cmd (some (lineTo "2" "100"))) .init
    simpa [Op.exec, h1] using this
  have r2 : Reachable Cfg.default env s2 := by
    have := Reachable.step (.cmd (some (halfLine "2"))) r1
    simpa [Op.exec, h2] using this
  obtain ⟨hdel, hrot⟩ : g.delta = ⟨0, -10, 0, 0⟩ ∧ g.rot = .cw := by
    obtain ⟨_, _, hf⟩ := new_facts hg
    exact ⟨hf.delta_eq, hf.rot_eq⟩
  have e1' : √((0 : ℝ) ^ 2 + (-5) ^ 2) = 5 := by
    rw [show (0 : ℝ) ^ 2 + (-5) ^ 2 = 5 ^ 2 by norm_num]; exact Real.sqrt_sq (by norm_num)
  refine ⟨s2, _, default_stepTable, r2, h5, by rw [t2, t1]; rfl, ?_⟩
  rw [t2]
  refine ⟨fun g' hg' => ?_, ?_⟩
  · cases hg'
    refine ⟨⟨0, -5, 0, 0⟩, .xy, ⟨.cw, 600, ?_, ?_, ?_⟩, ?_, ?_⟩
    · rw [hdel]; exact hg
    · rw [hdel]; exact half_grid
    · rw [hdel]
      rintro ⟨hb, -⟩
      norm_num [arcQuarter, startA, startB, endA, endB, axisA, axisB, V4.get] at hb
    · intro evs' T hs' hT ax hax
      cases sends_unique hs' h4
      rw [hdel, hrot] at hT
      obtain ⟨hT0, hT1, hTA, hTB⟩ := hT
      have e2' : √((0 : ℝ) ^ 2 + 5 ^ 2) = 5 := by
        rw [show (0 : ℝ) ^ 2 + 5 ^ 2 = 5 ^ 2 by norm_num]; exact Real.sqrt_sq (by norm_num)
      have hcos : Real.cos T = -1 := by
        simp only [startA, startB, endA, endB, startDist, endDist, axisA, axisB, V4.get] at hTB
        norm_num [e1', e2'] at hTB
        have h25 : (0 : ℝ) < √25 := by positivity
        nlinarith [mul_left_cancel₀ h25.ne' (show √25 * (-5) = √25 * (5 * Real.cos T) by linarith)]
      have hTpi : T ≤ Real.pi := by
        have hpi := Real.pi_pos
        obtain ⟨n, hn⟩ := Real.cos_eq_neg_one_iff.1 hcos
        have : n < 1 := by
          have : (n : ℝ) < 1 := by
            by_contra hcon
            push Not at hcon
            nlinarith [mul_le_mul_of_nonneg_right hcon hpi.le]
          exact_mod_cast this
        have h0 : (n : ℝ) ≤ 0 := by exact_mod_cast (by omega : n ≤ 0)
        nlinarith [mul_nonpos_of_nonpos_of_nonneg h0 hpi.le]
      have px : ((Cfg.default.ppm.get .x : ℚ) : ℝ) = 100 := by norm_num [V4.get, Cfg.default]
      have py : ((Cfg.default.ppm.get .y : ℚ) : ℝ) = 100 := by norm_num [V4.get, Cfg.default]
      have tx : ((tableSize Cfg.default .x : ℚ) : ℝ) = 200 := by norm_num [tableSize, Cfg.default]
      have ty : ((tableSize Cfg.default .y : ℚ) : ℝ) = 200 := by norm_num [tableSize, Cfg.default]
      rcases hax with rfl | rfl
      · simp only [axisA]
        rw [h7, hdel, px, tx]
        refine ⟨by norm_num [V4.get], fun θ h0 h1 => ?_⟩
        have s0 := Real.sin_nonneg_of_nonneg_of_le_pi h0 (h1.trans hTpi)
        have s1 := Real.sin_le_one θ
        rw [hrot]
        simp only [turnedOn, axisA, if_pos, turnedA, startA, startB, turnSign, axisB, V4.get]
        norm_num
        constructor <;> linarith
      · simp only [axisB]
        rw [h8, hdel, py, ty]
        refine ⟨by norm_num [V4.get], fun θ h0 h1 => ?_⟩
        have s0 := Real.neg_one_le_cos θ
        have s1 := Real.cos_le_one θ
        rw [hrot]
        simp only [turnedOn, axisA, reduceCtorEq, if_false, turnedB, startA, startB, turnSign, axisB,
          V4.get]
        norm_num
        constructor <;> linarith
    · intro hin
      obtain ⟨k, -⟩ := hin _ h4 .x (Or.inl rfl)
      obtain ⟨s1', -⟩ := arc_sizes (da := 0) (db := 0) (ra := 0) (rb := -5) (d3 := 0) (e := 0)
      rw [s1', e1', h7] at k
      norm_num [V4.get, Cfg.default] at k
  · rw [t1]
    exact ⟨by simp, by simp, by simp, trivial⟩

/-- The same for `C10_last_partial`. -/
example (henv : ∀ tr, env.move tr = none) : ∃ (s : MState ℝ) (evs : List (Event ℝ)),
    StepTable Cfg.default ∧ Reachable Cfg.default env s ∧ Sends Cfg.default s.trace evs ∧
    moveCount s.trace = 2 ∧
    Always (fun call earlier => ∀ g, call = .move (.circular g) →
      ∃ radius plane, ArcOf Cfg.default g radius plane ∧
        LastInside Cfg.default earlier g radius plane) s.trace := by
  obtain ⟨s, evs, h1, h2, h3, h4, h5⟩ := half_inside henv
  refine ⟨s, evs, h1, h2, h3, h4, always_mono (fun call earlier h g hg => ?_) h5⟩
  obtain ⟨radius, plane, k1, k2, -⟩ := h g hg
  exact ⟨radius, plane, k1, lastInside_of_arc k2⟩

/-- The hypotheses of `C10_circles_partial` are met after `G1 X100 Y100`, `G2 X100 Y90 J-5`. -/
example (henv : ∀ tr, env.move tr = none) : ∃ (s : MState ℝ) (evs : List (Event ℝ)),
    StepTable Cfg.default ∧ Reachable Cfg.default env s ∧ Sends Cfg.default s.trace evs ∧
    moveCount s.trace = 2 ∧
    Always (fun call earlier => ∀ g, call = .move (.circular g) →
      ∃ radius plane, ArcOf Cfg.default g radius plane ∧
        CircleInside Cfg.default earlier radius plane) s.trace := by
  obtain ⟨s1, s2, lg, g, e1, e2, pre, h1, h2, t1, t2, hg, h4, h5, h6, h7, h8, _, _⟩ :=
    half_history (m := 10000) (x := "100") henv (by norm_num) (by norm_num; decide)
  have r1 : Reachable Cfg.default env s1 := by
    have := Reachable.step (c := Cfg.default) (env := env) (.cmd (some (lineTo "100" "100"))) .init
    simpa [Op.exec, h1] using this
  have r2 : Reachable Cfg.default env s2 := by
    have := Reachable.step (.cmd (some (halfLine "100"))) r1
    simpa [Op.exec, h2] using this
  have hdel : g.delta = ⟨0, -10, 0, 0⟩ := by
    obtain ⟨_, _, hf⟩ := new_facts hg
    exact hf.delta_eq
  have e1' : √((0 : ℝ) ^ 2 + (-5) ^ 2) = 5 := by
    rw [show (0 : ℝ) ^ 2 + (-5) ^ 2 = 5 ^ 2 by norm_num]; exact Real.sqrt_sq (by norm_num)
  refine ⟨s2, _, default_stepTable, r2, h5, by rw [t2, t1]; rfl, ?_⟩
  rw [t2]
  refine ⟨fun g' hg' => ?_, ?_⟩
  · cases hg'
    refine ⟨⟨0, -5, 0, 0⟩, .xy, ⟨.cw, 600, ?_, ?_, ?_⟩, ?_⟩
    · rw [hdel]; exact hg
    · rw [hdel]; exact half_grid
    · rw [hdel]
      rintro ⟨hb, -⟩
      norm_num [arcQuarter, startA, startB, endA, endB, axisA, axisB, V4.get] at hb
    · intro evs' hs' ax hax
      cases sends_unique hs' h4
      obtain ⟨s1', -⟩ := arc_sizes (da := 0) (db := 0) (ra := 0) (rb := -5) (d3 := 0) (e := 0)
      rw [s1', e1']
      rcases hax with rfl | rfl
      · simp only [axisA]
        rw [h7]
        norm_num [V4.get, Cfg.default, tableSize]
      · simp only [axisB]
        rw [h8]
        norm_num [V4.get, Cfg.default, tableSize]
  · rw [t1]
    exact ⟨by simp, by simp, by simp, trivial⟩

/-- The hypotheses of `C11_default_partial` are met after `G1 X100 Y100`, `G2 X100 Y90 J-5`. -/
example (henv : ∀ tr, env.move tr = none) : ∃ (s : MState ℝ) (evs : List (Event ℝ)) (g : CircGen ℝ),
    Reachable Cfg.default env s ∧ Sends Cfg.default s.trace evs ∧
    HalCall.move (.circular g) ∈ s.trace ∧
    ∀ g, HalCall.move (.circular g) ∈ s.trace → g.plane = .xy ∧ ¬ EndsBefore Cfg.default g := by
  obtain ⟨s1, s2, lg, g, e1, e2, pre, h1, h2, t1, t2, hg, h4, h5, h6, h7, h8, _, _⟩ :=
    half_history (m := 10000) (x := "100") henv (by norm_num) (by norm_num; decide)
  have r1 : Reachable Cfg.default env s1 := by
    have := Reachable.step (c := Cfg.default) (env := env) (.cmd (some (lineTo "100" "100"))) .init
    simpa [Op.exec, h1] using this
  have r2 : Reachable Cfg.default env s2 := by
    have := Reachable.step (.cmd (some (halfLine "100"))) r1
    simpa [Op.exec, h2] using this
  obtain ⟨_, _, hf⟩ := new_facts hg
  refine ⟨s2, _, g, r2, h5, by rw [t2]; simp, fun g' hg' => ?_⟩
  rw [t2, t1] at hg'
  have : g' = g := by simpa using hg'
  subst this
  refine ⟨hf.plane_eq, fun hb => ?_⟩
  obtain ⟨-, R, RB, A, B, EA, EB, hi, -, -, r3, r4, -⟩ := arc_gen half_grid hg
  obtain ⟨hq, -⟩ := hb
  have p1 : ((Cfg.default.ppm.get .x : ℚ) : ℝ) = 100 := by norm_num [V4.get, Cfg.default]
  have p2 : ((Cfg.default.ppm.get .y : ℚ) : ℝ) = 100 := by norm_num [V4.get, Cfg.default]
  have a1 : (A : ℝ) = 0 := by
    rw [← hi.hA]; norm_num [startA, axisA, V4.get]
  have b1 : (B : ℝ) = 500 := by
    rw [← hi.hB]; simp only [axisB]; rw [p2]; norm_num [startB, axisB, V4.get]
  rw [hf.plane_eq, hf.delta_eq, r3, r4, a1, b1] at hq
  simp only [axisA, axisB] at hq
  rw [p1, p2] at hq
  norm_num [arcQuarter, V4.get] at hq

/-- The hypotheses of the theorems about drift are met after `G1 E0.007`. -/
example (henv : ∀ tr, env.move tr = none) : ∃ (s : MState ℝ) (evs : List (Event ℝ)),
    Reachable Cfg.default env s ∧ Sends Cfg.default s.trace evs ∧
    (∀ g, HalCall.move (.circular g) ∉ s.trace) ∧ moveCount s.trace = 1 ∧
    moveCount s.trace * Cfg.default.ppm.get .e < 10 ^ 10 := by
  obtain ⟨s, evs, h1, h2, h3, h4, h5, h6⟩ := extrude_history henv
  refine ⟨s, evs, ?_, h2, h6, h5, by rw [h5]; norm_num [V4.get, Cfg.default]⟩
  have := Reachable.step (c := Cfg.default) (env := env) (.cmd (some extrudeLine)) .init
  simpa [Op.exec, h1] using this

end PyCNC.Props
