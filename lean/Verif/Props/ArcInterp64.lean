import Verif.Lemmas.ArcInterp64
import Verif.Lemmas.Circle64
import Verif.Props.ArcInterp
import Verif.Props.Interp64

/-!
# Property C92: programs with arcs in binary64

The machine computes in binary64 (`F64`), the reference interpreter with real numbers.  All theorems
are for every nearest-integer rounding (`PyRound`).
-/

namespace PyCNC.Props

open PyCNC Spec

variable [PyRound] [PyText] {c : Cfg} {env : Env F64}

omit [PyText] in
theorem arcMatches_init64 : ArcMatches64 c (MState.init c) (ArcRef.init c) := ⟨matches_init64, rfl⟩

/-- **C92.** A program of straight moves, arcs, planes, modes, units and offsets, given as text, is
executed in binary64 like the reference interpreter executes it with real numbers: the same lines are
accepted, at the end the motors have made exactly the steps of the interpreter, and the position, the
offset and the feed are the binary64 numbers nearest to those of the interpreter.  No exception
escapes.  Missing: programs with arcs that are not `FloatArc`s (`C92_refuted`), and lines with numbers
that are not small or that ask for the middle between two steps. -/
theorem C92_program_partial (hc : FloatMachine c) (henv : ∀ tr, env.move tr = none)
    (prog : List (List Char × ArcLine))
    (hp : ∀ p ∈ prog, ∃ g, parseLine p.1 = .ok (some g) ∧ ArcSays g p.2)
    (hx : TameArcs c (ArcRef.init c) (prog.map (·.2))) :
    ∃ s, machineRun c env (MState.init c) (prog.map (·.1)) =
        some (((ArcRef.init c).run c (prog.map (·.2))).1, s) ∧
      ArcMatches64 c s ((ArcRef.init c).run c (prog.map (·.2))).2 := by
  obtain ⟨s, h1, h2, _⟩ := arcProgram_matches64 hc henv prog hp (refOk_init hc) arcMatches_init64 hx
  exact ⟨s, h1, h2⟩

omit [PyText] in
/-- **C92, one line** in any state of the machine that agrees with a state of the interpreter which is
on the table.  A line that is refused changes nothing at all. -/
theorem C92_line_partial (hc : FloatMachine c) (henv : ∀ tr, env.move tr = none) {s : MState F64}
    {r : ArcRef} (ho : RefOk c r.base) (hm : ArcMatches64 c s r) {g : GCode} {l : ArcLine}
    (hg : ArcSays g l) (hx : TameArc c r l) :
    (∀ r', r.step c l = some r' → ∃ a s', doCommand c env (some g) s = (.ok a, s') ∧
      ArcMatches64 c s' r' ∧ RefOk c r'.base) ∧
    (r.step c l = none → ∃ e, Reported e ∧ doCommand c env (some g) s = (.error e, s)) :=
  arcLine_matches64 hc henv ho hm hg hx

/-! ## The program of C78 -/

omit [PyText] in
/-- Small words for X and Y that name steps are tame. -/
theorem tame_xy {r : Ref} {m n m' n' : ℤ} {w : Axis → Option ℚ} {qx qy : ℚ}
    (hx : w .x = some qx) (hy : w .y = some qy) (hz : w .z = none) (he : w .e = none)
    (hs : r.steps = fun | .x => m | .y => n | _ => 0) (hr : r.relative = false) (hu : r.unit = 1)
    (ho : r.origin = fun _ => 0) (kx : (qx : ℝ) * 100 = m') (ky : (qy : ℝ) * 100 = n')
    (nx : NineDigits qx) (ny : NineDigits qy) (bx : |(qx : ℝ)| ≤ 2 * 10 ^ 4)
    (bY : |(qy : ℝ)| ≤ 2 * 10 ^ 4) (ax : Axis) :
    (∀ q, w ax = some q → SmallWord r q) ∧
      |r.dist Cfg.default w ax * Cfg.default.ppm.get ax - r.go Cfg.default w ax| ≤
        1 / 2 - 1 / 10 ^ 6 := by
  have px : ((Cfg.default.ppm.get .x : ℚ) : ℝ) = 100 := by norm_num [Cfg.default, V4.get]
  have py : ((Cfg.default.ppm.get .y : ℚ) : ℝ) = 100 := by norm_num [Cfg.default, V4.get]
  cases ax
  · refine (tame_some (k := m' - m) hx nx (by rw [hu, mul_one]; exact bx) (.inl hu) ?_).1
    simp only [Ref.dist, hx, hr, Bool.false_eq_true, if_false, hu, ho, at_steps (ax := .x) (by decide),
      hs, px]
    push_cast
    rw [← kx]
    ring
  · refine (tame_some (k := n' - n) hy ny (by rw [hu, mul_one]; exact bY) (.inl hu) ?_).1
    simp only [Ref.dist, hy, hr, Bool.false_eq_true, if_false, hu, ho, at_steps (ax := .y) (by decide),
      hs, py]
    push_cast
    rw [← ky]
    ring
  · exact tame_none hz
  · exact tame_none he

omit [PyText] [PyRound] in
theorem table_xy {m n : ℤ} (h1 : 0 ≤ m) (h2 : m ≤ 20000) (h3 : 0 ≤ n) (h4 : n ≤ 20000) :
    StepsOnTable Cfg.default (fun | .x => m | .y => n | _ => 0) := by
  intro ax hax
  have h1 : (0 : ℝ) ≤ m := by exact_mod_cast h1
  have h2 : (m : ℝ) ≤ 20000 := by exact_mod_cast h2
  have h3 : (0 : ℝ) ≤ n := by exact_mod_cast h3
  have h4 : (n : ℝ) ≤ 20000 := by exact_mod_cast h4
  cases ax
  · norm_num [Cfg.default, V4.get, tableSize]; constructor <;> linarith
  · norm_num [Cfg.default, V4.get, tableSize]; constructor <;> linarith
  · norm_num [Cfg.default, V4.get, tableSize]
  · exact absurd rfl hax

/-- The interpreter is at a point of the plane of X and Y, in mm and absolute coordinates. -/
structure AtXY (r : ArcRef) (m n : ℤ) : Prop where
  steps : r.base.steps = fun | .x => m | .y => n | _ => 0
  origin : r.base.origin = fun _ => 0
  unit : r.base.unit = 1
  mode : r.base.relative = false
  extruded : r.base.extruded = 0
  plane : r.plane = .xy

omit [PyText] in
/-- The line `G1X100Y100F600` at the origin. -/
theorem first_line {r : ArcRef} (h : AtXY r 0 0) : TameArc Cfg.default r
      ⟨.plain (.move arcW1), some 600⟩ ∧
    ∃ r', r.step Cfg.default ⟨.plain (.move arcW1), some 600⟩ = some r' ∧ AtXY r' 10000 10000 ∧
      r'.base.feed = 600 := by
  obtain ⟨p1, o1, u1, m1, x1, pl1⟩ := h
  have hv : ((Cfg.default.minVel : ℚ) : ℝ) = 1 := by norm_num [Cfg.default]
  have t1 := arc_target (r := r.base) (w := arcW1) (m := 0) (n := 0) (m' := 10000) (n' := 10000) rfl rfl
    rfl rfl p1 m1 u1 o1 (by norm_num) (by norm_num)
  have ge : r.base.go Cfg.default arcW1 .e = 0 := by
    unfold Ref.go
    rw [t1, p1]; rfl
  have d0 : dec 0 = 0 := by rw [dec_eq (k := 0) (by norm_num)]
  refine ⟨⟨?_, ?_, ?_, ?_, ?_⟩, ?_⟩
  · intro q hq; cases hq; exact ⟨6 * 10 ^ 11, by norm_num⟩
  · intro st hst
    cases hst
    refine ⟨?_, ?_, ?_, ?_, ?_⟩
    · intro q hq; cases hq; exact ⟨6 * 10 ^ 11, by norm_num⟩
    · intro w hw
      cases hw
      exact tame_xy (m := 0) (n := 0) (m' := 10000) (n' := 10000) rfl rfl rfl rfl p1 m1 u1 o1 (by norm_num)
        (by norm_num) ⟨10 ^ 11, by norm_num⟩ ⟨10 ^ 11, by norm_num⟩ (by norm_num) (by norm_num)
    · intro w hw
      cases hw
      rw [ge]; norm_num [Cfg.default]
    · intro w hw; cases hw
    · rw [x1]; norm_num
  · intro rot w k hw; cases hw
  · intro rot w k hw; cases hw
  · rw [x1]; norm_num
  · have ht : StepsOnTable Cfg.default (r.base.target Cfg.default arcW1) := by
      rw [t1]; exact table_xy (by norm_num) (by norm_num) (by norm_num) (by norm_num)
    have h2 : ¬ (((600 : ℚ) : ℝ) < Cfg.default.minVel) := by rw [hv]; norm_num
    refine ⟨⟨{ r.base with
        steps := r.base.target Cfg.default arcW1
        extruded := r.base.extruded + dec (r.base.go Cfg.default arcW1 .e / Cfg.default.ppm.e)
        feed := ((600 : ℚ) : ℝ) }, r.plane⟩, ?_, ⟨t1, o1, u1, m1, ?_, pl1⟩, by norm_num⟩
    · simp only [ArcRef.step, Ref.step, Ref.exec, if_neg h2, if_pos ht, Option.map_some]
    · simp only [ge, x1, Int.cast_zero, zero_div, d0, add_zero]

omit [PyText] in
/-- The line `G2X110Y110I10` at (100, 100). -/
theorem second_line {r : ArcRef} (h : AtXY r 10000 10000) (f2 : r.base.feed = 600) :
    TameArc Cfg.default r ⟨.arc .cw arcW2 arcK2, none⟩ ∧
    ∃ r', r.step Cfg.default ⟨.arc .cw arcW2 arcK2, none⟩ = some r' ∧ AtXY r' 11000 11000 := by
  obtain ⟨p2, o2, u2, m2, x2, pl2⟩ := h
  have hv : ((Cfg.default.minVel : ℚ) : ℝ) = 1 := by norm_num [Cfg.default]
  have px : ((Cfg.default.ppm.get .x : ℚ) : ℝ) = 100 := by norm_num [Cfg.default, V4.get]
  have t2 := arc_target (r := r.base) (w := arcW2) (m' := 11000) (n' := 11000) rfl rfl
    rfl rfl p2 m2 u2 o2 (by norm_num) (by norm_num)
  have k2x : r.base.centre Cfg.default arcK2 .x = 1000 := by
    unfold Ref.centre
    simp only [arcK2, u2]
    rw [dec_eq (k := 10 ^ 11) (by norm_num), show ((10 : ℚ) : ℝ) * 1 * (Cfg.default.ppm.get .x : ℚ) =
      ((1000 : ℤ) : ℝ) by norm_num [Cfg.default, V4.get], rnd_int]
  have f2' : r.feedOf ⟨.arc .cw arcW2 arcK2, none⟩ = 600 := f2
  have g2 : ∀ ax, r.base.go Cfg.default arcW2 ax =
      (fun | .x => 1000 | .y => 1000 | _ => 0 : Axis → ℤ) ax := by
    intro ax
    unfold Ref.go
    rw [t2, p2]
    cases ax <;> rfl
  have e2 : r.base.toEnd Cfg.default arcW2 = ⟨10, 10, 0, 0⟩ := by
    have d0 : dec 0 = 0 := by rw [dec_eq (k := 0) (by norm_num)]
    unfold Ref.toEnd
    simp only [g2]
    norm_num [Cfg.default, d0]
  have c2 : r.base.toCentre Cfg.default arcK2 = ⟨10, 0, 0, 0⟩ := by
    unfold Ref.toCentre
    rw [k2x, show r.base.centre Cfg.default arcK2 .y = 0 from rfl,
      show r.base.centre Cfg.default arcK2 .z = 0 from rfl]
    norm_num [Cfg.default]
  have h5 : √(100 : ℝ) = 10 := by
    rw [show (100 : ℝ) = 10 ^ 2 by norm_num]; exact Real.sqrt_sq (by norm_num)
  have hs : startDist .xy ⟨10, 0, 0, 0⟩ = 10 := by
    simp only [startDist, startA, startB, axisA, axisB, V4.get]; norm_num; exact h5
  have hd : endDist .xy ⟨10, 10, 0, 0⟩ ⟨10, 0, 0, 0⟩ = 10 := by
    simp only [endDist, endA, endB, axisA, axisB, V4.get]; norm_num; exact h5
  have hend : endA .xy ⟨10, 10, 0, 0⟩ ⟨10, 0, 0, 0⟩ = 0 := by
    simp only [endA, axisA, V4.get]; norm_num
  refine ⟨⟨?_, ?_, ?_, ?_, ?_⟩, ?_⟩
  · intro q hq; cases hq
  · intro st hst; cases hst
  · intro rot w k hw
    cases hw
    refine ⟨?_, ?_, ?_⟩
    · exact tame_xy rfl rfl rfl rfl p2 m2 u2 o2 (m' := 11000) (n' := 11000) (by norm_num)
        (by norm_num) ⟨11 * 10 ^ 10, by norm_num⟩ ⟨11 * 10 ^ 10, by norm_num⟩ (by norm_num) (by norm_num)
    · rw [g2]; norm_num [Cfg.default]
    · intro ax hax q hq
      cases ax
      · cases hq
        refine ⟨⟨⟨10 ^ 10, by norm_num⟩, by rw [u2]; norm_num⟩, ?_⟩
        rw [k2x, u2, px]; norm_num
      all_goals cases hq
  · intro rot w k hw _
    cases hw
    rw [pl2]
    refine ⟨⟨?_, ?_, ?_, ?_, ?_, .inl rfl, g2 .e, .inl (g2 .z)⟩, ?_, ?_, rfl, ?_, ?_, g2 .z, ?_, ?_⟩
    · rw [e2, c2, hs, hd]
    · rw [e2, c2]; exact .inl hend
    · rw [e2, c2]; exact quarter_arc_ahead 0
    · rw [c2, hs]
      rintro ax (rfl | rfl)
      · rw [at_steps (by decide), p2]
        simp only [axisA, V4.get, tableSize]; norm_num [Cfg.default]
      · rw [at_steps (by decide), p2]
        simp only [axisB, V4.get, tableSize]; norm_num [Cfg.default]
    · rw [c2, hs]; norm_num
    · rw [e2, c2]; exact .inl hend
    · rw [c2, hs]
      rintro ax (rfl | rfl)
      · rw [at_steps (by decide), p2]
        simp only [axisA, V4.get, tableSize]; norm_num [Cfg.default]
      · rw [at_steps (by decide), p2]
        simp only [axisB, V4.get, tableSize]; norm_num [Cfg.default]
    · exact (fl_hundred _ (.inl rfl)).1
    · rw [c2, hs]; simp only [axisA]; rw [px]; norm_num
    · rw [c2, hs]; simp only [axisA]; rw [px, show (10 : ℝ) * 100 = ((100 * 10 : ℤ) : ℝ) by norm_num, rnd_int]
      exact whole_mm (.inl rfl) 10 (by norm_num)
    · rintro ax (rfl | rfl)
      · simp only [axisA]; rw [k2x]; exact whole_mm (.inl rfl) 10 (by norm_num)
      · exact whole_mm (.inr rfl) 0 (by norm_num)
  · rw [x2]; norm_num
  · refine ⟨_, if_pos ⟨?_, ?_, ?_⟩, t2, o2, u2, m2, x2, pl2⟩
    · rw [f2', hv]; norm_num
    · rw [t2]; exact table_xy (by norm_num) (by norm_num) (by norm_num) (by norm_num)
    · left; rw [pl2]; simp only [axisA]; rw [k2x]; norm_num

omit [PyText] in
/-- The program of C78 is one for which C92 holds. -/
theorem arcProgram_tame : TameArcs Cfg.default (ArcRef.init Cfg.default) (arcProgram.map (·.2)) := by
  have hv : ((Cfg.default.minVel : ℚ) : ℝ) = 1 := by norm_num [Cfg.default]
  have f0 : 1 ≤ (Ref.init Cfg.default).feed := by norm_num [Ref.init, Cfg.default]
  obtain ⟨r1, s1, a1⟩ : ∃ r1, (ArcRef.init Cfg.default).step Cfg.default
      ⟨.plane .xy, none⟩ = some r1 ∧ AtXY r1 0 0 := by
    refine ⟨_, if_neg ?_, by funext ax; cases ax <;> rfl, rfl, rfl, rfl, rfl, rfl⟩
    rw [hv]; exact not_lt.mpr f0
  obtain ⟨q2, r2, s2, a2, f2⟩ := first_line a1
  obtain ⟨q3, r3, s3, a3⟩ := second_line a2 f2
  have s4 : r3.step Cfg.default ⟨.arc .ccw arcW3 arcK3, none⟩ = none := by
    refine if_neg fun h => ?_
    rcases h.2.2 with h | h <;> exact h rfl
  simp only [arcProgram, List.map_cons, List.map_nil, TameArcs, s1, s2, s3, Option.getD_some]
  refine ⟨⟨?_, ?_, ?_, ?_, ?_⟩, q2, q3, ⟨?_, ?_, ?_, ?_, ?_⟩, trivial⟩
  · intro q hq; cases hq
  · intro st hst; cases hst
  · intro rot w k hw; cases hw
  · intro rot w k hw; cases hw
  · change |(0 : ℝ)| ≤ _; norm_num
  · intro q hq; cases hq
  · intro st hst; cases hst
  · intro rot w k hw
    cases hw
    have px : ((Cfg.default.ppm.get .x : ℚ) : ℝ) = 100 := by norm_num [Cfg.default, V4.get]
    refine ⟨?_, ?_, ?_⟩
    · intro ax
      cases ax
      · refine (tame_some (q := 120) (k := 1000) rfl ⟨12 * 10 ^ 10, by norm_num⟩
          (by rw [a3.unit]; norm_num) (.inl a3.unit) ?_).1
        simp only [Ref.dist, arcW3, a3.mode, Bool.false_eq_true, if_false, a3.unit, a3.origin,
          at_steps (ax := .x) (by decide), a3.steps, px]
        norm_num
      all_goals exact tame_none rfl
    · have : r3.base.go Cfg.default arcW3 .e = 0 := sub_self _
      rw [this]; norm_num [Cfg.default]
    · intro ax _ q hq; cases hq
  · intro rot w k hw h; exact absurd s4 h
  · rw [a3.extruded]; norm_num

/-- The program in binary64: the last line is refused, the head is at the binary64 number 110 on X and
Y, and the motors have made 11000 steps. -/
theorem C92_example (henv : ∀ tr, env.move tr = none) : ∃ s evs,
    machineRun Cfg.default env (MState.init Cfg.default) (arcProgram.map (·.1)) =
      some ([true, true, true, false], s) ∧ s.pos.x = F64.of 110 ∧ s.pos.y = F64.of 110 ∧
    Sends Cfg.default s.trace evs ∧ netSteps Cfg.default .x evs = 11000 ∧
    netSteps Cfg.default .y evs = 11000 := by
  obtain ⟨s, h1, h2⟩ := C92_program_partial default_float henv arcProgram arcProgram_says
    arcProgram_tame
  obtain ⟨r1, r2, -⟩ := arcProgram_run
  obtain ⟨evs, h3, h4⟩ := h2.base.motors
  refine ⟨s, evs, by rw [h1, r1], ?_, ?_, h3, by rw [h4, r2], by rw [h4, r2]⟩
  · have := h2.base.pos .x
    rw [at_steps (by decide)] at this
    simp only [V4.get] at this
    rw [this, r2]
    congr 1
    norm_num [Cfg.default]
  · have := h2.base.pos .y
    rw [at_steps (by decide)] at this
    simp only [V4.get] at this
    rw [this, r2]
    congr 1
    norm_num [Cfg.default]

/-- The program and the default machine meet the hypotheses. -/
example : FloatMachine Cfg.default ∧
    (∀ p ∈ arcProgram, ∃ g, parseLine p.1 = .ok (some g) ∧ ArcSays g p.2) ∧
    TameArcs Cfg.default (ArcRef.init Cfg.default) (arcProgram.map (·.2)) ∧
    ∀ tr, (⟨fun _ => none, fun _ => none, fun _ => true, fun _ => none⟩ : Env F64).move tr = none :=
  ⟨default_float, arcProgram_says, arcProgram_tame, fun _ => rfl⟩

/-! ## A small circle -/

/-- The words of the full circle `G2 J-0.29`. -/
def smallW : Axis → Option ℚ := fun _ => none
def smallK : Axis → Option ℚ | .y => some (-29 / 100) | _ => none

omit [PyText] in
/-- The facts of the circle at (100, 100). -/
theorem small_facts {r : ArcRef} (h : AtXY r 10000 10000) :
    r.base.toEnd Cfg.default smallW = ⟨0, 0, 0, 0⟩ ∧
    r.base.toCentre Cfg.default smallK = ⟨0, -(29 / 100), 0, 0⟩ ∧
    r.base.target Cfg.default smallW = r.base.steps ∧
    r.base.centre Cfg.default smallK .y = -29 ∧
    startDist .xy ⟨0, -(29 / 100), 0, 0⟩ = 29 / 100 ∧
    endDist .xy ⟨0, 0, 0, 0⟩ ⟨0, -(29 / 100), 0, 0⟩ = 29 / 100 := by
  obtain ⟨p2, o2, u2, m2, x2, pl2⟩ := h
  have ky : r.base.centre Cfg.default smallK .y = -29 := by
    unfold Ref.centre
    simp only [smallK, u2]
    rw [dec_eq (k := -29 * 10 ^ 8) (by norm_num),
      show ((-29 / 100 : ℚ) : ℝ) * 1 * (Cfg.default.ppm.get .y : ℚ) =
      ((-29 : ℤ) : ℝ) by norm_num [Cfg.default, V4.get], rnd_int]
  have g2 : ∀ ax, r.base.go Cfg.default smallW ax = 0 := fun ax => sub_self _
  have hq : √841 / √10000 = (29 / 100 : ℝ) := by
    rw [show (841 : ℝ) = 29 ^ 2 by norm_num, show (10000 : ℝ) = 100 ^ 2 by norm_num,
      Real.sqrt_sq (by norm_num), Real.sqrt_sq (by norm_num)]
  refine ⟨?_, ?_, ?_, ky, ?_, ?_⟩
  · have d0 : dec 0 = 0 := by rw [dec_eq (k := 0) (by norm_num)]
    unfold Ref.toEnd
    simp only [g2]
    norm_num [d0]
  · unfold Ref.toCentre
    rw [ky, show r.base.centre Cfg.default smallK .x = 0 from rfl,
      show r.base.centre Cfg.default smallK .z = 0 from rfl]
    norm_num [Cfg.default]
  · funext ax; rfl
  · simp only [startDist, startA, startB, axisA, axisB, V4.get]; norm_num; exact hq
  · simp only [endDist, endA, endB, axisA, axisB, V4.get]; norm_num; exact hq

omit [PyText] in
theorem sends_unique64 {tr : List (HalCall F64)} {e₁ e₂ : List (Event F64)} (h1 : Sends c tr e₁)
    (h2 : Sends c tr e₂) : e₁ = e₂ := by
  induction h1 generalizing e₂ with
  | nil => cases h2; rfl
  | move h _ ih =>
    cases h2 with
    | move h4 h3 => rw [ih h3, emits_unique h h4]
    | other h3 _ => exact absurd rfl (h3 _)
  | other h _ ih =>
    cases h2 with
    | move _ _ => exact absurd rfl (h _)
    | other _ h3 => exact ih h3

omit [PyText] in
/-- **C92 is false** of arcs that are right in exact arithmetic and whose radius does not survive:
`G1X100Y100F600`, `G2J-0.29`.  Both lines are accepted, the second one is a full circle, the position
afterwards is (100, 100), and the motors are four steps beside it on either axis. -/
theorem C92_refuted : ∃ (env : Env F64) (g1 g2 : GCode) (l1 l2 : ArcLine)
    (a1 a2 : Option (Answer F64)) (s1 s2 : MState F64) (evs : List (Event F64)),
    (∀ tr, env.move tr = none) ∧ ArcSays g1 l1 ∧ ArcSays g2 l2 ∧
    RightArcs Cfg.default 9999 (ArcRef.init Cfg.default) [l1, l2] ∧
    doCommand Cfg.default env (some g1) (MState.init Cfg.default) = (.ok a1, s1) ∧
    doCommand Cfg.default env (some g2) s1 = (.ok a2, s2) ∧
    s2.pos.x = F64.of 100 ∧ s2.pos.y = F64.of 100 ∧ Sends Cfg.default s2.trace evs ∧
    netSteps Cfg.default .x evs = 10004 ∧ netSteps Cfg.default .y evs = 9996 ∧
    ∀ r, ¬ ArcMatches64 Cfg.default s2 r := by
  have hv : ((Cfg.default.minVel : ℚ) : ℝ) = 1 := by norm_num [Cfg.default]
  set env : Env F64 := ⟨fun _ => none, fun _ => none, fun _ => true, fun _ => none⟩ with henv'
  have henv : ∀ tr, env.move tr = none := fun _ => rfl
  set g1 : GCode := ⟨[('G', "1".toList), ('X', "100".toList), ('Y', "100".toList), ('F', "600".toList)]⟩
    with hg1
  set g2 : GCode := ⟨[('G', "2".toList), ('J', "-0.29".toList)]⟩ with hg2
  have y1 : ArcSays g1 ⟨.plain (.move arcW1), some 600⟩ := by
    refine ⟨⟨?_, ?_, ?_, ?_⟩, ?_⟩
    · unfold NumbersOk; decide +kernel
    · exact ⟨_, rfl, by decide +kernel⟩
    · exact .inr (.inl ⟨by decide, by decide⟩)
    · intro ax
      cases ax
      case x => exact ⟨_, rfl, by decide +kernel⟩
      case y => exact ⟨_, rfl, by decide +kernel⟩
      all_goals change List.lookup _ _ = none; decide
    · rintro ⟨p, hp, hi⟩
      have := hi.1
      simp only [List.mem_cons, List.not_mem_nil, or_false] at hp
      rcases hp with rfl | rfl | rfl <;> exact absurd this (by decide)
  have y2 : ArcSays g2 ⟨.arc .cw smallW smallK, none⟩ := by
    refine ⟨?_, ?_, ?_, ?_, ?_, ?_, ?_⟩
    · unfold NumbersOk; decide +kernel
    · change List.lookup _ _ = none; decide
    · exact ⟨by decide, by decide⟩
    · intro ax
      cases ax
      all_goals change List.lookup _ _ = none; decide
    · change List.lookup _ _ = none; decide
    · exact ⟨_, rfl, by decide +kernel⟩
    · change List.lookup _ _ = none; decide
  have a0 : AtXY (ArcRef.init Cfg.default) 0 0 :=
    ⟨by funext ax; cases ax <;> rfl, rfl, rfl, rfl, rfl, rfl⟩
  obtain ⟨q1, r1, st1, b1, f1⟩ := first_line a0
  obtain ⟨an1, s1, c1, m1, o1⟩ := (arcLine_matches64 default_float henv (refOk_init default_float)
    arcMatches_init64 y1 q1).1 r1 st1
  obtain ⟨e2, c2, t2, ky, hs, hd⟩ := small_facts b1
  have hplane : s1.plane = .xy := m1.plane.trans b1.plane
  have f1' : r1.feedOf ⟨.arc .cw smallW smallK, none⟩ = 600 := f1
  have htab : StepsOnTable Cfg.default (r1.base.target Cfg.default smallW) := by
    rw [t2]; exact o1.table
  have hcen : HasCentre Cfg.default r1.base .xy smallK := by
    right; simp only [axisB]; rw [ky]; norm_num
  have g0 : ∀ ax, r1.base.go Cfg.default smallW ax = 0 := fun ax => sub_self _
  have hin : ∀ ax, ax = axisA .xy ∨ ax = axisB .xy →
      29 / 100 + 1 / 10 ^ 6 ≤ r1.base.at Cfg.default ax +
        (⟨0, -(29 / 100), 0, 0⟩ : V4 ℝ).get ax ∧
      r1.base.at Cfg.default ax + (⟨0, -(29 / 100), 0, 0⟩ : V4 ℝ).get ax + 29 / 100 + 1 / 10 ^ 6 ≤
        tableSize Cfg.default ax := by
    rintro ax (rfl | rfl)
    · rw [at_steps (by decide), b1.steps]
      simp only [axisA, V4.get, tableSize]; norm_num [Cfg.default]
    · rw [at_steps (by decide), b1.steps]
      simp only [axisB, V4.get, tableSize]; norm_num [Cfg.default]
  obtain ⟨cg, evs, hcg, hem, -, -, nx, ny⟩ := Small.run_off
  have hz : F64.of 0 = Small.Z := ext64 (by rw [val_of, fl_zero, Small.z1])
  have hR : F64.of (-(29 / 100)) = PyNum.neg Small.R := ext64 (by rw [val_of, val_neg, fl_neg]; rfl)
  obtain ⟨-, d, rad, hdel, hrad, hx⟩ := numbers_cases64 (env := env) (l := ⟨.arc .cw smallW smallK, none⟩)
    default_float o1 m1 y2.1 y2.2.1 (by intro q hq; cases hq)
  rcases hx with ⟨hlt, -⟩ | ⟨hmin, hv1, hx⟩
  · rw [f1', hv] at hlt; norm_num at hlt
  obtain ⟨p, hmv, hp⟩ := arc_moves64 (rot := .cw) (v := 600) (cg := cg) default_float henv o1
    (by rw [b1.extruded]; norm_num) m1.base hdel y2.2.2.2.1 hrad y2.2.2.2.2
    ⟨fun ax => tame_none rfl, by rw [g0]; norm_num [Cfg.default], by
      intro ax _ q hq
      cases ax
      case y =>
        cases hq
        refine ⟨⟨⟨-29 * 10 ^ 7, by norm_num⟩, by rw [b1.unit, abs_le]; constructor <;> norm_num⟩, ?_⟩
        rw [ky, b1.unit]; norm_num [Cfg.default, V4.get]
      all_goals cases hq⟩ (by norm_num) htab (by rw [hplane]; exact hcen)
    (by rw [hplane, e2, c2, hs, hd]) (.inr (.inr ⟨g0 _, g0 _⟩))
    (by rw [hplane, c2, hs]; exact hin) (by rw [hplane, c2, hs]; norm_num) (g0 _) (g0 _)
    (by rw [hplane, e2, c2]; simp only [V4.map]; rw [hz, hR]; exact hcg)
  have hex : execCmd Cfg.default env (lineCmd g2) g2 d rad
      (F64.of (r1.feedOf ⟨.arc .cw smallW smallK, none⟩)) s1 =
      (do moveCircular Cfg.default env d rad (F64.of (r1.feedOf ⟨.arc .cw smallW smallK, none⟩)) .cw
          return none : M F64 (Option (Answer F64))) s1 := by
    rw [is_lineCmd (cmd := .g2) ⟨_, List.mem_singleton_self _, y2.2.2.1⟩]; rfl
  rw [hex] at hx
  rw [f1'] at hx
  have h5 := M.bind_ok (f := fun _ => (pure none : M F64 (Option (Answer F64)))) hmv
  obtain ⟨a2, s2, c2', hpos, htr⟩ : ∃ a2 s2, doCommand Cfg.default env (some g2) s1 = (.ok a2, s2) ∧
      s2.pos = p ∧ s2.trace = .move (.circular cg) :: s1.trace := by
    rcases hx with ⟨a, s', h6, h7⟩ | ⟨e', s', h6, h7⟩
    · rw [h5] at h6; cases h6
      exact ⟨_, _, h7, rfl, rfl⟩
    · rw [h5] at h6; cases h6
  obtain ⟨evs0, hev, hn⟩ := m1.base.motors
  have hsend : Sends Cfg.default s2.trace (evs0 ++ evs) := by rw [htr]; exact .move hem hev
  have hX : netSteps Cfg.default .x (evs0 ++ evs) = 10004 := by
    rw [netSteps_append (emits_announced hem (List.prefix_refl _)), hn, b1.steps, nx]; norm_num
  have hY : netSteps Cfg.default .y (evs0 ++ evs) = 9996 := by
    rw [netSteps_append (emits_announced hem (List.prefix_refl _)), hn, b1.steps, ny]; norm_num
  have hpx : s2.pos.x = F64.of 100 := by
    have := hp .x
    rw [at_steps (by decide), t2, b1.steps] at this
    rw [hpos]
    simp only [V4.get] at this
    rw [this]
    congr 1
    norm_num [Cfg.default]
  have hpy : s2.pos.y = F64.of 100 := by
    have := hp .y
    rw [at_steps (by decide), t2, b1.steps] at this
    rw [hpos]
    simp only [V4.get] at this
    rw [this]
    congr 1
    norm_num [Cfg.default]
  refine ⟨env, g1, g2, _, _, an1, a2, s1, s2, _, henv, y1, y2, ?_, c1, c2', hpx, hpy, hsend, hX, hY, ?_⟩
  · simp only [RightArcs, st1, Option.getD_some]
    refine ⟨?_, ?_, ?_, ?_, trivial⟩
    · intro w hw
      cases hw
      exact_mod_cast (q1.plain _ rfl).amount _ rfl
    · intro rot w k hw; cases hw
    · intro w hw; cases hw
    · intro rot w k hw _
      cases hw
      rw [b1.plane]
      refine ⟨?_, .inr (.inr (.inr ⟨g0 _, g0 _⟩)), ?_, ?_, ?_, .inl rfl, g0 .e, .inl (g0 _)⟩
      · rw [e2, c2, hs, hd]
      · rw [e2, c2]
        simp only [BackInQuarter, arcQuarter, startA, startB, endA, endB, axisA, axisB, V4.get]
        norm_num
      · rw [c2, hs]
        intro ax hax
        have := hin ax hax
        have h6 : (0 : ℝ) ≤ 1 / 10 ^ 6 := by norm_num
        constructor <;> linarith [this.1, this.2]
      · rw [c2, hs]; norm_num
  · intro r hr
    obtain ⟨evs', h7, h8⟩ := hr.base.motors
    cases sends_unique64 h7 hsend
    have h9 := hr.base.pos .x
    rw [at_steps (by decide), ← h8, hX] at h9
    simp only [V4.get] at h9
    rw [hpx] at h9
    have h10 : (F64.of 100 <ₚ F64.of (((10004 : ℤ) : ℝ) / (Cfg.default.ppm.x : ℚ))) = true := by
      refine (lt_of64 ⟨10 ^ 12, by rw [e10_val]; norm_num⟩
        ⟨10004 * 10 ^ 8, by rw [e10_val]; norm_num [Cfg.default]⟩ (by norm_num) ?_).2 ?_
      · rw [abs_le]; constructor <;> norm_num [Cfg.default]
      · norm_num [Cfg.default]
    rw [← h9, lt64_iff] at h10
    exact lt_irrefl _ h10

end PyCNC.Props
