import Verif.Lemmas.ArcInterp
import Verif.Props.Interp

/-!
# Property C78: programs with arcs

The reference interpreter is in `Verif/Spec/ArcInterp.lean`.  All theorems of this file are about
exact arithmetic, for every nearest-integer rounding (`PyRound`).
-/

namespace PyCNC.Props

open PyCNC Spec

variable [PyRound] [PyText] {c : Cfg} {env : Env ℝ}

omit [PyText] in
theorem arcMatches_init : ArcMatches c (MState.init c) (ArcRef.init c) := ⟨matches_init, rfl⟩

/-- **C78.** A program of straight moves, arcs, planes, modes, units and offsets, given as text, is
executed like the reference interpreter does: the same lines are accepted, and at the end the
position, the motors, the plane, the offset, the unit, the mode and the feed are those of the
interpreter.  No exception escapes.  Missing: programs with arcs that the interpreter accepts and
that are not `RightArc`s (`C78_refuted`), and lines that ask for more than 9999 mm of extrusion. -/
theorem C78_program_partial (hc : PlainMachine c) (henv : ∀ tr, env.move tr = none)
    (prog : List (List Char × ArcLine))
    (hp : ∀ p ∈ prog, ∃ g, parseLine p.1 = .ok (some g) ∧ ArcSays g p.2)
    (hx : RightArcs c 9999 (ArcRef.init c) (prog.map (·.2))) :
    ∃ s, machineRun c env (MState.init c) (prog.map (·.1)) =
        some (((ArcRef.init c).run c (prog.map (·.2))).1, s) ∧
      ArcMatches c s ((ArcRef.init c).run c (prog.map (·.2))).2 := by
  obtain ⟨s, h1, _, h2, _⟩ := arcProgram_matches hc henv prog hp le_rfl (Q := fun _ => True)
    (fun _ _ _ _ => trivial) .init arcMatches_init hx trivial
  exact ⟨s, h1, h2⟩

omit [PyText] in
/-- **C78, one line** in any state that was reached somehow and that agrees with a state of the
interpreter.  A line that is refused changes nothing at all. -/
theorem C78_line_partial (hc : PlainMachine c) (henv : ∀ tr, env.move tr = none) {s : MState ℝ}
    {r : ArcRef} (hs : Reachable c env s) (hm : ArcMatches c s r) {g : GCode} {l : ArcLine}
    (hg : ArcSays g l) (hx : RightArcs c 9999 r [l]) :
    (∀ r', r.step c l = some r' → ∃ a s', doCommand c env (some g) s = (.ok a, s') ∧
      ArcMatches c s' r') ∧
    (r.step c l = none → ∃ e, Reported e ∧ doCommand c env (some g) s = (.error e, s)) := by
  obtain ⟨k1, k2⟩ := arcLine_matches hc henv hs hm hg le_rfl hx.1 hx.2.1
  exact ⟨fun r' hr => by
    obtain ⟨a, s', h1, h2, _⟩ := k1 r' hr
    exact ⟨a, s', h1, h2⟩, k2⟩

/-- **C78, the way.** The head stays on the table after every single pulse of such a program. -/
theorem C78_stays_on_table_partial (hc : PlainMachine c) (ht : StepTable c)
    (henv : ∀ tr, env.move tr = none) (prog : List (List Char × ArcLine))
    (hp : ∀ p ∈ prog, ∃ g, parseLine p.1 = .ok (some g) ∧ ArcSays g p.2)
    (hx : RightArcs c 9999 (ArcRef.init c) (prog.map (·.2))) :
    ∃ acc s evs, machineRun c env (MState.init c) (prog.map (·.1)) = some (acc, s) ∧
      Sends c s.trace evs ∧ ∀ pre, pre <+: evs → ∀ ax, ax ≠ .e →
        (0 : ℝ) ≤ netSteps c ax pre / (c.ppm.get ax : ℝ) ∧
        netSteps c ax pre / (c.ppm.get ax : ℝ) ≤ tableSize c ax := by
  obtain ⟨s, h1, h2, h3, h4⟩ := arcProgram_matches hc henv prog hp le_rfl
    (Q := Always (fun call earlier => ∀ g, call = .move (.circular g) →
      ∃ radius plane, ArcOf c g radius plane ∧ CircleInside c earlier radius plane))
    (by
      rintro tr tr' hq ((rfl | ⟨lg, d, v, rfl, _⟩) | ⟨g, radius, plane, rfl, h1, h2, -⟩)
      · exact hq
      · exact ⟨by simp, hq⟩
      · refine ⟨fun g' hg' => ?_, hq⟩
        cases hg'
        exact ⟨radius, plane, h1, h2⟩) .init arcMatches_init hx
    (by refine ⟨?_, ?_, trivial⟩ <;> simp)
  obtain ⟨evs, h5, _⟩ := h3.base.motors
  exact ⟨_, s, evs, h1, h5, fun pre hpre ax hax =>
    C10_circles_partial henv ht hax h2 h4 h5 hpre⟩

omit [PyText] in
/-- **C78 is false of the program**: after `G1 X105 Y105`, `G3 X100 Y107.07 I-5 J-5`, two lines that
are accepted, the machine is in no state of the interpreter: the position is (100, 107.07), the motors
are at (105, 105). -/
theorem C78_refuted : ∃ (env : Env ℝ) (g1 g2 : GCode) (l1 l2 : ArcLine) (s1 s2 : MState ℝ),
    (∀ tr, env.move tr = none) ∧ ArcSays g1 l1 ∧ ArcSays g2 l2 ∧
    doCommand Cfg.default env (some g1) (MState.init Cfg.default) = (.ok none, s1) ∧
    doCommand Cfg.default env (some g2) s1 = (.ok none, s2) ∧
    ∀ r, ¬ ArcMatches Cfg.default s2 r := by
  obtain ⟨s1, s2, evs, h1, h2, h3, h4, h5, h6⟩ :=
    back_history (env := ⟨fun _ => none, fun _ => none, fun _ => true, fun _ => none⟩) fun _ => rfl
  refine ⟨_, _, _, ⟨.plain (.move fun | .x => some 105 | .y => some 105 | _ => none), none⟩,
    ⟨.arc .ccw (fun | .x => some 100 | .y => some (10707 / 100) | _ => none)
      (fun | .x => some (-5) | .y => some (-5) | _ => none), none⟩, s1, s2, fun _ => rfl, ?_, ?_, h1, h2, ?_⟩
  · refine ⟨⟨?_, ?_, ?_, ?_⟩, ?_⟩
    · unfold NumbersOk; decide +kernel
    · exact (by decide : List.lookup 'F' (lineTo "105" "105").params = none)
    · exact .inr (.inl ⟨by decide, by decide⟩)
    · intro ax
      cases ax
      case x => exact ⟨_, rfl, by decide +kernel⟩
      case y => exact ⟨_, rfl, by decide +kernel⟩
      all_goals change List.lookup _ _ = none; decide
    · rintro ⟨p, hp, hi⟩
      have := hi.1
      simp only [List.mem_cons, List.not_mem_nil, or_false] at hp
      rcases hp with rfl | rfl | rfl <;> exact absurd this (by decide)
  · refine ⟨?_, ?_, ?_, ?_, ?_, ?_, ?_⟩
    · unfold NumbersOk; decide +kernel
    · exact (by decide : List.lookup 'F' backLine.params = none)
    · exact ⟨by decide, by decide⟩
    · intro ax
      cases ax
      case x => exact ⟨_, rfl, by decide +kernel⟩
      case y => exact ⟨_, rfl, by decide +kernel⟩
      all_goals change List.lookup _ _ = none; decide
    · exact ⟨_, rfl, by decide +kernel⟩
    · exact ⟨_, rfl, by decide +kernel⟩
    · change List.lookup _ _ = none; decide
  · intro r hr
    obtain ⟨evs', h7, h8⟩ := hr.base.motors
    cases sends_unique h7 h4
    have h9 := hr.base.pos .x
    rw [at_steps (by decide), ← h8, h5, h3] at h9
    norm_num [V4.get, Cfg.default] at h9

/-- The words of the program below. -/
def arcW1 : Axis → Option ℚ | .x => some 100 | .y => some 100 | _ => none
def arcW2 : Axis → Option ℚ | .x => some 110 | .y => some 110 | _ => none
def arcK2 : Axis → Option ℚ | .x => some 10 | _ => none
def arcW3 : Axis → Option ℚ | .x => some 120 | _ => none
def arcK3 : Axis → Option ℚ := fun _ => none

/-- A program: to (100, 100), a quarter of a circle around (110, 100), and an arc without a
centre. -/
def arcProgram : List (List Char × ArcLine) :=
  [("G17".toList, ⟨.plane .xy, none⟩),
   ("G1X100Y100F600".toList, ⟨.plain (.move arcW1), some 600⟩),
   ("G2X110Y110I10".toList, ⟨.arc .cw arcW2 arcK2, none⟩),
   ("G3X120".toList, ⟨.arc .ccw arcW3 arcK3, none⟩)]

omit [PyRound] in
theorem arcProgram_says :
    ∀ p ∈ arcProgram, ∃ g, parseLine p.1 = .ok (some g) ∧ ArcSays g p.2 := by
  intro p hp
  simp only [arcProgram, List.mem_cons, List.not_mem_nil, or_false] at hp
  rcases hp with rfl | rfl | rfl | rfl
  · refine ⟨⟨[('G', "17".toList)]⟩, ?_, ?_, ?_, ?_⟩
    · refine parse_words (ws := [('G', "17".toList)]) ⟨by decide, ?_, by decide, by decide⟩ (by decide)
      intro w hw
      simp only [List.mem_cons, List.not_mem_nil, or_false] at hw
      subst hw
      exact ⟨by decide, [], _, rfl, .inl rfl, by decide, by decide⟩
    · unfold NumbersOk; decide +kernel
    · exact (by decide : List.lookup 'F' [('G', "17".toList)] = none)
    · exact ⟨by decide, by decide⟩
  · refine ⟨⟨[('G', "1".toList), ('X', "100".toList), ('Y', "100".toList), ('F', "600".toList)]⟩,
      ?_, ⟨?_, ?_, ?_, ?_⟩, ?_⟩
    · refine parse_words (ws := [('G', "1".toList), ('X', "100".toList), ('Y', "100".toList),
        ('F', "600".toList)]) ⟨by decide, ?_, by decide, by decide⟩ (by decide)
      intro w hw
      simp only [List.mem_cons, List.not_mem_nil, or_false] at hw
      rcases hw with rfl | rfl | rfl | rfl <;>
        exact ⟨by decide, [], _, rfl, .inl rfl, by decide, by decide⟩
    · unfold NumbersOk; decide +kernel
    · exact ⟨_, rfl, by decide +kernel⟩
    · exact .inr (.inl ⟨by decide, by decide⟩)
    · intro ax
      cases ax
      case x => exact ⟨_, rfl, by decide +kernel⟩
      case y => exact ⟨_, rfl, by decide +kernel⟩
      all_goals change List.lookup _ _ = none; decide
    · rintro ⟨p, hp, hi⟩
      have := hi.1
      simp only [List.mem_cons, List.not_mem_nil, or_false] at hp
      rcases hp with rfl | rfl | rfl <;> exact absurd this (by decide)
  · refine ⟨⟨[('G', "2".toList), ('X', "110".toList), ('Y', "110".toList), ('I', "10".toList)]⟩,
      ?_, ?_, ?_, ?_, ?_, ?_, ?_, ?_⟩
    · refine parse_words (ws := [('G', "2".toList), ('X', "110".toList), ('Y', "110".toList),
        ('I', "10".toList)]) ⟨by decide, ?_, by decide, by decide⟩ (by decide)
      intro w hw
      simp only [List.mem_cons, List.not_mem_nil, or_false] at hw
      rcases hw with rfl | rfl | rfl | rfl <;>
        exact ⟨by decide, [], _, rfl, .inl rfl, by decide, by decide⟩
    · unfold NumbersOk; decide +kernel
    · change List.lookup _ _ = none; decide
    · exact ⟨by decide, by decide⟩
    · intro ax
      cases ax
      case x => exact ⟨_, rfl, by decide +kernel⟩
      case y => exact ⟨_, rfl, by decide +kernel⟩
      all_goals change List.lookup _ _ = none; decide
    · exact ⟨_, rfl, by decide +kernel⟩
    · change List.lookup _ _ = none; decide
    · change List.lookup _ _ = none; decide
  · refine ⟨⟨[('G', "3".toList), ('X', "120".toList)]⟩, ?_, ?_, ?_, ?_, ?_, ?_, ?_, ?_⟩
    · refine parse_words (ws := [('G', "3".toList), ('X', "120".toList)])
        ⟨by decide, ?_, by decide, by decide⟩ (by decide)
      intro w hw
      simp only [List.mem_cons, List.not_mem_nil, or_false] at hw
      rcases hw with rfl | rfl <;>
        exact ⟨by decide, [], _, rfl, .inl rfl, by decide, by decide⟩
    · unfold NumbersOk; decide +kernel
    · change List.lookup _ _ = none; decide
    · exact ⟨by decide, by decide⟩
    · intro ax
      cases ax
      case x => exact ⟨_, rfl, by decide +kernel⟩
      all_goals change List.lookup _ _ = none; decide
    · change List.lookup _ _ = none; decide
    · change List.lookup _ _ = none; decide
    · change List.lookup _ _ = none; decide

omit [PyText] in
/-- The target of a move of the interpreter along X and Y from the point `(m, n)`. -/
theorem arc_target {r : Ref} {m n m' n' : ℤ} {w : Axis → Option ℚ} {qx qy : ℚ}
    (hx : w .x = some qx) (hy : w .y = some qy) (hz : w .z = none) (he : w .e = none)
    (hs : r.steps = fun | .x => m | .y => n | _ => 0) (hr : r.relative = false) (hu : r.unit = 1)
    (ho : r.origin = fun _ => 0) (kx : (qx : ℝ) * 100 = m') (ky : (qy : ℝ) * 100 = n') :
    r.target Cfg.default w = fun | .x => m' | .y => n' | _ => 0 := by
  have px : ((Cfg.default.ppm.get .x : ℚ) : ℝ) = 100 := by norm_num [Cfg.default, V4.get]
  have py : ((Cfg.default.ppm.get .y : ℚ) : ℝ) = 100 := by norm_num [Cfg.default, V4.get]
  have key : ∀ {q : ℚ} {m m' : ℤ}, (q : ℝ) * 100 = m' →
      m + PyRound.rnd ((0 + dec ((q : ℝ) * 1) - (m : ℝ) / 100) * 100) = m' := by
    intro q m m' h
    have e : (q : ℝ) * 1 * 10 ^ 10 = ((m' * 10 ^ 8 : ℤ) : ℝ) := by push_cast; rw [← h]; ring
    rw [dec_eq e]
    have : (0 + (q : ℝ) * 1 - (m : ℝ) / 100) * 100 = ((m' - m : ℤ) : ℝ) := by
      push_cast; rw [← h]; ring
    rw [this, rnd_int]
    ring
  funext ax
  cases ax
  · unfold Ref.target
    rw [hx]
    simp only [hr, Bool.false_eq_true, if_false, hu, ho, at_steps (ax := .x) (by decide), hs, px]
    exact key kx
  · unfold Ref.target
    rw [hy]
    simp only [hr, Bool.false_eq_true, if_false, hu, ho, at_steps (ax := .y) (by decide), hs, py]
    exact key ky
  · unfold Ref.target
    rw [hz, hs]
  · unfold Ref.target
    rw [he, hs]

omit [PyText] in
/-- What the interpreter makes of the program. -/
theorem arcProgram_run : ((ArcRef.init Cfg.default).run Cfg.default (arcProgram.map (·.2))).1 =
      [true, true, true, false] ∧
    (((ArcRef.init Cfg.default).run Cfg.default (arcProgram.map (·.2))).2.base.steps =
      fun | .x => 11000 | .y => 11000 | _ => 0) ∧
    RightArcs Cfg.default 0 (ArcRef.init Cfg.default) (arcProgram.map (·.2)) := by
  have hv : ((Cfg.default.minVel : ℚ) : ℝ) = 1 := by norm_num [Cfg.default]
  have tb : ∀ {m n : ℤ}, 0 ≤ m → m ≤ 20000 → 0 ≤ n → n ≤ 20000 →
      StepsOnTable Cfg.default (fun | .x => m | .y => n | _ => 0) := by
    intro m n h1 h2 h3 h4 ax hax
    have h1 : (0 : ℝ) ≤ m := by exact_mod_cast h1
    have h2 : (m : ℝ) ≤ 20000 := by exact_mod_cast h2
    have h3 : (0 : ℝ) ≤ n := by exact_mod_cast h3
    have h4 : (n : ℝ) ≤ 20000 := by exact_mod_cast h4
    cases ax
    · norm_num [Cfg.default, V4.get, tableSize]; constructor <;> linarith
    · norm_num [Cfg.default, V4.get, tableSize]; constructor <;> linarith
    · norm_num [Cfg.default, V4.get, tableSize]
    · exact absurd rfl hax
  obtain ⟨r1, s1, p1, o1, u1, m1, f1, pl1⟩ : ∃ r1, (ArcRef.init Cfg.default).step Cfg.default
      ⟨.plane .xy, none⟩ = some r1 ∧ (r1.base.steps = fun | .x => 0 | .y => 0 | _ => 0) ∧
      (r1.base.origin = fun _ => 0) ∧ r1.base.unit = 1 ∧ r1.base.relative = false ∧
      1 ≤ r1.base.feed ∧ r1.plane = .xy := by
    have : 1 ≤ (Ref.init Cfg.default).feed := by norm_num [Ref.init, Cfg.default]
    refine ⟨_, if_neg ?_, by funext ax; cases ax <;> rfl, rfl, rfl, rfl, this, rfl⟩
    rw [hv]; exact not_lt.mpr this
  have t1 := arc_target (r := r1.base) (w := arcW1) (m := 0) (n := 0) (m' := 10000) (n' := 10000) rfl rfl
    rfl rfl p1 m1 u1 o1 (by norm_num) (by norm_num)
  obtain ⟨r2, s2, p2, o2, u2, m2, f2, pl2⟩ : ∃ r2, r1.step Cfg.default
      ⟨.plain (.move arcW1), some 600⟩ = some r2 ∧
      (r2.base.steps = fun | .x => 10000 | .y => 10000 | _ => 0) ∧
      (r2.base.origin = fun _ => 0) ∧ r2.base.unit = 1 ∧ r2.base.relative = false ∧
      r2.base.feed = 600 ∧ r2.plane = .xy := by
    have ht : StepsOnTable Cfg.default (r1.base.target Cfg.default arcW1) := by
      rw [t1]; exact tb (by norm_num) (by norm_num) (by norm_num) (by norm_num)
    have h2 : ¬ (((600 : ℚ) : ℝ) < Cfg.default.minVel) := by rw [hv]; norm_num
    refine ⟨⟨{ r1.base with
        steps := r1.base.target Cfg.default arcW1
        extruded := r1.base.extruded + dec (r1.base.go Cfg.default arcW1 .e / Cfg.default.ppm.e)
        feed := ((600 : ℚ) : ℝ) }, r1.plane⟩, ?_, t1, o1, u1, m1, by norm_num, pl1⟩
    simp only [ArcRef.step, Ref.step, Ref.exec, if_neg h2, if_pos ht, Option.map_some]
  have t2 := arc_target (r := r2.base) (w := arcW2) (m' := 11000) (n' := 11000) rfl rfl
    rfl rfl p2 m2 u2 o2 (by norm_num) (by norm_num)
  have k2x : r2.base.centre Cfg.default arcK2 .x = 1000 := by
    unfold Ref.centre
    simp only [arcK2, u2]
    rw [dec_eq (k := 10 ^ 11) (by norm_num), show ((10 : ℚ) : ℝ) * 1 * (Cfg.default.ppm.get .x : ℚ) =
      ((1000 : ℤ) : ℝ) by norm_num [Cfg.default, V4.get], rnd_int]
  have f2' : r2.feedOf ⟨.arc .cw arcW2 arcK2, none⟩ = 600 := f2
  obtain ⟨r3, s3, p3⟩ : ∃ r3, r2.step Cfg.default ⟨.arc .cw arcW2 arcK2, none⟩ = some r3 ∧
      (r3.base.steps = fun | .x => 11000 | .y => 11000 | _ => 0) := by
    refine ⟨_, if_pos ⟨?_, ?_, ?_⟩, t2⟩
    · rw [f2', hv]; norm_num
    · rw [t2]; exact tb (by norm_num) (by norm_num) (by norm_num) (by norm_num)
    · left; rw [pl2]; simp only [axisA]; rw [k2x]; norm_num
  have s4 : r3.step Cfg.default ⟨.arc .ccw arcW3 arcK3, none⟩ = none := by
    refine if_neg fun h => ?_
    rcases h.2.2 with h | h <;> exact h rfl
  have g2 : ∀ ax, r2.base.go Cfg.default arcW2 ax = (fun | .x => 1000 | .y => 1000 | _ => 0 : Axis → ℤ) ax := by
    intro ax
    unfold Ref.go
    rw [t2, p2]
    cases ax <;> rfl
  have e2 : r2.base.toEnd Cfg.default arcW2 = ⟨10, 10, 0, 0⟩ := by
    have d0 : dec 0 = 0 := by rw [dec_eq (k := 0) (by norm_num)]
    unfold Ref.toEnd
    simp only [g2]
    norm_num [Cfg.default, d0]
  have c2 : r2.base.toCentre Cfg.default arcK2 = ⟨10, 0, 0, 0⟩ := by
    unfold Ref.toCentre
    rw [k2x, show r2.base.centre Cfg.default arcK2 .y = 0 from rfl,
      show r2.base.centre Cfg.default arcK2 .z = 0 from rfl]
    norm_num [Cfg.default]
  have h5 : √(100 : ℝ) = 10 := by
    rw [show (100 : ℝ) = 10 ^ 2 by norm_num]; exact Real.sqrt_sq (by norm_num)
  have hs : startDist .xy ⟨10, 0, 0, 0⟩ = 10 := by
    simp only [startDist, startA, startB, axisA, axisB, V4.get]; norm_num; exact h5
  have hd : endDist .xy ⟨10, 10, 0, 0⟩ ⟨10, 0, 0, 0⟩ = 10 := by
    simp only [endDist, endA, endB, axisA, axisB, V4.get]; norm_num; exact h5
  simp only [arcProgram, List.map_cons, List.map_nil, ArcRef.run, s1, s2, s3, s4, RightArcs,
    Option.getD_some]
  refine ⟨trivial, p3, ?_, ?_, ?_, ?_, ?_, ?_, ?_, ?_, trivial⟩
  · intro w hw; cases hw
  · intro rot w k hw; cases hw
  · intro w hw
    cases hw
    have : r1.base.go Cfg.default arcW1 .e = 0 := by
      unfold Ref.go
      rw [t1, p1]; rfl
    rw [this]; norm_num [Cfg.default]
  · intro rot w k hw; cases hw
  · intro w hw; cases hw
  · intro rot w k hw _
    cases hw
    rw [pl2]
    refine ⟨?_, ?_, ?_, ?_, ?_, .inl rfl, g2 .e, .inl (g2 .z)⟩
    · rw [e2, c2, hs, hd]
    · rw [e2, c2]; left; simp only [endA, axisA, V4.get]; norm_num
    · rw [e2, c2]; exact quarter_arc_ahead 0
    · rw [c2, hs]
      rintro ax (rfl | rfl)
      · rw [at_steps (by decide), p2]
        simp only [axisA, V4.get, tableSize]; norm_num [Cfg.default]
      · rw [at_steps (by decide), p2]
        simp only [axisB, V4.get, tableSize]; norm_num [Cfg.default]
    · rw [c2, hs]; norm_num
  · intro w hw; cases hw
  · intro rot w k hw h; exact absurd rfl h

omit [PyText] in
theorem rightArcs_mono {m m' : ℚ} (h : m ≤ m') (hc : SaneCfg c) {r : ArcRef} {ls : List ArcLine}
    (hx : RightArcs c m r ls) : RightArcs c m' r ls := by
  induction ls generalizing r with
  | nil => trivial
  | cons l ls ih =>
    refine ⟨fun w hw => (hx.1 w hw).trans ?_, hx.2.1, ih hx.2.2⟩
    have h1 : (m : ℝ) ≤ m' := by exact_mod_cast h
    have h2 : (0 : ℝ) < c.ppm.e := by exact_mod_cast hc.ppm_pos .e
    exact mul_le_mul_of_nonneg_right h1 h2.le

omit [PyText] in
theorem arcProgram_right {m : ℚ} (h : 0 ≤ m) :
    RightArcs Cfg.default m (ArcRef.init Cfg.default) (arcProgram.map (·.2)) :=
  rightArcs_mono h default_plain.sane.cfg arcProgram_run.2.2

/-- The same of the machine. -/
theorem C78_example (henv : ∀ tr, env.move tr = none) : ∃ s evs,
    machineRun Cfg.default env (MState.init Cfg.default) (arcProgram.map (·.1)) =
      some ([true, true, true, false], s) ∧ s.pos.x = 110 ∧ s.pos.y = 110 ∧
    Sends Cfg.default s.trace evs ∧ netSteps Cfg.default .x evs = 11000 ∧
    netSteps Cfg.default .y evs = 11000 := by
  obtain ⟨s, h1, h2⟩ := C78_program_partial default_plain henv arcProgram arcProgram_says
    (arcProgram_right (by norm_num))
  obtain ⟨r1, r2, -⟩ := arcProgram_run
  obtain ⟨evs, h3, h4⟩ := h2.base.motors
  refine ⟨s, evs, by rw [h1, r1], ?_, ?_, h3, by rw [h4, r2], by rw [h4, r2]⟩
  · have := h2.base.pos .x
    rw [at_steps (by decide)] at this
    simp only [V4.get] at this
    rw [this, r2]
    norm_num [Cfg.default]
  · have := h2.base.pos .y
    rw [at_steps (by decide)] at this
    simp only [V4.get] at this
    rw [this, r2]
    norm_num [Cfg.default]

/-- The program and the default machine meet the hypotheses. -/
example : PlainMachine Cfg.default ∧ StepTable Cfg.default ∧
    (∀ p ∈ arcProgram, ∃ g, parseLine p.1 = .ok (some g) ∧ ArcSays g p.2) ∧
    RightArcs Cfg.default 9999 (ArcRef.init Cfg.default) (arcProgram.map (·.2)) ∧
    ∀ tr, (⟨fun _ => none, fun _ => none, fun _ => true, fun _ => none⟩ : Env ℝ).move tr = none :=
  ⟨default_plain, default_stepTable, arcProgram_says, arcProgram_right (by norm_num), fun _ => rfl⟩

end PyCNC.Props
