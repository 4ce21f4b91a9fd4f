import Verif.Lemmas.ArcAnyRun64
import Verif.Props.ArcAny
import Verif.Props.ArcInterp64

/-!
# Property C93: arcs whose ends are not on their circles, in binary64

The machine computes in binary64 (`F64`), the reference interpreter with real numbers.
`Verif/Spec/ArcAny64.lean` says which arcs these are.  All theorems are for every nearest-integer rounding
(`PyRound`).
-/

namespace PyCNC.Props

open PyCNC Spec

variable [PyRound] {c : Cfg} {env : Env F64}

/-- **C93.** A program of straight moves, arcs, planes, modes, units and offsets, given as text and executed
in binary64, the ends of its arcs being on their circles or not: if the program ends without an exception
that escapes, then the lines that were carried out are lines that the interpreter carries out, all other
lines but arcs are lines that it refuses, at the end the motors have made exactly the steps of the
interpreter after these lines, and the position, the offset and the feed are the binary64 numbers nearest to
those of the interpreter.  Missing: arcs that are neither `FloatArc`s nor `AsideArc`s (`C93_refuted`), and
lines with numbers that are not small or that ask for the middle between two steps. -/
theorem C93_program_partial [PyText] (hc : FloatMachine c) (henv : ∀ tr, env.move tr = none)
    (prog : List (List Char × ArcLine))
    (hp : ∀ q ∈ prog, ∃ g, parseLine q.1 = .ok (some g) ∧ ArcSays g q.2)
    (hx : TameAnys c (ArcRef.init c) (prog.map (·.2))) {done : List Bool} {s : MState F64}
    (h : machineRun c env (MState.init c) (prog.map (·.1)) = some (done, s)) :
    ∃ r, Follows c (ArcRef.init c) (prog.map (·.2)) done r ∧ ArcMatches64 c s r := by
  obtain ⟨r, h1, h2, -⟩ := anyProgram_matches64 hc henv prog hp (refOk_init hc) arcMatches_init64 hx h
  exact ⟨r, h1, h2⟩

/-- **C93, one line** in any state of the machine that agrees with a state of the interpreter which is on the
table: it is carried out as the interpreter does, or nothing changes at all, and the interpreter refuses it
too if it is not an arc. -/
theorem C93_line_partial (hc : FloatMachine c) (henv : ∀ tr, env.move tr = none) {s : MState F64}
    {r : ArcRef} (ho : RefOk c r.base) (hm : ArcMatches64 c s r) {g : GCode} {l : ArcLine}
    (hg : ArcSays g l) (hx : TameAny c r l) :
    (∃ r' a s', r.step c l = some r' ∧ doCommand c env (some g) s = (.ok a, s') ∧
      ArcMatches64 c s' r' ∧ RefOk c r'.base) ∨
    ((r.step c l = none ∨ SaysArc l) ∧ ∃ e, doCommand c env (some g) s = (.error e, s)) :=
  anyLine_matches64 hc henv ho hm hg hx

/-- **C93, arcs that are certainly carried out.** If the interpreter carries out an arc whose end is straight
to the right, to the left, above or below its centre, at any distance, whose radius is a whole number of
steps and whose circle is on the table, then so does the machine in binary64. -/
theorem C93_accepted_partial (hc : FloatMachine c) (henv : ∀ tr, env.move tr = none) {s : MState F64}
    {r r' : ArcRef} (ho : RefOk c r.base) (hm : ArcMatches64 c s r) {g : GCode} {l : ArcLine}
    (hg : ArcSays g l) (hx : TameAny c r l) {rot : Rot} {w k : Axis → Option ℚ} (hl : l.stmt = .arc rot w k)
    (hst : r.step c l = some r') (hF : AsideArc c r.base r.plane w k)
    (ha : AxisEnd64 c r.base r.plane w k) :
    ∃ a s', doCommand c env (some g) s = (.ok a, s') ∧ ArcMatches64 c s' r' ∧ RefOk c r'.base :=
  axisLine_accepted64 hc henv ho hm hg hx hl hst hF ha

/-- **C93 is false of other arcs**: the full circle `G2J-0.29` at (100, 100) is accepted, its radius does not
survive the conversion to steps, and afterwards the machine is in no state of the interpreter. -/
theorem C93_refuted : ∃ (env : Env F64) (g1 g2 : GCode) (l1 l2 : ArcLine)
    (a1 a2 : Option (Answer F64)) (s1 s2 : MState F64),
    (∀ tr, env.move tr = none) ∧ ArcSays g1 l1 ∧ ArcSays g2 l2 ∧
    doCommand Cfg.default env (some g1) (MState.init Cfg.default) = (.ok a1, s1) ∧
    doCommand Cfg.default env (some g2) s1 = (.ok a2, s2) ∧ ∀ r, ¬ ArcMatches64 Cfg.default s2 r := by
  obtain ⟨env, g1, g2, l1, l2, a1, a2, s1, s2, evs, h1, h2, h3, -, h5, h6, -, -, -, -, -, h12⟩ :=
    C92_refuted
  exact ⟨env, g1, g2, l1, l2, a1, a2, s1, s2, h1, h2, h3, h5, h6, h12⟩

/-! ## The program of C86 -/

/-- The line `G2X122Y100I10` at (100, 100): half a circle around (110, 100), the end of which is 2 mm off
the circle. -/
theorem off_line {r : ArcRef} (h : AtXY r 10000 10000) (f2 : r.base.feed = 600) :
    TameAny Cfg.default r ⟨.arc .cw offW arcK2, none⟩ ∧
    AsideArc Cfg.default r.base r.plane offW arcK2 ∧ AxisEnd64 Cfg.default r.base r.plane offW arcK2 ∧
    ∃ r', r.step Cfg.default ⟨.arc .cw offW arcK2, none⟩ = some r' ∧ AtXY r' 12200 10000 := by
  obtain ⟨p2, o2, u2, m2, x2, pl2⟩ := h
  have hv : ((Cfg.default.minVel : ℚ) : ℝ) = 1 := by norm_num [Cfg.default]
  have px : ((Cfg.default.ppm.get .x : ℚ) : ℝ) = 100 := by norm_num [Cfg.default, V4.get]
  have t2 := arc_target (r := r.base) (w := offW) (m' := 12200) (n' := 10000) rfl rfl
    rfl rfl p2 m2 u2 o2 (by norm_num) (by norm_num)
  have k2x : r.base.centre Cfg.default arcK2 .x = 1000 := by
    unfold Ref.centre
    simp only [arcK2, u2]
    rw [dec_eq (k := 10 ^ 11) (by norm_num), show ((10 : ℚ) : ℝ) * 1 * (Cfg.default.ppm.get .x : ℚ) =
      ((1000 : ℤ) : ℝ) by norm_num [Cfg.default, V4.get], rnd_int]
  have f2' : r.feedOf ⟨.arc .cw offW arcK2, none⟩ = 600 := f2
  have g2 : ∀ ax, r.base.go Cfg.default offW ax = (fun | .x => 2200 | _ => 0 : Axis → ℤ) ax := by
    intro ax
    unfold Ref.go
    rw [t2, p2]
    cases ax <;> rfl
  have e2 : r.base.toEnd Cfg.default offW = ⟨22, 0, 0, 0⟩ := by
    have d0 : dec 0 = 0 := by rw [dec_eq (k := 0) (by norm_num)]
    unfold Ref.toEnd
    simp only [g2]
    norm_num [Cfg.default, d0]
  have c2 : r.base.toCentre Cfg.default arcK2 = ⟨10, 0, 0, 0⟩ := by
    unfold Ref.toCentre
    rw [k2x, show r.base.centre Cfg.default arcK2 .y = 0 from rfl,
      show r.base.centre Cfg.default arcK2 .z = 0 from rfl]
    norm_num [Cfg.default]
  have h5 : √(100 : ℝ) = 10 := by
    rw [show (100 : ℝ) = 10 ^ 2 by norm_num]; exact Real.sqrt_sq (by norm_num)
  have hs : startDist .xy ⟨10, 0, 0, 0⟩ = 10 := by
    simp only [startDist, startA, startB, axisA, axisB, V4.get]; norm_num; exact h5
  have hA : AsideArc Cfg.default r.base r.plane offW arcK2 := by
    rw [pl2]
    refine ⟨?_, ?_, g2 .e, g2 .z, rfl, ?_, ?_, ⟨?_, .inr (.inl ?_)⟩, ?_, ?_, ?_⟩
    · rw [c2, hs]; norm_num
    · rw [c2, hs]; simp only [axisA]; rw [px]; norm_num
    · exact (fl_hundred _ (.inl rfl)).1
    · rw [c2, e2]
      simp only [startA, startB, endA, endB, axisA, axisB, V4.get, arcQuarter]
      norm_num
    · rw [c2, hs]; norm_num [Cfg.default, V4.get, axisA]
    · rw [c2, e2]; norm_num [endA, endB, V4.get, axisA, axisB]
    · rw [c2, hs]; simp only [axisA]
      rw [px, show (10 : ℝ) * 100 = ((100 * 10 : ℤ) : ℝ) by norm_num, rnd_int]
      exact whole_mm (.inl rfl) 10 (by norm_num)
    · rintro ax (rfl | rfl)
      · simp only [axisA]; rw [k2x]; exact whole_mm (.inl rfl) 10 (by norm_num)
      · exact whole_mm (.inr rfl) 0 (by norm_num)
    · rw [c2, hs]
      rintro ax (rfl | rfl) <;> norm_num [axisA, axisB, tableSize, Cfg.default]
  have hE : AxisEnd64 Cfg.default r.base r.plane offW arcK2 := by
    rw [pl2]
    refine ⟨?_, ?_, .inr ?_⟩
    · rw [c2, hs]
      rintro ax (rfl | rfl)
      · rw [at_steps (by decide), p2]
        simp only [axisA, V4.get, tableSize]; norm_num [Cfg.default]
      · rw [at_steps (by decide), p2]
        simp only [axisB, V4.get, tableSize]; norm_num [Cfg.default]
    · rw [c2, hs]
      exact ⟨1000, by simp only [axisA]; rw [px]; norm_num⟩
    · rw [c2, e2]; norm_num [endA, endB, V4.get, axisA, axisB]
  refine ⟨⟨?_, ?_, ?_, ?_, ?_⟩, hA, hE, ?_⟩
  · intro q hq; cases hq
  · intro st hst; cases hst
  · intro rot w k hw
    cases hw
    refine ⟨?_, ?_, ?_⟩
    · exact tame_xy rfl rfl rfl rfl p2 m2 u2 o2 (m' := 12200) (n' := 10000) (by norm_num)
        (by norm_num) ⟨122 * 10 ^ 9, by norm_num⟩ ⟨10 ^ 11, by norm_num⟩ (by norm_num) (by norm_num)
    · rw [g2]; norm_num [Cfg.default]
    · intro ax hax q hq
      cases ax
      · cases hq
        refine ⟨⟨⟨10 ^ 10, by norm_num⟩, by rw [u2]; norm_num⟩, ?_⟩
        rw [k2x, u2, px]; norm_num
      all_goals cases hq
  · intro rot w k hw _
    cases hw
    exact .inr hA
  · rw [x2]; norm_num
  · refine ⟨_, if_pos ⟨?_, ?_, ?_⟩, t2, o2, u2, m2, x2, pl2⟩
    · rw [f2', hv]; norm_num
    · rw [t2]; exact table_xy (by norm_num) (by norm_num) (by norm_num) (by norm_num)
    · left; rw [pl2]; simp only [axisA]; rw [k2x]; norm_num

/-- The lines of the program of C86. -/
theorem offProgram_lines : ∃ r1 r2 r3,
    (ArcRef.init Cfg.default).step Cfg.default ⟨.plane .xy, none⟩ = some r1 ∧
    r1.step Cfg.default ⟨.plain (.move arcW1), some 600⟩ = some r2 ∧
    r2.step Cfg.default ⟨.arc .cw offW arcK2, none⟩ = some r3 ∧
    TameArcs Cfg.default (ArcRef.init Cfg.default) ((offProgram.take 2).map (·.2)) ∧
    TameAny Cfg.default r2 ⟨.arc .cw offW arcK2, none⟩ ∧
    AsideArc Cfg.default r2.base r2.plane offW arcK2 ∧ AxisEnd64 Cfg.default r2.base r2.plane offW arcK2 ∧
    TameAnys Cfg.default (ArcRef.init Cfg.default) (offProgram.map (·.2)) ∧ AtXY r3 12200 10000 := by
  have hv : ((Cfg.default.minVel : ℚ) : ℝ) = 1 := by norm_num [Cfg.default]
  have f0 : 1 ≤ (Ref.init Cfg.default).feed := by norm_num [Ref.init, Cfg.default]
  obtain ⟨r1, s1, a1⟩ : ∃ r1, (ArcRef.init Cfg.default).step Cfg.default
      ⟨.plane .xy, none⟩ = some r1 ∧ AtXY r1 0 0 := by
    refine ⟨_, if_neg ?_, by funext ax; cases ax <;> rfl, rfl, rfl, rfl, rfl, rfl⟩
    rw [hv]; exact not_lt.mpr f0
  obtain ⟨q2, r2, s2, a2, f2⟩ := first_line a1
  obtain ⟨q3, hA, hE, r3, s3, a3⟩ := off_line a2 f2
  have q1 : TameArc Cfg.default (ArcRef.init Cfg.default) ⟨.plane .xy, none⟩ := by
    refine ⟨?_, ?_, ?_, ?_, ?_⟩
    · intro q hq; cases hq
    · intro st hst; cases hst
    · intro rot w k hw; cases hw
    · intro rot w k hw; cases hw
    · change |(0 : ℝ)| ≤ _; norm_num
  have any : ∀ {r : ArcRef} {l : ArcLine}, TameArc Cfg.default r l → TameAny Cfg.default r l := fun h =>
    ⟨h.feed, h.plain, h.words, fun rot w k hl hn => .inl (h.right rot w k hl hn), h.extruded⟩
  refine ⟨r1, r2, r3, s1, s2, s3, ?_, q3, hA, hE, ?_, a3⟩
  · simp only [offProgram, List.take_succ_cons, List.take_zero, List.map_cons, List.map_nil, TameArcs, s1, s2,
      Option.getD_some]
    exact ⟨q1, q2, trivial⟩
  · refine ⟨any q1, fun r hr => ?_, fun h => ?_⟩
    · rw [s1] at hr
      cases hr
      refine ⟨any q2, fun r hr => ?_, fun h => ?_⟩
      · rw [s2] at hr
        cases hr
        exact ⟨q3, fun _ _ => trivial, fun _ => trivial⟩
      · rw [s2] at h
        rcases h with h | ⟨_, _, _, h⟩ <;> cases h
    · rw [s1] at h
      rcases h with h | ⟨_, _, _, h⟩ <;> cases h

/-- The machine carries out the program in binary64: the position is the binary64 numbers 122 and 100, and
the motors have made 12200 and 10000 steps. -/
theorem C93_example [PyText] (henv : ∀ tr, env.move tr = none) : ∃ s evs,
    machineRun Cfg.default env (MState.init Cfg.default) (offProgram.map (·.1)) =
      some ([true, true, true], s) ∧ s.pos.x = F64.of 122 ∧ s.pos.y = F64.of 100 ∧
    Sends Cfg.default s.trace evs ∧ netSteps Cfg.default .x evs = 12200 ∧
    netSteps Cfg.default .y evs = 10000 := by
  obtain ⟨r1, r2, r3, s1, s2, s3, t2, q3, hA, hE, -, a3⟩ := offProgram_lines
  have hsays := offProgram_says
  obtain ⟨s, h1, h2, h3⟩ := arcProgram_matches64 default_float henv (offProgram.take 2)
    (fun q hq => hsays q (List.mem_of_mem_take hq)) (refOk_init default_float) arcMatches_init64 t2
  have hrun : (ArcRef.init Cfg.default).run Cfg.default ((offProgram.take 2).map (·.2)) = ([true, true], r2) := by
    simp only [offProgram, List.take_succ_cons, List.take_zero, List.map_cons, List.map_nil, ArcRef.run, s1, s2]
  rw [hrun] at h1 h2 h3
  obtain ⟨g, hpar, hg⟩ := hsays ("G2X122Y100I10".toList, ⟨.arc .cw offW arcK2, none⟩) (by simp [offProgram])
  obtain ⟨a, s', h4, h5, -⟩ := C93_accepted_partial default_float henv h3 h2 hg q3 rfl s3 hA hE
  have hl : machineRun Cfg.default env s ["G2X122Y100I10".toList] = some ([true], s') := by
    simp only [machineRun, doLine, hpar, h4]
    rfl
  obtain ⟨evs, k4, k5⟩ := h5.base.motors
  refine ⟨s', evs, machineRun_append h1 hl, ?_, ?_, k4, by rw [k5, a3.steps], by rw [k5, a3.steps]⟩
  · have := h5.base.pos .x
    rw [at_steps (by decide)] at this
    simp only [V4.get] at this
    rw [this, a3.steps]
    congr 1
    norm_num [Cfg.default]
  · have := h5.base.pos .y
    rw [at_steps (by decide)] at this
    simp only [V4.get] at this
    rw [this, a3.steps]
    congr 1
    norm_num [Cfg.default]

/-- The default machine and the program meet the hypotheses of C93. -/
example [PyText] : FloatMachine Cfg.default ∧
    (∀ q ∈ offProgram, ∃ g, parseLine q.1 = .ok (some g) ∧ ArcSays g q.2) ∧
    TameAnys Cfg.default (ArcRef.init Cfg.default) (offProgram.map (·.2)) ∧
    ∀ tr, (⟨fun _ => none, fun _ => none, fun _ => true, fun _ => none⟩ : Env F64).move tr = none := by
  obtain ⟨r1, r2, r3, s1, s2, s3, t2, q3, hA, hE, h, a3⟩ := offProgram_lines
  exact ⟨default_float, offProgram_says, h, fun _ => rfl⟩

end PyCNC.Props
