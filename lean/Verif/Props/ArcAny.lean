import Verif.Lemmas.ArcAnyStep
import Verif.Props.ArcPins

/-!
# Property C86: arcs whose ends are not on their circles

`Verif/Spec/ArcAny.lean` says which arcs these are, and what it means that the interpreter follows the
machine.  All theorems of this file are about exact arithmetic, for every nearest-integer rounding
(`PyRound`).
-/

namespace PyCNC.Props

open PyCNC Spec

variable [PyRound] {c : Cfg} {env : Env ℝ} {p : Pins} {b : Buf}

/-- **C86.** A program of straight moves, arcs, planes, modes, units and offsets, given as text, the ends
of its arcs being on their circles or not: if the program ends without an exception that escapes, then
the lines that were carried out are lines that the interpreter carries out, all other lines but arcs are
lines that it refuses, and at the end the position, the motors, the plane, the offset, the unit, the mode
and the feed are those of the interpreter after these lines.  Missing: arcs that are not `FairArc`s, for
which this is false (`C86_refuted`), and lines that ask for more than 9999 mm of extrusion. -/
theorem C86_program_partial [PyText] (hc : PlainMachine c) (henv : ∀ tr, env.move tr = none) {R : ℚ}
    (hR : (R : ℝ) ≤ 1000) (hRt : ∀ ax, ax ≠ .e → (tableSize c ax : ℝ) + 3 * R ≤ 10 ^ 4)
    (prog : List (List Char × ArcLine))
    (hp : ∀ q ∈ prog, ∃ g, parseLine q.1 = .ok (some g) ∧ ArcSays g q.2)
    (hx : FairArcs c 9999 R (ArcRef.init c) (prog.map (·.2))) {done : List Bool} {s : MState ℝ}
    (h : machineRun c env (MState.init c) (prog.map (·.1)) = some (done, s)) :
    ∃ r, Follows c (ArcRef.init c) (prog.map (·.2)) done r ∧ ArcMatches c s r := by
  obtain ⟨r, h1, -, h2, -⟩ := fairProgram_matches hc henv hR hRt prog hp le_rfl (Q := fun _ => True)
    (fun _ _ _ _ => trivial) .init arcMatches_init hx trivial h
  exact ⟨r, h1, h2⟩

/-- **C86, one line** in any state that was reached somehow and that agrees with a state of the
interpreter: it is carried out as the interpreter does, or nothing changes at all, and the interpreter
refuses it too if it is not an arc. -/
theorem C86_line_partial (hc : PlainMachine c) (henv : ∀ tr, env.move tr = none) {R : ℚ}
    (hR : (R : ℝ) ≤ 1000) (hRt : ∀ ax, ax ≠ .e → (tableSize c ax : ℝ) + 3 * R ≤ 10 ^ 4)
    {s : MState ℝ} {r : ArcRef} (hs : Reachable c env s) (hm : ArcMatches c s r) {g : GCode} {l : ArcLine}
    (hg : ArcSays g l) (hx : FairArcs c 9999 R r [l]) :
    (∃ r' a s', r.step c l = some r' ∧ doCommand c env (some g) s = (.ok a, s') ∧ ArcMatches c s' r') ∨
    ((r.step c l = none ∨ SaysArc l) ∧ ∃ e, doCommand c env (some g) s = (.error e, s)) := by
  rcases fairLine_matches hc henv hR hRt hs hm hg le_rfl hx.1 hx.2.1 with
    ⟨r', a, s', h1, h2, h3, -⟩ | h
  · exact .inl ⟨r', a, s', h1, h2, h3⟩
  · exact .inr h

/-- **C86, arcs that are certainly carried out.** If the interpreter carries out an arc whose end is
straight to the right, to the left, above or below its centre, at any distance, whose radius is a whole
number of steps and whose circle is on the table, then so does the machine. -/
theorem C86_accepted_partial (hc : PlainMachine c) (henv : ∀ tr, env.move tr = none) {R : ℚ}
    (hR : (R : ℝ) ≤ 1000) (hRt : ∀ ax, ax ≠ .e → (tableSize c ax : ℝ) + 3 * R ≤ 10 ^ 4)
    {s : MState ℝ} {r r' : ArcRef} (hs : Reachable c env s) (hm : ArcMatches c s r) {g : GCode} {l : ArcLine}
    (hg : ArcSays g l) {rot : Rot} {w k : Axis → Option ℚ} (hl : l.stmt = .arc rot w k)
    (hst : r.step c l = some r') (hF : FairArc c r.base r.plane w k R)
    (ha : AxisEnd c r.base r.plane w k) :
    ∃ a s', doCommand c env (some g) s = (.ok a, s') ∧ ArcMatches c s' r' :=
  axisLine_accepted hc henv hR hRt hs hm hg hl hst hF ha

/-- **C86, the motors.** The moves of such a program can be carried out by the Raspberry Pi back end, the
straight moves after the arcs too, and whenever they have been, the driver of each motor has made exactly
the steps of the interpreter.  `m` is the longest extrusion that a line asks for. -/
theorem C86_pins_partial [PyText] (hc : PlainMachine c) (hppm : ∀ ax, 50 ≤ c.ppm.get ax)
    (hacc : 200 ≤ c.accel) (hb : BufOk b) (hp : PinsOk p) (ha : PinsApart p)
    (hlen : c.pulseLenUs < 2 ^ 26) {m R : ℚ} (hm0 : 0 ≤ m) (hm4 : m ≤ 9999)
    (hR : (R : ℝ) ≤ 1000) (hRt : ∀ ax, ax ≠ .e → (tableSize c ax : ℝ) + 3 * R ≤ 10 ^ 4)
    (hsz : longestMove c m ≤ b.size) (hsa : ∀ plane, longestFair c R plane ≤ b.size)
    (hsr : ∀ plane, longestRest c R plane ≤ b.size)
    (henv : ∀ tr, env.move tr = none) (prog : List (List Char × ArcLine))
    (hpr : ∀ q ∈ prog, ∃ g, parseLine q.1 = .ok (some g) ∧ ArcSays g q.2)
    (hx : FairArcs c m R (ArcRef.init c) (prog.map (·.2))) {done : List Bool} {s : MState ℝ}
    (h : machineRun c env (MState.init c) (prog.map (·.1)) = some (done, s)) :
    ∃ r, Follows c (ArcRef.init c) (prog.map (·.2)) done r ∧
      (∃ es, Played c p b s.trace es) ∧
      ∀ es, Played c p b s.trace es → ∀ (ax : Axis) (dir : Bool),
        along c ax ((Driver.mk false dir 0).sees p ax es).pos = r.base.steps ax := by
  obtain ⟨r, h1, h2, h3, h4⟩ := fairProgram_matches hc henv hR hRt prog hpr hm4
    (Q := fun tr => ∀ g, HalCall.move g ∈ tr → Doable c m g ∨
      (∃ cg, g = .circular cg ∧ FairGen c R cg) ∨ ∃ l, g = .linear l ∧ RestGen c R l)
    (by
      rintro tr tr' hq ((rfl | ⟨lg, d, v, rfl, hg⟩) | ⟨cg, hcg, rfl | ⟨l, hl, rfl⟩⟩) g hm
      · exact hq g hm
      · rcases List.mem_cons.1 hm with e | e
        · cases e
          exact .inl ⟨lg, d, v, rfl, hg⟩
        · exact hq g e
      · rcases List.mem_cons.1 hm with e | e
        · cases e
          exact .inr (.inl ⟨cg, rfl, hcg⟩)
        · exact hq g e
      · rcases List.mem_cons.1 hm with e | e
        · cases e
          exact .inr (.inr ⟨l, rfl, hl⟩)
        · rcases List.mem_cons.1 e with e | e
          · cases e
            exact .inr (.inl ⟨cg, rfl, hcg⟩)
          · exact hq g e) .init arcMatches_init hx (by
      intro g hg
      have : g ∈ movesOf (MState.init (F := ℝ) c).trace := mem_movesOf.2 hg
      cases this) h
  have ht3 : 0 ≤ c.tableX ∧ 0 ≤ c.tableY ∧ 0 ≤ c.tableZ :=
    ⟨hc.sane.table.1.1, hc.sane.table.2.1.1, hc.sane.table.2.2.1⟩
  have hppm10 : ∀ ax, 10 ≤ c.ppm.get ax := fun ax => (by norm_num : (10 : ℚ) ≤ 50).trans (hppm ax)
  refine ⟨r, h1, played_of_ends hb hp hlen fun g hg => ?_, fun es hes ax dir => ?_⟩
  · rcases h4 g hg with h | ⟨cg, rfl, h⟩ | ⟨l, rfl, h⟩
    · exact doable_ends (N := 0) hc.sane.cfg ht3 hppm10 hb hp hlen hm0 hsz (fun _ _ => rfl) le_rfl
        (by omega) h _
    · exact fairGen_ends (N := 0) hc.sane.cfg hppm hacc hb hp hlen (fun _ _ => rfl) le_rfl (by omega)
        hsa h _
    · exact restGen_ends (N := 0) hc.sane.cfg hppm10 hb hp hlen (fun _ _ => rfl) le_rfl (by omega)
        hsr h _
  · obtain ⟨evs, he, hn⟩ := h3.base.motors
    have h5 := (played_steps hb hp ha hlen (reachable_unitDirs h2) hes ax
      (d := ⟨false, dir, 0⟩) rfl he).2
    rw [h5, hn]
    unfold along
    split <;> simp

/-- **C86 is false of other arcs**: after the arc `G3 X100 Y107.07 I-5 J-5` from (105, 105), which is
accepted, the machine is in no state of the interpreter: its end is in the quarter of its start, and
before it as seen clockwise. -/
theorem C86_refuted : ∃ (env : Env ℝ) (g : GCode) (l : ArcLine) (s s' : MState ℝ),
    (∀ tr, env.move tr = none) ∧ Reachable Cfg.default env s ∧ ArcSays g l ∧
    doCommand Cfg.default env (some g) s = (.ok none, s') ∧
    ∀ r, ¬ ArcMatches Cfg.default s' r := by
  obtain ⟨env, g1, g2, l1, l2, s1, s2, h1, -, h3, h4, h5, h6⟩ := C78_refuted
  refine ⟨env, g2, l2, s1, s2, h1, ?_, h3, h5, h6⟩
  have e : (Op.exec Cfg.default env (.cmd (some g1)) (MState.init Cfg.default)).2 = s1 := by
    simp [Op.exec, h4]
  exact e ▸ Reachable.step (.cmd (some g1)) .init

/-- A program: to (100, 100), and half a circle around (110, 100), the end of which is 2 mm off the
circle. -/
def offW : Axis → Option ℚ | .x => some 122 | .y => some 100 | _ => none
def offProgram : List (List Char × ArcLine) :=
  [("G17".toList, ⟨.plane .xy, none⟩),
   ("G1X100Y100F600".toList, ⟨.plain (.move arcW1), some 600⟩),
   ("G2X122Y100I10".toList, ⟨.arc .cw offW arcK2, none⟩)]

omit [PyRound] in
theorem offProgram_says [PyText] :
    ∀ q ∈ offProgram, ∃ g, parseLine q.1 = .ok (some g) ∧ ArcSays g q.2 := by
  intro q hq
  simp only [offProgram, List.mem_cons, List.not_mem_nil, or_false] at hq
  rcases hq with rfl | rfl | rfl
  · exact arcProgram_says _ (by simp [arcProgram])
  · exact arcProgram_says _ (by simp [arcProgram])
  · refine ⟨⟨[('G', "2".toList), ('X', "122".toList), ('Y', "100".toList), ('I', "10".toList)]⟩,
      ?_, ?_, ?_, ?_, ?_, ?_, ?_, ?_⟩
    · refine parse_words (ws := [('G', "2".toList), ('X', "122".toList), ('Y', "100".toList),
        ('I', "10".toList)]) ⟨by decide, ?_, by decide, by decide⟩ (by decide)
      intro w hw
      simp only [List.mem_cons, List.not_mem_nil, or_false] at hw
      rcases hw with rfl | rfl | rfl | rfl <;>
        exact ⟨by decide, [], _, rfl, .inl rfl, by decide, by decide⟩
    · unfold NumbersOk; decide +kernel
    · change List.lookup _ _ = none; decide
    · exact ⟨by decide, by decide⟩
    · intro ax
      cases ax
      case x => exact ⟨_, rfl, by decide +kernel⟩
      case y => exact ⟨_, rfl, by decide +kernel⟩
      all_goals change List.lookup _ _ = none; decide
    · exact ⟨_, rfl, by decide +kernel⟩
    · change List.lookup _ _ = none; decide
    · change List.lookup _ _ = none; decide

/-- What the interpreter makes of the program, and of its first two lines. -/
theorem offProgram_run : ∃ r2 r3,
    (ArcRef.init Cfg.default).run Cfg.default ((offProgram.take 2).map (·.2)) = ([true, true], r2) ∧
    RightArcs Cfg.default 9999 (ArcRef.init Cfg.default) ((offProgram.take 2).map (·.2)) ∧
    r2.step Cfg.default ⟨.arc .cw offW arcK2, none⟩ = some r3 ∧
    (r3.base.steps = fun | .x => 12200 | .y => 10000 | _ => 0) ∧
    FairArc Cfg.default r2.base r2.plane offW arcK2 50 ∧ AxisEnd Cfg.default r2.base r2.plane offW arcK2 ∧
    FairArcs Cfg.default 0 50 (ArcRef.init Cfg.default) (offProgram.map (·.2)) ∧
    ∀ r, Follows Cfg.default (ArcRef.init Cfg.default) (offProgram.map (·.2)) [true, true, true] r →
      r = r3 := by
  have hv : ((Cfg.default.minVel : ℚ) : ℝ) = 1 := by norm_num [Cfg.default]
  have tb : ∀ {m n : ℤ}, 0 ≤ m → m ≤ 20000 → 0 ≤ n → n ≤ 20000 →
      StepsOnTable Cfg.default (fun | .x => m | .y => n | _ => 0) := by
    intro m n h1 h2 h3 h4 ax hax
    have h1 : (0 : ℝ) ≤ m := by exact_mod_cast h1
    have h2 : (m : ℝ) ≤ 20000 := by exact_mod_cast h2
    have h3 : (0 : ℝ) ≤ n := by exact_mod_cast h3
    have h4 : (n : ℝ) ≤ 20000 := by exact_mod_cast h4
    cases ax
    · norm_num [Cfg.default, V4.get, tableSize]; constructor <;> linarith
    · norm_num [Cfg.default, V4.get, tableSize]; constructor <;> linarith
    · norm_num [Cfg.default, V4.get, tableSize]
    · exact absurd rfl hax
  obtain ⟨r1, s1, p1, o1, u1, m1, f1, pl1⟩ : ∃ r1, (ArcRef.init Cfg.default).step Cfg.default
      ⟨.plane .xy, none⟩ = some r1 ∧ (r1.base.steps = fun | .x => 0 | .y => 0 | _ => 0) ∧
      (r1.base.origin = fun _ => 0) ∧ r1.base.unit = 1 ∧ r1.base.relative = false ∧
      1 ≤ r1.base.feed ∧ r1.plane = .xy := by
    have : 1 ≤ (Ref.init Cfg.default).feed := by norm_num [Ref.init, Cfg.default]
    refine ⟨_, if_neg ?_, by funext ax; cases ax <;> rfl, rfl, rfl, rfl, this, rfl⟩
    rw [hv]; exact not_lt.mpr this
  have t1 := arc_target (r := r1.base) (w := arcW1) (m := 0) (n := 0) (m' := 10000) (n' := 10000) rfl rfl
    rfl rfl p1 m1 u1 o1 (by norm_num) (by norm_num)
  obtain ⟨r2, s2, p2, o2, u2, m2, f2, pl2⟩ : ∃ r2, r1.step Cfg.default
      ⟨.plain (.move arcW1), some 600⟩ = some r2 ∧
      (r2.base.steps = fun | .x => 10000 | .y => 10000 | _ => 0) ∧
      (r2.base.origin = fun _ => 0) ∧ r2.base.unit = 1 ∧ r2.base.relative = false ∧
      r2.base.feed = 600 ∧ r2.plane = .xy := by
    have ht : StepsOnTable Cfg.default (r1.base.target Cfg.default arcW1) := by
      rw [t1]; exact tb (by norm_num) (by norm_num) (by norm_num) (by norm_num)
    have h2 : ¬ (((600 : ℚ) : ℝ) < Cfg.default.minVel) := by rw [hv]; norm_num
    refine ⟨⟨{ r1.base with
        steps := r1.base.target Cfg.default arcW1
        extruded := r1.base.extruded + dec (r1.base.go Cfg.default arcW1 .e / Cfg.default.ppm.e)
        feed := ((600 : ℚ) : ℝ) }, r1.plane⟩, ?_, t1, o1, u1, m1, by norm_num, pl1⟩
    simp only [ArcRef.step, Ref.step, Ref.exec, if_neg h2, if_pos ht, Option.map_some]
  have t2 := arc_target (r := r2.base) (w := offW) (m' := 12200) (n' := 10000) rfl rfl
    rfl rfl p2 m2 u2 o2 (by norm_num) (by norm_num)
  have k2x : r2.base.centre Cfg.default arcK2 .x = 1000 := by
    unfold Ref.centre
    simp only [arcK2, u2]
    rw [dec_eq (k := 10 ^ 11) (by norm_num), show ((10 : ℚ) : ℝ) * 1 * (Cfg.default.ppm.get .x : ℚ) =
      ((1000 : ℤ) : ℝ) by norm_num [Cfg.default, V4.get], rnd_int]
  have f2' : r2.feedOf ⟨.arc .cw offW arcK2, none⟩ = 600 := f2
  obtain ⟨r3, s3, p3⟩ : ∃ r3, r2.step Cfg.default ⟨.arc .cw offW arcK2, none⟩ = some r3 ∧
      (r3.base.steps = fun | .x => 12200 | .y => 10000 | _ => 0) := by
    refine ⟨_, if_pos ⟨?_, ?_, ?_⟩, t2⟩
    · rw [f2', hv]; norm_num
    · rw [t2]; exact tb (by norm_num) (by norm_num) (by norm_num) (by norm_num)
    · left; rw [pl2]; simp only [axisA]; rw [k2x]; norm_num
  have g2 : ∀ ax, r2.base.go Cfg.default offW ax = (fun | .x => 2200 | _ => 0 : Axis → ℤ) ax := by
    intro ax
    unfold Ref.go
    rw [t2, p2]
    cases ax <;> rfl
  have e2 : r2.base.toEnd Cfg.default offW = ⟨22, 0, 0, 0⟩ := by
    have d0 : dec 0 = 0 := by rw [dec_eq (k := 0) (by norm_num)]
    unfold Ref.toEnd
    simp only [g2]
    norm_num [Cfg.default, d0]
  have c2 : r2.base.toCentre Cfg.default arcK2 = ⟨10, 0, 0, 0⟩ := by
    unfold Ref.toCentre
    rw [k2x, show r2.base.centre Cfg.default arcK2 .y = 0 from rfl,
      show r2.base.centre Cfg.default arcK2 .z = 0 from rfl]
    norm_num [Cfg.default]
  have h5 : √(100 : ℝ) = 10 := by
    rw [show (100 : ℝ) = 10 ^ 2 by norm_num]; exact Real.sqrt_sq (by norm_num)
  have hs : startDist .xy ⟨10, 0, 0, 0⟩ = 10 := by
    simp only [startDist, startA, startB, axisA, axisB, V4.get]; norm_num; exact h5
  have hF : FairArc Cfg.default r2.base r2.plane offW arcK2 50 := by
    rw [pl2]
    refine ⟨?_, g2 .e, ?_, .inl ⟨rfl, ?_, ⟨?_, .inr (.inl ?_)⟩, .inl (g2 .z)⟩⟩
    · rw [c2, hs]; norm_num
    · rw [e2]; norm_num [V4.get, axis3]
    · rw [c2, e2]
      simp only [startA, startB, endA, endB, axisA, axisB, V4.get, arcQuarter]
      norm_num
    · rw [c2, hs]; norm_num [Cfg.default, V4.get, axisA]
    · rw [c2, e2]; norm_num [endA, endB, V4.get, axisA, axisB]
  have hA : AxisEnd Cfg.default r2.base r2.plane offW arcK2 := by
    rw [pl2]
    refine ⟨?_, ?_, .inr ?_, g2 .z⟩
    · rw [c2, hs]
      rintro ax (rfl | rfl)
      · rw [at_steps (by decide), p2]
        simp only [axisA, V4.get, tableSize]; norm_num [Cfg.default]
      · rw [at_steps (by decide), p2]
        simp only [axisB, V4.get, tableSize]; norm_num [Cfg.default]
    · rw [c2, hs]
      rintro ax (rfl | rfl) <;> exact ⟨1000, by norm_num [Cfg.default, V4.get, axisA, axisB]⟩
    · rw [c2, e2]; norm_num [endA, endB, V4.get, axisA, axisB]
  have hgo : (|r1.base.go Cfg.default arcW1 .e| : ℝ) = 0 := by
    have : r1.base.go Cfg.default arcW1 .e = 0 := by
      unfold Ref.go
      rw [t1, p1]; rfl
    rw [this]; norm_num
  refine ⟨r2, r3, ?_, ?_, s3, p3, hF, hA, ?_, ?_⟩
  · simp only [offProgram, List.take_succ_cons, List.take_zero, List.map_cons, List.map_nil, ArcRef.run, s1, s2]
  · simp only [offProgram, List.take_succ_cons, List.take_zero, List.map_cons, List.map_nil, RightArcs, s1, s2,
      Option.getD_some]
    refine ⟨fun w hw => (by cases hw), fun rot w k hw => (by cases hw), fun w hw => ?_,
      fun rot w k hw => (by cases hw), trivial⟩
    cases hw
    rw [hgo]; norm_num [Cfg.default]
  · have no : ∀ {st f}, ¬ SaysArc ⟨.plain st, f⟩ := by rintro st f ⟨_, _, _, h⟩; cases h
    refine ⟨fun w hw => (by cases hw), fun rot w k hw => (by cases hw), fun r hr => ?_, fun h => ?_⟩
    · rw [s1] at hr
      cases hr
      refine ⟨fun w hw => ?_, fun rot w k hw => (by cases hw), fun r hr => ?_, fun h => ?_⟩
      · cases hw
        rw [hgo]; norm_num [Cfg.default]
      · rw [s2] at hr
        cases hr
        refine ⟨fun w hw => (by cases hw), fun rot w k hw _ => ?_, fun r hr => trivial, fun h => trivial⟩
        cases hw
        exact_mod_cast hF
      · rw [s2] at h
        exact absurd h (by simp [no])
    · rw [s1] at h
      rcases h with h | ⟨_, _, _, h⟩ <;> cases h
  · intro r h
    simp only [offProgram, List.map_cons, List.map_nil] at h
    cases h with
    | done h1 h =>
    rw [s1] at h1; cases h1
    cases h with
    | done h1 h =>
    rw [s2] at h1; cases h1
    cases h with
    | done h1 h =>
    rw [s3] at h1; cases h1
    cases h
    rfl

omit [PyRound] in
theorem machineRun_append {F : Type} [PyNum F] [PyText] {c : Cfg} {env : Env F} {s s1 s2 : MState F}
    {ts us : List (List Char)} {f1 f2 : List Bool} (h1 : machineRun c env s ts = some (f1, s1))
    (h2 : machineRun c env s1 us = some (f2, s2)) :
    machineRun c env s (ts ++ us) = some (f1 ++ f2, s2) := by
  induction ts generalizing s f1 with
  | nil => cases h1; exact h2
  | cons t ts ih =>
    simp only [List.cons_append, machineRun] at h1 ⊢
    rcases hl : doLine c env t s with ⟨e | (e | a), s'⟩ <;> rw [hl] at h1 <;> dsimp only at h1 ⊢
    · cases h1
    all_goals
      cases hr : machineRun c env s' ts with
      | none => rw [hr] at h1; cases h1
      | some q =>
        rw [hr] at h1
        cases h1
        rw [ih hr]
        rfl

/-- The machine carries out the program: the motors are at (122, 100), and so are, with the default
wiring, the drivers of the Raspberry Pi. -/
theorem C86_example [PyText] (henv : ∀ tr, env.move tr = none) : ∃ s evs es,
    machineRun Cfg.default env (MState.init Cfg.default) (offProgram.map (·.1)) =
      some ([true, true, true], s) ∧ s.pos.x = 122 ∧ s.pos.y = 100 ∧
    Sends Cfg.default s.trace evs ∧ netSteps Cfg.default .x evs = 12200 ∧
    netSteps Cfg.default .y evs = 10000 ∧
    Played Cfg.default Pins.default exBuf s.trace es ∧
    ((Driver.mk false false 0).sees Pins.default .x es).pos = -12200 ∧
    ((Driver.mk false false 0).sees Pins.default .y es).pos = 10000 := by
  obtain ⟨r2, r3, q1, q2, q3, q4, q5, q6, q7, q8⟩ := offProgram_run
  have hRt : ∀ ax, ax ≠ .e → (tableSize Cfg.default ax : ℝ) + 3 * ((50 : ℚ) : ℝ) ≤ 10 ^ 4 := by
    intro ax hax
    cases ax
    case e => exact absurd rfl hax
    all_goals norm_num [tableSize, Cfg.default]
  have hsays := offProgram_says
  obtain ⟨s2, h1, h2, h3, -⟩ := arcProgram_matches default_plain henv (offProgram.take 2)
    (fun q hq => hsays q (List.mem_of_mem_take hq)) le_rfl (Q := fun _ => True)
    (fun _ _ _ _ => trivial) .init arcMatches_init q2 trivial
  rw [q1] at h1 h3
  obtain ⟨g, hpar, hg⟩ := hsays ("G2X122Y100I10".toList, ⟨.arc .cw offW arcK2, none⟩) (by simp [offProgram])
  obtain ⟨a, s, h4, h5⟩ := C86_accepted_partial default_plain henv (R := 50) (by norm_num) hRt h2 h3 hg rfl q3
    (by exact_mod_cast q5) q6
  have hl : machineRun Cfg.default env s2 ["G2X122Y100I10".toList] = some ([true], s) := by
    simp only [machineRun, doLine, hpar, h4]
    rfl
  have hrun : machineRun Cfg.default env (MState.init Cfg.default) (offProgram.map (·.1)) =
      some ([true, true, true], s) := machineRun_append h1 hl
  obtain ⟨r, k1, ⟨es, k2⟩, k3⟩ := C86_pins_partial default_plain default_ppm50 (by decide +kernel) exBuf_ok
    exPins_ok exPins_apart (by decide) (m := 0) (R := 50) le_rfl (by norm_num) (by norm_num) hRt
    (by decide +kernel) (by intro plane; cases plane <;> decide +kernel)
    (by intro plane; cases plane <;> decide +kernel) henv offProgram hsays (by exact_mod_cast q7) hrun
  cases q8 r k1
  obtain ⟨evs, k4, k5⟩ := h5.base.motors
  refine ⟨s, evs, es, hrun, ?_, ?_, k4, by rw [k5, q4], by rw [k5, q4], k2, ?_⟩
  · have := h5.base.pos .x
    rw [at_steps (by decide)] at this
    simp only [V4.get] at this
    rw [this, q4]
    norm_num [Cfg.default]
  · have := h5.base.pos .y
    rw [at_steps (by decide)] at this
    simp only [V4.get] at this
    rw [this, q4]
    norm_num [Cfg.default]
  · have h6 := k3 es k2 .x false
    have h7 := k3 es k2 .y false
    rw [q4] at h6 h7
    simp only [along, Cfg.default, V4.get, if_true] at h6 h7
    change -((Driver.mk false false 0).sees Pins.default .x es).pos = 12200 at h6
    change ((Driver.mk false false 0).sees Pins.default .y es).pos = 10000 at h7
    omega

/-- The default machine and the program meet the hypotheses of C86. -/
example [PyText] : PlainMachine Cfg.default ∧ (200 ≤ Cfg.default.accel) ∧
    (∀ ax, ax ≠ .e → (tableSize Cfg.default ax : ℝ) + 3 * ((50 : ℚ) : ℝ) ≤ 10 ^ 4) ∧
    (∀ plane, longestFair Cfg.default 50 plane ≤ exBuf.size) ∧
    (∀ plane, longestRest Cfg.default 50 plane ≤ exBuf.size) ∧
    (∀ q ∈ offProgram, ∃ g, parseLine q.1 = .ok (some g) ∧ ArcSays g q.2) ∧
    FairArcs Cfg.default 0 50 (ArcRef.init Cfg.default) (offProgram.map (·.2)) := by
  obtain ⟨r2, r3, q1, q2, q3, q4, q5, q6, q7, q8⟩ := offProgram_run
  refine ⟨default_plain, by decide +kernel, fun ax hax => ?_, by intro plane; cases plane <;> decide +kernel,
    by intro plane; cases plane <;> decide +kernel, offProgram_says, q7⟩
  cases ax
  case e => exact absurd rfl hax
  all_goals norm_num [tableSize, Cfg.default]

/-- A slanted end, a quarter and a bit further and off the circle, is that of a `FairArc` as well. -/
example : EndAside Cfg.default ⟨14, 9.5, 0, 0⟩ ⟨10, 0, 0, 0⟩ .xy ∧
    arcQuarter (startA .xy ⟨10, 0, 0, 0⟩) (startB .xy ⟨10, 0, 0, 0⟩) ≠
      arcQuarter (endA .xy ⟨14, 9.5, 0, 0⟩ ⟨10, 0, 0, 0⟩) (endB .xy ⟨14, 9.5, 0, 0⟩ ⟨10, 0, 0, 0⟩) ∧
    endDist .xy ⟨14, 9.5, 0, 0⟩ ⟨10, 0, 0, 0⟩ ≠ startDist .xy ⟨10, 0, 0, 0⟩ := by
  have h5 : √(100 : ℝ) = 10 := by
    rw [show (100 : ℝ) = 10 ^ 2 by norm_num]; exact Real.sqrt_sq (by norm_num)
  have hs : startDist .xy ⟨10, 0, 0, 0⟩ = 10 := by
    simp only [startDist, startA, startB, axisA, axisB, V4.get]; norm_num; exact h5
  refine ⟨⟨?_, .inr (.inr ⟨?_, ?_, ?_, ?_⟩)⟩, ?_, ?_⟩
  · rw [hs]; norm_num [Cfg.default, V4.get, axisA]
  · norm_num [endA, V4.get, axisA]
  · norm_num [endB, V4.get, axisB]
  · rw [hs]; norm_num [endA, endB, V4.get, axisA, axisB, Cfg.default]
  · rw [hs]; norm_num [endA, endB, V4.get, axisA, axisB, Cfg.default]
  · simp only [startA, startB, endA, endB, axisA, axisB, V4.get, arcQuarter]
    norm_num
  · rw [hs]
    intro h
    have h2 : endDist .xy ⟨14, 9.5, 0, 0⟩ ⟨10, 0, 0, 0⟩ ^ 2 = 106.25 := by
      unfold endDist
      rw [Real.sq_sqrt (by positivity)]
      norm_num [endA, endB, V4.get, axisA, axisB]
    rw [h] at h2
    norm_num at h2

end PyCNC.Props
