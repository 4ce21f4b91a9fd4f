import Verif.Lemmas.Interp64
import Verif.Props.Interp

/-!
# Property C71: programs of straight moves in binary64

The machine computes with binary64 numbers, the reference interpreter of `Verif/Spec/Interp.lean`
with real numbers.
-/

namespace PyCNC.Props

open PyCNC Spec

variable [PyRound] [PyText] {c : Cfg} {env : Env F64}

/-- **C71.** A program of straight moves, modes, units and offsets, given as text, is executed by the
machine that computes in binary64 exactly like the reference interpreter does with real numbers: the
same lines are accepted, the motors make the same steps, and every number of the machine is the
binary64 number nearest to that of the interpreter, however long the program is.  No exception
escapes. -/
theorem C71_program (hc : FloatMachine c) (henv : ∀ tr, env.move tr = none)
    (prog : List (List Char × Line))
    (hp : ∀ p ∈ prog, ∃ g, parseLine p.1 = .ok (some g) ∧ Says g p.2)
    (hx : TameRun c (Ref.init c) (prog.map (·.2))) :
    ∃ s, machineRun c env (MState.init c) (prog.map (·.1)) =
        some (((Ref.init c).run c (prog.map (·.2))).1, s) ∧
      Matches64 c s ((Ref.init c).run c (prog.map (·.2))).2 := by
  obtain ⟨s, h1, h2, _⟩ := program_matches64 hc (carries_of henv) prog hp (Q := fun _ => True)
    (fun _ _ _ _ => trivial) (refOk_init hc) matches_init64 hx (tame_extrudes hx) trivial
  exact ⟨s, h1, h2⟩

/-- **C71, no drift**: after any such program the position of X, Y and Z is the binary64 number
nearest to the number of steps that the motor has made, divided by the steps per millimetre. -/
theorem C71_no_drift (hc : FloatMachine c) (henv : ∀ tr, env.move tr = none)
    (prog : List (List Char × Line))
    (hp : ∀ p ∈ prog, ∃ g, parseLine p.1 = .ok (some g) ∧ Says g p.2)
    (hx : TameRun c (Ref.init c) (prog.map (·.2))) {ax : Axis} (hax : ax ≠ .e) :
    ∃ l s evs, machineRun c env (MState.init c) (prog.map (·.1)) = some (l, s) ∧
      Sends c s.trace evs ∧ s.pos.get ax = F64.of (netSteps c ax evs / c.ppm.get ax) := by
  obtain ⟨s, h1, h2⟩ := C71_program hc henv prog hp hx
  obtain ⟨evs, h3, h4⟩ := h2.motors
  refine ⟨_, s, evs, h1, h3, ?_⟩
  rw [h2.pos, at_steps hax, h4]

omit [PyText] in
/-- **C71, velocities**: with `AUTO_VELOCITY_ADJUSTMENT` a straight move of ordinary size is never
refused for its velocity, whatever its feed is, in binary64. -/
theorem C71_velocity (hc : SaneCfg c) (hd : DecimalLimits c) (hf : ∀ ax, c.maxVel.get ax ≤ 60000)
    (ha : c.autoVel = true) {d : V4 F64} {n : V4 ℤ} {v : F64}
    (hn : ∀ ax, |(n.get ax : ℝ)| ≤ 10 ^ 4 * c.ppm.get ax)
    (hn2 : ∀ ax, |(d.get ax).1 * c.ppm.get ax - n.get ax| ≤ 499 / 1000)
    (h0 : ∃ ax, n.get ax ≠ 0) (hv : 1 ≤ v.1) :
    ∃ g, LinearGen.new c (roundToSteps c d) v = .ok g ∧
      checkVelocity c (Gen.linear g).maxVelocity = .ok () := by
  have hs := roundToSteps64 hc hn hn2
  obtain ⟨g, hg, _⟩ := linear64_new hc hs h0 hv
  exact ⟨g, hg, checkVelocity64 hc hd hf (limit64 hc hd hf ha hs h0 hv hg)⟩

/-! ## The default machine -/

omit [PyRound] [PyText] in
/-- The default configuration is in the range. -/
theorem default_float : FloatMachine Cfg.default := by
  refine ⟨default_plain, fun ax => by cases ax <;> norm_num [Cfg.default, V4.get],
    ⟨by norm_num [Cfg.default], 10 ^ 10, by norm_num [Cfg.default]⟩,
    fun ax => by cases ax <;> norm_num [Cfg.default, V4.get], fun n => ?_⟩
  have hpe : ((Cfg.default.ppm.e : ℚ) : ℝ) = 150 := by norm_num [Cfg.default]
  rw [hpe]
  have h3 : n % 3 = 0 ∨ n % 3 = 1 ∨ n % 3 = 2 := by omega
  rcases h3 with h | h | h
  · obtain ⟨m, rfl⟩ : ∃ m, n = 3 * m := ⟨n / 3, by omega⟩
    refine ⟨m * (2 * 10 ^ 8), ?_⟩
    have : ((3 * m : ℤ) : ℝ) / 150 * 10 ^ 10 - ((m * (2 * 10 ^ 8) : ℤ) : ℝ) = 0 := by push_cast; ring
    rw [this]; norm_num
  · obtain ⟨m, rfl⟩ : ∃ m, n = 3 * m + 1 := ⟨n / 3, by omega⟩
    refine ⟨m * (2 * 10 ^ 8) + 66666667, ?_⟩
    have : ((3 * m + 1 : ℤ) : ℝ) / 150 * 10 ^ 10 - ((m * (2 * 10 ^ 8) + 66666667 : ℤ) : ℝ) = -1 / 3 := by
      push_cast; ring
    rw [this, abs_le]; constructor <;> norm_num
  · obtain ⟨m, rfl⟩ : ∃ m, n = 3 * m + 2 := ⟨n / 3, by omega⟩
    refine ⟨m * (2 * 10 ^ 8) + 133333333, ?_⟩
    have : ((3 * m + 2 : ℤ) : ℝ) / 150 * 10 ^ 10 - ((m * (2 * 10 ^ 8) + 133333333 : ℤ) : ℝ) = 1 / 3 := by
      push_cast; ring
    rw [this, abs_le]; constructor <;> norm_num

omit [PyText] in
/-- An axis without a word. -/
theorem tame_none {r : Ref} {w : Axis → Option ℚ} {ax : Axis} (h : w ax = none) :
    (∀ q, w ax = some q → SmallWord r q) ∧
      |r.dist c w ax * c.ppm.get ax - r.go c w ax| ≤ 1 / 2 - 1 / 10 ^ 6 := by
  refine ⟨fun q hq => (by rw [h] at hq; cases hq), ?_⟩
  have h1 : r.dist c w ax = 0 := by unfold Ref.dist; rw [h]
  have h2 : r.go c w ax = 0 := by unfold Ref.go Ref.target; rw [h]; simp
  rw [h1, h2]
  norm_num

omit [PyText] in
/-- An axis with a word that names a step. -/
theorem tame_some {r : Ref} {w : Axis → Option ℚ} {ax : Axis} {q : ℚ} {k : ℤ} (h : w ax = some q)
    (hq : NineDigits q) (hb : |(q : ℝ) * r.unit| ≤ 2 * 10 ^ 4) (hu : r.unit = 1 ∨ r.unit = 25.4)
    (hk : r.dist c w ax * c.ppm.get ax = k) :
    ((∀ q, w ax = some q → SmallWord r q) ∧
      |r.dist c w ax * c.ppm.get ax - r.go c w ax| ≤ 1 / 2 - 1 / 10 ^ 6) ∧ r.go c w ax = k := by
  have hd : dec ((q : ℝ) * r.unit) = q * r.unit := C57_exact hq hu
  have hgo : r.go c w ax = k := by
    unfold Ref.go Ref.target
    unfold Ref.dist at hk
    rw [h] at hk ⊢
    simp only at hk ⊢
    rw [hd, hk, rnd_int]
    ring
  refine ⟨⟨fun q' hq' => ?_, ?_⟩, hgo⟩
  · rw [h] at hq'; cases hq'; exact ⟨hq, hb⟩
  · rw [hgo, hk, sub_self, abs_zero]
    norm_num

omit [PyText] in
/-- The example program of C57 is tame. -/
theorem refProgram_tame : TameRun Cfg.default (Ref.init Cfg.default) (refProgram.map (·.2)) := by
  have hpx : ((Cfg.default.ppm.get .x : ℚ) : ℝ) = 100 := by norm_num [Cfg.default, V4.get]
  have hpe : ((Cfg.default.ppm.get .e : ℚ) : ℝ) = 150 := by norm_num [Cfg.default, V4.get]
  have hpe' : ((Cfg.default.ppm.e : ℚ) : ℝ) = 150 := by norm_num [Cfg.default]
  have hmin : ((Cfg.default.minVel : ℚ) : ℝ) = 1 := by norm_num [Cfg.default]
  have d1 : dec (((10 : ℚ) : ℝ) * 1) = 10 := by
    rw [dec_eq (k := 10 ^ 11) (by norm_num)]; norm_num
  have d2 : dec (((-5 / 2 : ℚ) : ℝ) * 1) = -5 / 2 := by
    rw [dec_eq (k := -25 * 10 ^ 9) (by norm_num)]; norm_num
  have d5 : dec (((15 : ℤ) : ℝ) / 150) = 1 / 10 := by
    rw [dec_eq (k := 10 ^ 9) (by norm_num)]; norm_num
  have d0 : dec (((0 : ℤ) : ℝ) / 150) = 0 := by
    rw [dec_eq (k := 0) (by norm_num)]; norm_num
  -- the first line
  set w1 : Axis → Option ℚ := fun | .x => some 10 | _ => none with hw1
  have t1 := tame_some (c := Cfg.default) (r := Ref.init Cfg.default) (w := w1) (ax := .x) (q := 10)
    (k := 1000) rfl ⟨10 ^ 10, by norm_num⟩ (by norm_num [Ref.init]) (.inl rfl)
    (by rw [hpx]; norm_num [Ref.dist, hw1, Ref.init, Ref.at])
  have s1 := ref_move (r := Ref.init Cfg.default) (n := 0) (ne := 0) (q := 10)
    (w := w1) (f := some 600) (v := 600) (k := 1000) (ke := 0) rfl rfl rfl
    (by funext ax; cases ax <;> rfl) (by norm_num [lineFeed]) (by norm_num)
    (by simp only [Ref.init, d1]; norm_num) rfl
  rw [if_pos (by norm_num)] at s1
  obtain ⟨r1, s1, p1, x1, u1, f1⟩ : ∃ r1, (Ref.init Cfg.default).step Cfg.default ⟨.move w1, some 600⟩ =
      some r1 ∧ (r1.steps = fun | .x => 1000 | .e => 0 | _ => 0) ∧ r1.extruded = 0 ∧ r1.unit = 1 ∧
      r1.feed = 600 :=
    ⟨_, s1, by funext ax; cases ax <;> rfl, by simp only [d0]; simp [Ref.init], rfl, rfl⟩
  -- the second line
  obtain ⟨r2, s2, p2, x2, u2, f2, m2⟩ : ∃ r2, r1.step Cfg.default ⟨.relative, none⟩ = some r2 ∧
      (r2.steps = fun | .x => 1000 | .e => 0 | _ => 0) ∧ r2.extruded = 0 ∧ r2.unit = 1 ∧
      r2.feed = 600 ∧ r2.relative = true := by
    refine ⟨{ r1 with relative := true }, ?_, p1, x1, u1, f1, rfl⟩
    rw [step_eq, hmin, if_neg (not_lt.2 (by simp only [lineFeed, f1]; norm_num))]
    rfl
  -- the third line
  set w3 : Axis → Option ℚ := fun | .x => some (-5 / 2) | .e => some (1 / 10) | _ => none with hw3
  have t3 := tame_some (c := Cfg.default) (r := r2) (w := w3) (ax := .x) (q := -5 / 2) (k := -250) rfl
    ⟨-25 * 10 ^ 8, by norm_num⟩ (by rw [u2, abs_le]; constructor <;> norm_num) (.inl u2)
    (by rw [hpx]; norm_num [Ref.dist, hw3, m2, u2])
  have t3e := tame_some (c := Cfg.default) (r := r2) (w := w3) (ax := .e) (q := 1 / 10) (k := 15) rfl
    ⟨10 ^ 8, by norm_num⟩ (by rw [u2, abs_le]; constructor <;> norm_num) (.inl u2)
    (by rw [hpe]; norm_num [Ref.dist, hw3, m2, u2])
  have e15 : r2.target Cfg.default w3 .e = 0 + 15 := by
    have := t3e.2
    unfold Ref.go at this
    rw [p2] at this
    simpa using this
  have s3 := ref_move (r := r2) (n := 1000) (ne := 0) (q := -5 / 2) (w := w3) (f := none) (v := 600)
    (k := -250) (ke := 15) rfl rfl rfl p2 (by simp only [lineFeed, f2]) (by norm_num)
    (by simp only [m2, u2, if_true, d2]; norm_num) e15
  rw [if_pos (by norm_num)] at s3
  obtain ⟨r3, s3, x3, u3, m3⟩ : ∃ r3, r2.step Cfg.default ⟨.move w3, none⟩ = some r3 ∧
      r3.extruded = 1 / 10 ∧ r3.unit = 1 ∧ r3.relative = true :=
    ⟨_, s3, by simp only [x2, d5]; norm_num, u2, m2⟩
  -- the fourth line
  set w4 : Axis → Option ℚ := fun | .x => some 500 | _ => none with hw4
  have t4 := tame_some (c := Cfg.default) (r := r3) (w := w4) (ax := .x) (q := 500) (k := 50000) rfl
    ⟨5 * 10 ^ 11, by norm_num⟩ (by rw [u3, abs_le]; constructor <;> norm_num) (.inl u3)
    (by rw [hpx]; norm_num [Ref.dist, hw4, m3, u3])
  have e1 : (refProgram.map (·.2)) = [⟨.move w1, some 600⟩, ⟨.relative, none⟩, ⟨.move w3, none⟩,
      ⟨.move w4, none⟩] := rfl
  rw [e1]
  simp only [TameRun, s1, s2, s3, Option.getD_some]
  refine ⟨⟨?_, ?_, ?_, ?_, ?_⟩, ⟨?_, ?_, ?_, ?_, ?_⟩, ⟨?_, ?_, ?_, ?_, ?_⟩, ⟨?_, ?_, ?_, ?_, ?_⟩, trivial⟩
  · intro q hq
    cases hq
    exact ⟨6 * 10 ^ 11, by norm_num⟩
  · intro w hw ax
    cases hw
    cases ax
    exacts [t1.1, tame_none rfl, tame_none rfl, tame_none rfl]
  · intro w hw
    cases hw
    have : (Ref.init Cfg.default).go Cfg.default w1 .e = 0 := sub_self _
    rw [this, hpe']; norm_num
  · intro w hw; cases hw
  · norm_num [Ref.init]
  · intro q hq; cases hq
  · intro w hw; cases hw
  · intro w hw; cases hw
  · intro w hw; cases hw
  · rw [x1]; norm_num
  · intro q hq; cases hq
  · intro w hw ax
    cases hw
    cases ax
    exacts [t3.1, tame_none rfl, tame_none rfl, t3e.1]
  · intro w hw
    cases hw
    rw [t3e.2, hpe']; norm_num
  · intro w hw; cases hw
  · rw [x2]; norm_num
  · intro q hq; cases hq
  · intro w hw ax
    cases hw
    cases ax
    exacts [t4.1, tame_none rfl, tame_none rfl, tame_none rfl]
  · intro w hw
    cases hw
    have : r3.go Cfg.default w4 .e = 0 := sub_self _
    rw [this, hpe']; norm_num
  · intro w hw; cases hw
  · rw [x3, abs_le]; constructor <;> norm_num

/-- The example program of C57 in binary64: the last line is refused, the head is at the binary64
number 7.5, and the motors have made 750 and 15 steps. -/
theorem C71_example (henv : ∀ tr, env.move tr = none) : ∃ s evs,
    machineRun Cfg.default env (MState.init Cfg.default) (refProgram.map (·.1)) =
      some ([true, true, true, false], s) ∧ s.pos.x = F64.of 7.5 ∧
    Sends Cfg.default s.trace evs ∧ netSteps Cfg.default .x evs = 750 ∧
    netSteps Cfg.default .e evs = 15 := by
  obtain ⟨s, h1, h2⟩ := C71_program default_float henv refProgram refProgram_says refProgram_tame
  obtain ⟨r1, r2, r3, -⟩ := refProgram_run
  obtain ⟨evs, h3, h4⟩ := h2.motors
  refine ⟨s, evs, by rw [h1, r1], ?_, h3, by rw [h4, r2], by rw [h4, r3]⟩
  have := h2.pos .x
  rw [at_steps (by decide)] at this
  simp only [V4.get] at this
  rw [this, r2]
  congr 1
  norm_num [Cfg.default]

/-- The program and the default machine meet the hypotheses. -/
example : FloatMachine Cfg.default ∧
    (∀ p ∈ refProgram, ∃ g, parseLine p.1 = .ok (some g) ∧ Says g p.2) ∧
    TameRun Cfg.default (Ref.init Cfg.default) (refProgram.map (·.2)) ∧ Axis.x ≠ .e ∧
    ∀ tr, (⟨fun _ => none, fun _ => none, fun _ => true, fun _ => none⟩ : Env F64).move tr = none :=
  ⟨default_float, refProgram_says, refProgram_tame, by decide, fun _ => rfl⟩

/-- `C71_velocity`: one step of X with a feed of a thousand metres per minute. -/
example : ∃ (d : V4 F64) (n : V4 ℤ) (v : F64), v = F64.of (10 ^ 6) ∧
    (∀ ax, |(n.get ax : ℝ)| ≤ 10 ^ 4 * Cfg.default.ppm.get ax) ∧
    (∀ ax, |(d.get ax).1 * Cfg.default.ppm.get ax - n.get ax| ≤ 499 / 1000) ∧
    (∃ ax, n.get ax ≠ 0) ∧ 1 ≤ v.1 ∧ SaneCfg Cfg.default ∧ DecimalLimits Cfg.default ∧
    Cfg.default.autoVel = true := by
  have hz : (F64.of 0).1 = 0 := by rw [val_of, fl_zero]
  refine ⟨⟨F64.of (1 / 100), F64.of 0, F64.of 0, F64.of 0⟩, ⟨1, 0, 0, 0⟩, F64.of (10 ^ 6), rfl,
    fun ax => ?_, fun ax => ?_, ⟨.x, by simp [V4.get]⟩, le_fl_of_le fl_one (by norm_num),
    default_plain.sane.cfg, default_plain.limits, rfl⟩
  · cases ax <;> norm_num [Cfg.default, V4.get]
  · cases ax
    · have h := of_near (x := 1 / 100) (by rw [abs_le]; constructor <;> norm_num)
      simp only [V4.get]
      rw [abs_le] at h
      have e : ((Cfg.default.ppm.x : ℚ) : ℝ) = 100 := by norm_num [Cfg.default]
      rw [e, abs_le]
      norm_num at h ⊢
      constructor <;> linarith [h.1, h.2]
    all_goals
      simp only [V4.get]
      rw [hz]; norm_num

/-! ## Half way between two steps -/

omit [PyText] [PyRound] in
theorem tie_x : fl (47 / 200) = 2116691824864133 * 4 * 2 ^ (-55 : ℤ) := by
  have := fl_val (x := 47 / 200) (k := -55) (m := 2116691824864133 * 4)
    (by rw [abs_of_pos (by norm_num)]; norm_num) (by rw [abs_of_pos (by norm_num)]; norm_num)
    (by rw [abs_lt]; constructor <;> norm_num)
  rw [this]; norm_num

omit [PyText] [PyRound] in
theorem tie_b : fl (1 / 100) = 5764607523034235 * 2 ^ (-59 : ℤ) := by
  have := fl_val (x := 1 / 100) (k := -59) (m := 5764607523034235)
    (by rw [abs_of_pos (by norm_num)]; norm_num) (by rw [abs_of_pos (by norm_num)]; norm_num)
    (by rw [abs_lt]; constructor <;> norm_num)
  rw [this]; norm_num

omit [PyText] in
/-- `0.235 / 0.01` is less than 23.5. -/
theorem tie_q : fl (fl (47 / 200) / fl (1 / 100)) < 47 / 2 ∧
    47 / 2 - 1 / 10 ^ 3 < fl (fl (47 / 200) / fl (1 / 100)) := by
  have := fl_val (x := fl (47 / 200) / fl (1 / 100)) (k := -48) (m := 47 * 2 ^ 47 - 1)
    (by rw [tie_x, tie_b, abs_of_pos (by norm_num)]; norm_num)
    (by rw [tie_x, tie_b, abs_of_pos (by norm_num)]; norm_num)
    (by rw [tie_x, tie_b, abs_lt]; constructor <;> norm_num)
  rw [this]
  constructor <;> norm_num

/-- The line `G1X0.235`. -/
def tieLine : GCode := ⟨[('G', "1".toList), ('X', "0.235".toList)]⟩

/-- The line `G1X0.23`. -/
def nextLine : GCode := ⟨[('G', "1".toList), ('X', "0.23".toList)]⟩

/-- A word for X only. -/
def onlyX (q : ℚ) : Axis → Option ℚ
  | .x => some q
  | _ => none

omit [PyRound] in
theorem tie_parse : parseLine "G1X0.235".toList = .ok (some tieLine) := by
  refine parse_words (ws := [('G', "1".toList), ('X', "0.235".toList)])
    ⟨by decide, ?_, by decide, by decide⟩ (by decide)
  · intro w hw
    simp only [List.mem_cons, List.not_mem_nil, or_false] at hw
    rcases hw with rfl | rfl <;> exact ⟨by decide, [], _, rfl, .inl rfl, by decide, by decide⟩

omit [PyRound] [PyText] in
theorem tie_words : Words tieLine (onlyX (47 / 200)) ∧ Words nextLine (onlyX (23 / 100)) := by
  constructor
  all_goals
    intro ax
    cases ax
    · exact ⟨_, rfl, by decide +kernel⟩
    all_goals change List.lookup _ _ = none; decide

omit [PyRound] [PyText] in
theorem tie_says : Says tieLine ⟨.move (onlyX (47 / 200)), none⟩ := by
  refine ⟨?_, ?_, .inr (.inl ⟨by decide, by decide⟩), tie_words.1⟩
  · unfold NumbersOk; decide +kernel
  · exact (by decide : List.lookup 'F' tieLine.params = none)

omit [PyText] in
/-- The displacements of the two lines are the same number of steps for the machine. -/
theorem tie_same {d d' : V4 F64} (hx : d.x = F64.of (47 / 200)) (hx' : d'.x = F64.of (23 / 100))
    (hy : d.y = d'.y) (hz : d.z = d'.z) (he : d.e = d'.e) :
    roundToSteps Cfg.default d = roundToSteps Cfg.default d' := by
  have hg : Grid ((23 : ℝ) / 100) := ⟨23 * 10 ^ 8, by rw [e10_val]; norm_num⟩
  have h1 : PyNum.round10 (Coord.roundTo d.x (PyNum.ofRat 1 /ₚ PyNum.ofRat Cfg.default.ppm.x)) =
      F64.of (23 / 100) := by
    have hb : (PyNum.ofRat 1 /ₚ PyNum.ofRat Cfg.default.ppm.x : F64).1 = fl (1 / 100) := by
      rw [val_div, val_ofRat, val_ofRat]
      have e1 : fl ((1 : ℚ) : ℝ) = 1 := by simp [fl_one]
      have e2 : fl ((Cfg.default.ppm.x : ℚ) : ℝ) = 100 := by
        have := fl_int 100 (by norm_num)
        simpa [Cfg.default] using this
      rw [e1, e2]
    generalize (PyNum.ofRat 1 /ₚ PyNum.ofRat Cfg.default.ppm.x : F64) = b at hb
    have hr : PyNum.roundI (d.x /ₚ b) = 23 := by
      change PyRound.rnd (fl (d.x.1 / b.1)) = 23
      rw [hx, val_of, hb]
      apply rnd_unique
      have := tie_q
      generalize fl (fl (47 / 200) / fl (1 / 100)) = q at this
      rw [abs_lt]
      push_cast
      constructor <;> linarith [this.1, this.2]
    refine round10_dec64 hg ?_
    unfold Coord.roundTo
    rw [hr, val_mul, val_ofInt, fl_int 23 (by norm_num), hb]
    have h2 := fl_near3 (((23 : ℤ) : ℝ) * fl (1 / 100))
    rw [tie_b] at h2 ⊢
    rw [abs_of_nonneg (a := ((23 : ℤ) : ℝ) * _) (by norm_num)] at h2
    generalize fl (((23 : ℤ) : ℝ) * (5764607523034235 * 2 ^ (-59 : ℤ))) = y at h2 ⊢
    rw [abs_le] at h2
    rw [abs_lt]
    norm_num at h2 ⊢
    constructor <;> linarith [h2.1, h2.2]
  have h2 : PyNum.round10 (Coord.roundTo d'.x (PyNum.ofRat 1 /ₚ PyNum.ofRat Cfg.default.ppm.x)) =
      F64.of (23 / 100) := by
    rw [hx']
    have e2 : ((Cfg.default.ppm.x : ℚ) : ℝ) = 100 := by norm_num [Cfg.default]
    refine roundTo_exact64 (n := 23) (by norm_num [Cfg.default]) (by norm_num [Cfg.default])
      (by rw [abs_le]; constructor <;> norm_num) (by rw [e2]; norm_num) hg ?_
    rw [e2, abs_of_pos (by norm_num : (0 : ℝ) < ((23 : ℤ) : ℝ) / 100)]
    norm_num
  unfold roundToSteps Coord.round Coord.new
  rw [h1, h2, hy, hz, he]

/-- **C71 is false half way between two steps**: `G1X0.235` asks for 23.5 steps.  With real numbers
these are rounded to 24 by Python 3 and Python 2, but the machine computes 0.235 / 0.01 as
23.499999999999996 and makes 23 steps. -/
theorem C71_tie_refuted (henv : ∀ tr, env.move tr = none) (hr : PyRound.rnd (47 / 2) = 24) :
    parseLine "G1X0.235".toList = .ok (some tieLine) ∧
    Says tieLine ⟨.move (onlyX (47 / 200)), none⟩ ∧
    ((Ref.init Cfg.default).run Cfg.default [⟨.move (onlyX (47 / 200)), none⟩]).2.steps .x = 24 ∧
    ∃ s evs, machineRun Cfg.default env (MState.init Cfg.default) ["G1X0.235".toList] =
        some ([true], s) ∧
      Sends Cfg.default s.trace evs ∧ netSteps Cfg.default .x evs = 23 := by
  have hpx : ((Cfg.default.ppm.get .x : ℚ) : ℝ) = 100 := by norm_num [Cfg.default, V4.get]
  have hpe : ((Cfg.default.ppm.e : ℚ) : ℝ) = 150 := by norm_num [Cfg.default]
  set r0 := Ref.init Cfg.default with hr0
  have dx : r0.dist Cfg.default (onlyX (47 / 200)) .x = 47 / 200 := by
    norm_num [Ref.dist, onlyX, hr0, Ref.init, Ref.at]
  have dx' : r0.dist Cfg.default (onlyX (23 / 100)) .x = 23 / 100 := by
    norm_num [Ref.dist, onlyX, hr0, Ref.init, Ref.at]
  have sw : ∀ ax q, onlyX (47 / 200) ax = some q → SmallWord r0 q := by
    intro ax q h
    cases ax <;> simp only [onlyX, Option.some.injEq, reduceCtorEq] at h
    subst h
    exact ⟨⟨235 * 10 ^ 6, by norm_num⟩, by norm_num [hr0, Ref.init, abs_le]⟩
  have t1 := tame_some (c := Cfg.default) (r := r0) (w := onlyX (23 / 100)) (ax := .x) (q := 23 / 100)
    (k := 23) rfl ⟨23 * 10 ^ 7, by norm_num⟩ (by norm_num [hr0, Ref.init, abs_le]) (.inl rfl)
    (by rw [hpx, dx']; norm_num)
  have ht : ∀ ax, (∀ q, onlyX (23 / 100) ax = some q → SmallWord r0 q) ∧
      |r0.dist Cfg.default (onlyX (23 / 100)) ax * Cfg.default.ppm.get ax -
        r0.go Cfg.default (onlyX (23 / 100)) ax| ≤ 1 / 2 - 1 / 10 ^ 6 := by
    intro ax
    cases ax
    exacts [t1.1, tame_none rfl, tame_none rfl, tame_none rfl]
  have hx0 : |r0.extruded| ≤ 3 * 10 ^ 4 := by norm_num [hr0, Ref.init]
  have ho := refOk_init default_float
  have hm : Matches64 Cfg.default (MState.init Cfg.default) r0 := matches_init64
  have htx : r0.target Cfg.default (onlyX (47 / 200)) .x = 24 := by
    unfold Ref.target
    simp only [onlyX, hpx]
    have e : (if r0.relative = true then dec (((47 / 200 : ℚ) : ℝ) * r0.unit) else
        r0.origin .x + dec (((47 / 200 : ℚ) : ℝ) * r0.unit) - r0.at Cfg.default .x) * 100 = 47 / 2 := by
      have d : dec (((47 / 200 : ℚ) : ℝ) * 1) = 47 / 200 := by
        rw [dec_eq (k := 235 * 10 ^ 7) (by norm_num)]; norm_num
      simp only [hr0, Ref.init, Bool.false_eq_true, if_false, Ref.at, d]
      norm_num
    rw [e, hr]
    simp [hr0, Ref.init]
  have hon : ∀ q (n : ℤ), r0.target Cfg.default (onlyX q) .x = n → 0 ≤ n → n ≤ 20000 →
      StepsOnTable Cfg.default (r0.target Cfg.default (onlyX q)) := by
    intro q n hq h0 h1 ax hax
    cases ax
    · rw [hq]
      refine ⟨h0, ?_⟩
      norm_num [tableSize, Cfg.default, V4.get]
      exact_mod_cast h1
    · have : r0.target Cfg.default (onlyX q) .y = 0 := rfl
      rw [this]; norm_num [tableSize, Cfg.default, V4.get]
    · have : r0.target Cfg.default (onlyX q) .z = 0 := rfl
      rw [this]; norm_num [tableSize, Cfg.default, V4.get]
    · exact absurd rfl hax
  have hfeed : ¬ lineFeed r0 ⟨.move (onlyX (47 / 200)), none⟩ < ((Cfg.default.minVel : ℚ) : ℝ) := by
    norm_num [lineFeed, hr0, Ref.init, Cfg.default]
  refine ⟨tie_parse, tie_says, ?_, ?_⟩
  · have hst : r0.step Cfg.default ⟨.move (onlyX (47 / 200)), none⟩ =
        some { r0 with
          steps := r0.target Cfg.default (onlyX (47 / 200))
          extruded := r0.extruded + dec (r0.go Cfg.default (onlyX (47 / 200)) .e / Cfg.default.ppm.e)
          feed := lineFeed r0 ⟨.move (onlyX (47 / 200)), none⟩ } := by
      rw [step_eq, if_neg hfeed]
      unfold Ref.exec
      simp only [if_pos (hon _ _ htx (by norm_num) (by norm_num))]
      rfl
    simp only [Ref.run, hst]
    exact htx
  · have htx' : r0.target Cfg.default (onlyX (23 / 100)) .x = 23 := by
      have := t1.2
      unfold Ref.go at this
      have e : r0.steps .x = 0 := rfl
      rw [e, sub_zero] at this
      exact this
    rcases doCommand_cases (c := Cfg.default) (env := env) tieLine (MState.init Cfg.default) with
      ⟨e', h1, h2⟩ | ⟨d, v, rad, hd, hv, _, hx⟩
    · exfalso
      have hn := tie_says.1
      rcases h2 with h2 | h2 | h2
      · obtain ⟨_, k, t, h3, h4⟩ := readDelta_error h2
        exact absurd h4 (hn _ (mem_of_lookup h3))
      · rw [feed_ok64 hm tie_says.2.1] at h2; cases h2
      · obtain ⟨_, k, t, h3, h4⟩ := radius_error h2
        exact absurd h4 (hn _ (mem_of_lookup h3))
    rw [feed_ok64 hm tie_says.2.1] at hv
    cases hv
    have hv1 : 1 ≤ (F64.of (lineFeed r0 ⟨.move (onlyX (47 / 200)), none⟩)).1 := by
      rw [val_of]
      refine le_fl_of_le fl_one ?_
      have : ((Cfg.default.minVel : ℚ) : ℝ) = 1 := by norm_num [Cfg.default]
      rw [this] at hfeed
      exact not_lt.1 hfeed
    obtain ⟨d', hd'⟩ : ∃ d', readDelta (MState.init Cfg.default) nextLine = .ok d' := by
      rcases h : readDelta (MState.init Cfg.default : MState F64) nextLine with e | d'
      · obtain ⟨_, k, t, h3, h4⟩ := readDelta_error h
        have hn : NumbersOk nextLine := by unfold NumbersOk; decide +kernel
        exact absurd h4 (hn _ (mem_of_lookup h3))
      · exact ⟨d', h⟩
    have k1 := readDelta64 default_float ho hx0 hm hd tie_words.1 sw
    have k2 := readDelta64 default_float ho hx0 hm hd' tie_words.2 fun ax q => (ht ax).1 q
    have hsame := tie_same (d := d) (d' := d') (by rw [← dx]; exact (k1 .x).1)
      (by rw [← dx']; exact (k2 .x).1) ((k1 .y).1.trans (k2 .y).1.symm)
      ((k1 .z).1.trans (k2 .z).1.symm) ((k1 .e).1.trans (k2 .e).1.symm)
    have hmove : ∀ v, moveLinear Cfg.default env d v = moveLinear Cfg.default env d' v := by
      intro v
      unfold moveLinear
      rw [hsame]
    have hgo0 : r0.go Cfg.default (onlyX (23 / 100)) .e = 0 := sub_self _
    obtain ⟨s', h3, h4, -⟩ := (linear_step64 default_float (carries_of henv) ho hx0 hm hd' tie_words.2 ht
      (by rw [hgo0, hpe]; norm_num) (m := 0) (by rw [hgo0, hpe]; norm_num) hv1).1 (hon _ _ htx' (by norm_num) (by norm_num))
    rw [← hmove] at h3
    have hcmd : lineCmd tieLine = .g1 := lineCmd_g1.2 (.inl ⟨by decide, by decide⟩)
    have hex : execCmd Cfg.default env (lineCmd tieLine) tieLine d rad
        (F64.of (lineFeed r0 ⟨.move (onlyX (47 / 200)), none⟩)) (MState.init Cfg.default) =
        (.ok none, s') := by
      rw [hcmd]; exact M.bind_ok h3
    have hdo : doCommand Cfg.default env (some tieLine) (MState.init Cfg.default) =
        (.ok none, { s' with vel := F64.of (lineFeed r0 ⟨.move (onlyX (47 / 200)), none⟩) }) := by
      rcases hx with ⟨hlt, h⟩ | ⟨hmin, ⟨a, s2, h5, h6⟩ | ⟨e, s2, h5, h6⟩⟩
      · exfalso
        rw [lt64_iff, val_of, val_ofRat] at hlt
        exact absurd (fl_mono (not_lt.1 hfeed)) (not_le.2 hlt)
      · rw [hex] at h5; cases h5; exact h6
      · rw [hex] at h5; cases h5
    obtain ⟨evs, h7, h8⟩ := h4.motors
    refine ⟨{ s' with vel := F64.of (lineFeed r0 ⟨.move (onlyX (47 / 200)), none⟩) }, evs, ?_, h7,
      (h8 .x).trans htx'⟩
    have hl : doLine Cfg.default env "G1X0.235".toList (MState.init Cfg.default) =
        (.ok (.ok none),
          { s' with vel := F64.of (lineFeed r0 ⟨.move (onlyX (47 / 200)), none⟩) }) := by
      unfold doLine
      rw [tie_parse]
      simp only [hdo]
    simp only [machineRun, hl]
    rfl

omit [PyRound] [PyText] in
/-- Both versions of Python round 23.5 to 24. -/
example : halfEven.rnd (47 / 2) = 24 ∧ halfAway.rnd (47 / 2) = 24 := by
  have h : ⌊(47 / 2 : ℝ)⌋ = 23 := by rw [Int.floor_eq_iff]; constructor <;> norm_num
  have hf : Int.fract (47 / 2 : ℝ) = 1 / 2 := by rw [Int.fract, h]; norm_num
  constructor
  · change (if Int.fract (47 / 2 : ℝ) < 1 / 2 then ⌊(47 / 2 : ℝ)⌋ else
      if 1 / 2 < Int.fract (47 / 2 : ℝ) then ⌊(47 / 2 : ℝ)⌋ + 1
      else if Even ⌊(47 / 2 : ℝ)⌋ then ⌊(47 / 2 : ℝ)⌋ else ⌊(47 / 2 : ℝ)⌋ + 1) = 24
    rw [hf, h, if_neg (lt_irrefl _), if_neg (lt_irrefl _), if_neg (by decide)]
    norm_num
  · change (if (0 : ℝ) ≤ 47 / 2 then ⌊(47 / 2 + 1 / 2 : ℝ)⌋ else ⌈(47 / 2 - 1 / 2 : ℝ)⌉) = 24
    rw [if_pos (by norm_num), Int.floor_eq_iff]
    constructor <;> norm_num

end PyCNC.Props
