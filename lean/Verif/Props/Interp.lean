import Verif.Lemmas.Interp
import Verif.Props.Main

/-!
# Property C57: programs of straight moves

The reference interpreter is in `Verif/Spec/Interp.lean`.  All theorems of this file are about exact
arithmetic, for every nearest-integer rounding (`PyRound`); the interpreter rounds with the same
one, which matters for points half way between two steps only.
-/

namespace PyCNC.Props

open PyCNC Spec

variable [PyRound] [PyText] {c : Cfg} {env : Env ℝ}

/-- **C57.** A program of straight moves, modes, units and offsets, given as text, is executed like
the reference interpreter does: the same lines are accepted, and at the end the position, the
motors, the offset, the unit, the mode and the feed are those of the interpreter.  No exception
escapes.  Missing: lines that ask for more than 9999 mm of extrusion. -/
theorem C57_program_partial (hc : PlainMachine c) (henv : ∀ tr, env.move tr = none)
    (prog : List (List Char × Line))
    (hp : ∀ p ∈ prog, ∃ g, parseLine p.1 = .ok (some g) ∧ Says g p.2)
    (hx : Extrudes c 9999 (Ref.init c) (prog.map (·.2))) :
    ∃ s, machineRun c env (MState.init c) (prog.map (·.1)) =
        some (((Ref.init c).run c (prog.map (·.2))).1, s) ∧
      Matches c s ((Ref.init c).run c (prog.map (·.2))).2 := by
  obtain ⟨s, h1, _, h2, _⟩ := program_matches hc henv prog hp le_rfl (Q := fun _ => True)
    (fun _ _ _ _ => trivial) .init matches_init hx trivial
  exact ⟨s, h1, h2⟩

omit [PyText] in
/-- **C57, one line** in any state that was reached somehow, for example by arcs or homing, and that
agrees with a state of the interpreter.  A line that is refused changes nothing at all. -/
theorem C57_line_partial (hc : PlainMachine c) (henv : ∀ tr, env.move tr = none) {s : MState ℝ}
    {r : Ref} (hs : Reachable c env s) (hm : Matches c s r) {g : GCode} {l : Line} (hg : Says g l)
    (hx : Extrudes c 9999 r [l]) :
    (∀ r', r.step c l = some r' → ∃ a s', doCommand c env (some g) s = (.ok a, s') ∧
      Matches c s' r') ∧
    (r.step c l = none → ∃ e, Reported e ∧ doCommand c env (some g) s = (.error e, s)) :=
  ⟨fun r' hr => by
    obtain ⟨a, s', h1, h2, _⟩ := (line_matches hc henv hs hm hg le_rfl hx.1).1 r' hr
    exact ⟨a, s', h1, h2⟩, (line_matches hc henv hs hm hg le_rfl hx.1).2⟩

omit [PyText] in
/-- A decimal number stays as it is. -/
theorem dec_eq {x : ℝ} {k : ℤ} (h : x * 10 ^ 10 = k) : dec x = x := by
  unfold dec
  rw [h, rnd_int, ← h]
  norm_num

omit [PyText] in
/-- The interpreter takes numbers with at most nine decimals as they are, in both units. -/
theorem C57_exact {q : ℚ} (hq : NineDigits q) {r : Ref} (hu : r.unit = 1 ∨ r.unit = 25.4) :
    dec (q * r.unit) = q * r.unit := by
  obtain ⟨k, hk⟩ := hq
  have hk' : (q : ℝ) * 10 ^ 9 = k := by exact_mod_cast hk
  rcases hu with h | h <;> rw [h]
  · refine dec_eq (k := k * 10) ?_
    push_cast
    rw [← hk']; ring
  · refine dec_eq (k := k * 254) ?_
    push_cast
    rw [← hk']; ring

omit [PyText] in
/-- **C57, where a move ends**: within half a step of the programmed point, plus the distance
between where the axis is and where its steps are, which is zero for X, Y and Z. -/
theorem C57_target (hc : PlainMachine c) {r : Ref} (hr : r.relative = false) {w : Axis → Option ℚ}
    {ax : Axis} {q : ℚ} (hq : w ax = some q) :
    |(r.target c w ax : ℝ) / c.ppm.get ax - (r.origin ax + dec (q * r.unit))| ≤
      1 / 2 / c.ppm.get ax + |r.at c ax - r.steps ax / c.ppm.get ax| := by
  have hP : (0 : ℝ) < c.ppm.get ax := by exact_mod_cast hc.sane.cfg.ppm_pos ax
  unfold Ref.target
  rw [hq, hr]
  simp only [Bool.false_eq_true, if_false]
  set y := r.origin ax + dec (q * r.unit) with hy
  have h := PyRound.near ((y - r.at c ax) * c.ppm.get ax)
  set n := PyRound.rnd ((y - r.at c ax) * c.ppm.get ax) with hn
  have e : ((r.steps ax + n : ℤ) : ℝ) / c.ppm.get ax - y =
      (n - (y - r.at c ax) * c.ppm.get ax) / c.ppm.get ax +
        (r.steps ax / c.ppm.get ax - r.at c ax) := by
    push_cast
    field_simp
    ring
  rw [e]
  refine (abs_add_le _ _).trans (add_le_add ?_ (by rw [abs_sub_comm]))
  rw [abs_div, abs_of_pos hP, div_le_div_iff_of_pos_right hP]
  first | exact h | (rw [abs_sub_comm]; exact h)

omit [PyText] in
/-- One line takes the extruder away from its steps by at most half of the tenth decimal. -/
theorem drift_step {r r' : Ref} {l : Line} (h : r.step c l = some r') :
    |(r'.extruded - r'.steps .e / c.ppm.e) - (r.extruded - r.steps .e / c.ppm.e)| ≤
      1 / 2 / 10 ^ 10 := by
  rw [step_eq] at h
  split at h
  · cases h
  · cases hl : l.stmt <;> rw [hl] at h <;> unfold Ref.exec at h
    case move w =>
      simp only at h
      split at h
      · simp only [Option.map_some, Option.some.injEq] at h
        subst h
        simp only
        have e : (r.extruded + dec (r.go c w .e / c.ppm.e) - (r.target c w .e : ℝ) / c.ppm.e) -
            (r.extruded - r.steps .e / c.ppm.e) =
            dec (r.go c w .e / c.ppm.e) - r.go c w .e / c.ppm.e := by
          unfold Ref.go
          push_cast
          ring
        rw [e]
        exact dec_near _
      · cases h
    all_goals
      simp only [Option.map_some, Option.some.injEq] at h
      subst h
      simp only [sub_self, abs_zero]
      norm_num

omit [PyText] in
/-- **C57, the extruder**: after a program of `n` lines, what the machine takes for the position of the
extruder is at most `n` times half of the tenth decimal away from where its motor is. -/
theorem C57_drift (prog : List Line) :
    |((Ref.init c).run c prog).2.at c .e - ((Ref.init c).run c prog).2.steps .e / c.ppm.e| ≤
      prog.length * (1 / 2 / 10 ^ 10) := by
  have key : ∀ (prog : List Line) (r : Ref),
      |((r.run c prog).2.extruded - (r.run c prog).2.steps .e / c.ppm.e) -
        (r.extruded - r.steps .e / c.ppm.e)| ≤ prog.length * (1 / 2 / 10 ^ 10) := by
    intro prog
    induction prog with
    | nil => intro r; simp [Ref.run]
    | cons l ls ih =>
      intro r
      simp only [Ref.run, List.length_cons]
      push_cast
      cases h : r.step c l with
      | none =>
        simp only
        refine (ih r).trans ?_
        have : (0 : ℝ) ≤ 1 / 2 / 10 ^ 10 := by norm_num
        linarith
      | some r' =>
        simp only
        have h1 := ih r'
        have h2 := drift_step h
        rw [abs_le] at h1 h2 ⊢
        constructor <;> linarith [h1.1, h1.2, h2.1, h2.2]
  have := key prog (Ref.init c)
  have e : (Ref.init c).extruded - (Ref.init c).steps .e / (c.ppm.e : ℝ) = 0 := by simp [Ref.init]
  rw [e, sub_zero] at this
  exact this

omit [PyRound] [PyText] in
/-- The default configuration is in the range. -/
theorem default_plain : PlainMachine Cfg.default := by
  obtain ⟨dx, dy, dz⟩ := default_decimalStep
  refine ⟨sane_default, fun ax hax => ?_, default_limits true, rfl⟩
  cases ax
  exacts [dx, dy, dz, absurd rfl hax]

/-- A program: to X10, relative mode, back by 2.5 with 0.1 mm of extrusion, and too far. -/
def refProgram : List (List Char × Line) :=
  [("G1X10F600".toList, ⟨.move fun | .x => some 10 | _ => none, some 600⟩),
   ("G91".toList, ⟨.relative, none⟩),
   ("X-2.5E0.1".toList, ⟨.move fun | .x => some (-5 / 2) | .e => some (1 / 10) | _ => none, none⟩),
   ("X500".toList, ⟨.move fun | .x => some 500 | _ => none, none⟩)]

omit [PyRound] in
theorem ref_parse1 : parseLine "G1X10F600".toList =
    .ok (some ⟨[('G', "1".toList), ('X', "10".toList), ('F', "600".toList)]⟩) := by
  refine parse_words (ws := [('G', "1".toList), ('X', "10".toList), ('F', "600".toList)])
    ⟨by decide, ?_, by decide, by decide⟩ (by decide)
  · intro w hw
    simp only [List.mem_cons, List.not_mem_nil, or_false] at hw
    rcases hw with rfl | rfl | rfl <;> exact ⟨by decide, [], _, rfl, .inl rfl, by decide, by decide⟩

omit [PyRound] in
theorem ref_parse2 : parseLine "G91".toList =
    .ok (some ⟨[('G', "91".toList)]⟩) := by
  refine parse_words (ws := [('G', "91".toList)])
    ⟨by decide, ?_, by decide, by decide⟩ (by decide)
  · intro w hw
    simp only [List.mem_cons, List.not_mem_nil, or_false] at hw
    subst hw
    exact ⟨by decide, [], _, rfl, .inl rfl, by decide, by decide⟩

omit [PyRound] in
theorem ref_parse3 : parseLine "X-2.5E0.1".toList =
    .ok (some ⟨[('X', "-2.5".toList), ('E', "0.1".toList)]⟩) := by
  refine parse_words (ws := [('X', "-2.5".toList), ('E', "0.1".toList)])
    ⟨by decide, ?_, by decide, by decide⟩ (by decide)
  · intro w hw
    simp only [List.mem_cons, List.not_mem_nil, or_false] at hw
    rcases hw with rfl | rfl
    · exact ⟨by decide, ['-'], _, rfl, .inr (.inl rfl), by decide, by decide⟩
    · exact ⟨by decide, [], _, rfl, .inl rfl, by decide, by decide⟩

omit [PyRound] in
theorem ref_parse4 : parseLine "X500".toList =
    .ok (some ⟨[('X', "500".toList)]⟩) := by
  refine parse_words (ws := [('X', "500".toList)])
    ⟨by decide, ?_, by decide, by decide⟩ (by decide)
  · intro w hw
    simp only [List.mem_cons, List.not_mem_nil, or_false] at hw
    subst hw
    exact ⟨by decide, [], _, rfl, .inl rfl, by decide, by decide⟩

omit [PyRound] in
theorem refProgram_says : ∀ p ∈ refProgram, ∃ g, parseLine p.1 = .ok (some g) ∧ Says g p.2 := by
  intro p hp
  simp only [refProgram, List.mem_cons, List.not_mem_nil, or_false] at hp
  rcases hp with rfl | rfl | rfl | rfl
  · refine ⟨_, ref_parse1, ?_, ?_, ?_, ?_⟩
    · unfold NumbersOk; decide +kernel
    · exact ⟨_, rfl, by decide +kernel⟩
    · exact .inr (.inl ⟨by decide, by decide⟩)
    · intro ax
      cases ax
      · exact ⟨_, rfl, by decide +kernel⟩
      all_goals change List.lookup _ _ = none; decide
  · refine ⟨_, ref_parse2, ?_, ?_, ?_⟩
    · unfold NumbersOk; decide +kernel
    · exact (by decide : List.lookup 'F' [('G', "91".toList)] = none)
    · exact ⟨by decide, by decide⟩
  · refine ⟨_, ref_parse3, ?_, ?_, ?_, ?_⟩
    · unfold NumbersOk; decide +kernel
    · exact (by decide : List.lookup 'F' [('X', "-2.5".toList), ('E', "0.1".toList)] = none)
    · exact .inr (.inr ⟨⟨by decide, by decide⟩, ⟨'X', by simp, by decide⟩⟩)
    · intro ax
      cases ax
      case x => exact ⟨_, rfl, by decide +kernel⟩
      case e => exact ⟨_, rfl, by decide +kernel⟩
      all_goals change List.lookup _ _ = none; decide
  · refine ⟨_, ref_parse4, ?_, ?_, ?_, ?_⟩
    · unfold NumbersOk; decide +kernel
    · exact (by decide : List.lookup 'F' [('X', "500".toList)] = none)
    · exact .inr (.inr ⟨⟨by decide, by decide⟩, ⟨'X', by simp, by decide⟩⟩)
    · intro ax
      cases ax
      · exact ⟨_, rfl, by decide +kernel⟩
      all_goals change List.lookup _ _ = none; decide

omit [PyText] in
/-- The target of a move along X and E. -/
theorem ref_target {r : Ref} {n ne : ℤ} {q : ℚ} {w : Axis → Option ℚ} (hwx : w .x = some q)
    (hwy : w .y = none) (hwz : w .z = none)
    (hr : r.steps = fun | .x => n | .e => ne | _ => 0) {k ke : ℤ}
    (hk : (if r.relative then dec (q * r.unit) else r.origin .x + dec (q * r.unit) - (n : ℝ) / 100) *
      100 = k)
    (hke : r.target Cfg.default w .e = ne + ke) :
    r.target Cfg.default w = fun | .x => n + k | .e => ne + ke | _ => 0 := by
  funext ax
  cases ax
  case e => exact hke
  all_goals unfold Ref.target
  · have : ((Cfg.default.ppm.get .x : ℚ) : ℝ) = 100 := by norm_num [Cfg.default, V4.get]
    have ha : r.at Cfg.default .x = (n : ℝ) / 100 := by
      rw [at_steps (by decide), hr, this]
    simp only [hwx, ha, this, hk, rnd_int, hr]
  · simp only [hwy, hr]
  · simp only [hwz, hr]

omit [PyText] in
/-- One move along X and E of the reference interpreter. -/
theorem ref_move {r : Ref} {n ne : ℤ} {q : ℚ} {w : Axis → Option ℚ} {f : Option ℚ} {v : ℝ}
    (hwx : w .x = some q) (hwy : w .y = none) (hwz : w .z = none)
    (hr : r.steps = fun | .x => n | .e => ne | _ => 0)
    (hv : lineFeed r ⟨.other, f⟩ = v) (hv1 : 1 ≤ v) {k ke : ℤ}
    (hk : (if r.relative then dec (q * r.unit) else r.origin .x + dec (q * r.unit) - (n : ℝ) / 100) *
      100 = k)
    (hke : r.target Cfg.default w .e = ne + ke) :
    r.step Cfg.default ⟨.move w, f⟩ =
      if 0 ≤ n + k ∧ n + k ≤ 20000 then
        some { r with
          steps := (fun | .x => n + k | .e => ne + ke | _ => 0)
          extruded := r.extruded + dec (ke / 150)
          feed := v }
      else none := by
  have ht := ref_target hwx hwy hwz hr hk hke
  have hgo : r.go Cfg.default w .e = ke := by
    unfold Ref.go
    rw [hke, hr]
    exact add_sub_cancel_left _ _
  have ho : StepsOnTable Cfg.default (fun | .x => n + k | .e => ne + ke | _ => 0) ↔
      0 ≤ n + k ∧ n + k ≤ 20000 := by
    constructor
    · intro h
      have := h .x (by decide)
      refine ⟨this.1, ?_⟩
      have h2 := this.2
      norm_num [tableSize, Cfg.default, V4.get] at h2
      exact_mod_cast h2
    · intro h ax hax
      cases ax
      · refine ⟨h.1, ?_⟩
        norm_num [tableSize, Cfg.default, V4.get]
        exact_mod_cast h.2
      · norm_num [tableSize, Cfg.default, V4.get]
      · norm_num [tableSize, Cfg.default, V4.get]
      · exact absurd rfl hax
  rw [step_eq]
  change lineFeed r ⟨.move w, f⟩ = v at hv
  unfold Ref.exec
  have : ¬ v < ((Cfg.default.minVel : ℚ) : ℝ) := by
    have : ((Cfg.default.minVel : ℚ) : ℝ) = 1 := by norm_num [Cfg.default]
    rw [this]; exact not_lt.2 hv1
  have hpe : ((Cfg.default.ppm.e : ℚ) : ℝ) = 150 := by norm_num [Cfg.default]
  simp only [hv, ht, ho, hgo, hpe]
  rw [if_neg this]
  split <;> rfl

omit [PyText] in
/-- What the reference interpreter makes of the program: the last line is refused, the head is
750 steps from the origin, the extruder has made 15 steps. -/
theorem refProgram_run : ((Ref.init Cfg.default).run Cfg.default (refProgram.map (·.2))).1 =
      [true, true, true, false] ∧
    ((Ref.init Cfg.default).run Cfg.default (refProgram.map (·.2))).2.steps .x = 750 ∧
    ((Ref.init Cfg.default).run Cfg.default (refProgram.map (·.2))).2.steps .e = 15 ∧
    Extrudes Cfg.default 1 (Ref.init Cfg.default) (refProgram.map (·.2)) := by
  have hpe : ((Cfg.default.ppm.get .e : ℚ) : ℝ) = 150 := by norm_num [Cfg.default, V4.get]
  have hpe' : ((Cfg.default.ppm.e : ℚ) : ℝ) = 150 := by norm_num [Cfg.default]
  have d1 : dec (((10 : ℚ) : ℝ) * 1) = 10 := by
    rw [dec_eq (k := 10 ^ 11) (by norm_num)]; norm_num
  have d2 : dec (((-5 / 2 : ℚ) : ℝ) * 1) = -5 / 2 := by
    rw [dec_eq (k := -25 * 10 ^ 9) (by norm_num)]; norm_num
  have d3 : dec (((500 : ℚ) : ℝ) * 1) = 500 := by
    rw [dec_eq (k := 5 * 10 ^ 12) (by norm_num)]; norm_num
  have d4 : dec (((1 / 10 : ℚ) : ℝ) * 1) = 1 / 10 := by
    rw [dec_eq (k := 10 ^ 9) (by norm_num)]; norm_num
  have s1 := ref_move (r := Ref.init Cfg.default) (n := 0) (ne := 0) (q := 10)
    (w := fun | .x => some 10 | _ => none) (f := some 600) (v := 600) (k := 1000) (ke := 0) rfl rfl rfl
    (by funext ax; cases ax <;> rfl) (by norm_num [lineFeed]) (by norm_num)
    (by simp only [Ref.init, d1]; norm_num) rfl
  rw [if_pos (by norm_num)] at s1
  obtain ⟨r1, s1, p1, u1, f1⟩ : ∃ r1, (Ref.init Cfg.default).step Cfg.default
      ⟨.move fun | .x => some 10 | _ => none, some 600⟩ = some r1 ∧
      (r1.steps = fun | .x => 1000 | .e => 0 | _ => 0) ∧ r1.unit = 1 ∧ r1.feed = 600 :=
    ⟨_, s1, by funext ax; cases ax <;> rfl, rfl, rfl⟩
  obtain ⟨r2, s2, p2, u2, f2, m2⟩ : ∃ r2, r1.step Cfg.default ⟨.relative, none⟩ = some r2 ∧
      (r2.steps = fun | .x => 1000 | .e => 0 | _ => 0) ∧ r2.unit = 1 ∧ r2.feed = 600 ∧
      r2.relative = true := by
    have h1 : ((Cfg.default.minVel : ℚ) : ℝ) = 1 := by norm_num [Cfg.default]
    refine ⟨{ r1 with relative := true }, ?_, p1, u1, f1, rfl⟩
    rw [step_eq, h1, if_neg (not_lt.2 (by simp only [lineFeed, f1]; norm_num))]
    rfl
  have e15 : r2.target Cfg.default (fun | .x => some (-5 / 2) | .e => some (1 / 10) | _ => none) .e =
      0 + 15 := by
    unfold Ref.target
    simp only [p2, u2, m2, if_true, hpe, d4]
    have : ((1 : ℝ) / 10 * 150) = ((15 : ℤ) : ℝ) := by norm_num
    rw [this, rnd_int]
  have s3 := ref_move (r := r2) (n := 1000) (ne := 0) (q := -5 / 2)
    (w := fun | .x => some (-5 / 2) | .e => some (1 / 10) | _ => none) (f := none) (v := 600)
    (k := -250) (ke := 15) rfl rfl rfl p2 (by simp only [lineFeed, f2]) (by norm_num)
    (by simp only [m2, u2, if_true, d2]; norm_num) e15
  rw [if_pos (by norm_num)] at s3
  obtain ⟨r3, s3, p3, u3, f3, m3⟩ : ∃ r3, r2.step Cfg.default
      ⟨.move fun | .x => some (-5 / 2) | .e => some (1 / 10) | _ => none, none⟩ = some r3 ∧
      (r3.steps = fun | .x => 750 | .e => 15 | _ => 0) ∧ r3.unit = 1 ∧ r3.feed = 600 ∧
      r3.relative = true :=
    ⟨_, s3, by funext ax; cases ax <;> rfl, u2, rfl, m2⟩
  have s4 := ref_move (r := r3) (n := 750) (ne := 15) (q := 500)
    (w := fun | .x => some 500 | _ => none) (f := none) (v := 600) (k := 50000) (ke := 0) rfl rfl rfl
    p3 (by simp only [lineFeed, f3]) (by norm_num)
    (by simp only [m3, u3, if_true, d3]; norm_num) (by simp only [Ref.target, p3]; rfl)
  rw [if_neg (by norm_num)] at s4
  simp only [refProgram, List.map_cons, List.map_nil, Ref.run, s1, s2, s3, s4, Extrudes,
    Option.getD_some]
  refine ⟨trivial, by rw [p3], by rw [p3], ?_, ?_, ?_, ?_, trivial⟩
  · intro w hw
    cases hw
    have : (Ref.init Cfg.default).go Cfg.default (fun | .x => some 10 | _ => none) .e = 0 := rfl
    rw [this, hpe']; norm_num
  · intro w hw; cases hw
  · intro w hw
    cases hw
    have : r2.go Cfg.default (fun | .x => some (-5 / 2) | .e => some (1 / 10) | _ => none) .e = 15 := by
      unfold Ref.go
      rw [e15, p2]; rfl
    rw [this, hpe']; norm_num
  · intro w hw
    cases hw
    have : r3.go Cfg.default (fun | .x => some 500 | _ => none) .e = 0 := by
      unfold Ref.go
      exact sub_self _
    rw [this, hpe']; norm_num

omit [PyText] in
/-- More may be extruded. -/
theorem extrudes_mono {m m' : ℚ} (h : m ≤ m') (hc : SaneCfg c) {r : Ref} {ls : List Line}
    (hx : Extrudes c m r ls) : Extrudes c m' r ls := by
  induction ls generalizing r with
  | nil => trivial
  | cons l ls ih =>
    refine ⟨fun w hw => (hx.1 w hw).trans ?_, ih hx.2⟩
    have h1 : (m : ℝ) ≤ m' := by exact_mod_cast h
    have h2 : (0 : ℝ) < c.ppm.e := by exact_mod_cast hc.ppm_pos .e
    exact mul_le_mul_of_nonneg_right h1 h2.le

omit [PyText] in
theorem refProgram_extrudes :
    Extrudes Cfg.default 9999 (Ref.init Cfg.default) (refProgram.map (·.2)) :=
  extrudes_mono (by norm_num) default_plain.sane.cfg refProgram_run.2.2.2

/-- The same of the machine. -/
theorem C57_example (henv : ∀ tr, env.move tr = none) : ∃ s evs,
    machineRun Cfg.default env (MState.init Cfg.default) (refProgram.map (·.1)) =
      some ([true, true, true, false], s) ∧ s.pos.x = 7.5 ∧
    Sends Cfg.default s.trace evs ∧ netSteps Cfg.default .x evs = 750 ∧
    netSteps Cfg.default .e evs = 15 := by
  obtain ⟨s, h1, h2⟩ := C57_program_partial default_plain henv refProgram refProgram_says
    refProgram_extrudes
  obtain ⟨r1, r2, r3, -⟩ := refProgram_run
  obtain ⟨evs, h3, h4⟩ := h2.motors
  refine ⟨s, evs, by rw [h1, r1], ?_, h3, by rw [h4, r2], by rw [h4, r3]⟩
  have := h2.pos .x
  rw [at_steps (by decide)] at this
  simp only [V4.get] at this
  rw [this, r2]
  norm_num [Cfg.default]

/-- The program and the default machine meet the hypotheses. -/
example : PlainMachine Cfg.default ∧
    (∀ p ∈ refProgram, ∃ g, parseLine p.1 = .ok (some g) ∧ Says g p.2) ∧
    Extrudes Cfg.default 9999 (Ref.init Cfg.default) (refProgram.map (·.2)) ∧
    ∀ tr, (⟨fun _ => none, fun _ => none, fun _ => true, fun _ => none⟩ : Env ℝ).move tr = none :=
  ⟨default_plain, refProgram_says, refProgram_extrudes, fun _ => rfl⟩

/-- `C57_target` and `C57_exact` for `X7.125` in the initial state. -/
example : (Ref.init Cfg.default).relative = false ∧ NineDigits (57 / 8) ∧
    ((Ref.init Cfg.default).unit = 1 ∨ (Ref.init Cfg.default).unit = 25.4) :=
  ⟨rfl, ⟨7125000000, by norm_num⟩, .inl rfl⟩

end PyCNC.Props
