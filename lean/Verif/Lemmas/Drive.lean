import Verif.Lemmas.HeadHistory
import Verif.Lemmas.ArcMachineWitness

/-!
# Running command lines on the default machine
-/

set_option linter.unusedSectionVars false

namespace PyCNC

open Spec

variable [PyRound] {env : Env ℝ}

theorem get_wordIs {g : GCode} {k : Char} {o : Option ℚ} (h : WordIs g k o) (d : ℝ) :
    g.get k d 1 = .ok (match o with
      | none => d
      | some q => (q : ℝ)) := by
  cases o with
  | none => exact get_noWord h _ _
  | some q => rw [get_word h]; simp

/-- A machine in absolute mode, in mm, with no offset, in the XY plane. -/
structure Plain (s : MState ℝ) : Prop where
  abs : s.absMode = true
  conv : s.conv = 1
  loc : s.loc = Coord.zero
  vel : s.vel = 600
  plane : s.plane = .xy
  grid : GridV s.pos

theorem plain_init : Plain (MState.init Cfg.default) := by
  refine ⟨rfl, ?_, rfl, ?_, rfl, gridV_zero⟩
  · change (PyNum.ofRat 1 : ℝ) = 1; simp
  · simp only [MState.init, minMaxVel, Cfg.default, pmin_eq, ofRat_eq]; norm_num

theorem plain_tidy {s : MState ℝ} (h : Plain s) : Tidy s :=
  ⟨h.grid, by rw [h.loc]; exact gridV_zero, .inl h.conv⟩

theorem plain_delta {s : MState ℝ} (hs : Plain s) {g : GCode} {w : Axis → Option ℚ}
    (hw : ∀ ax, WordIs g (axisWord ax) (w ax)) (hgr : ∀ ax q, w ax = some q → Grid (q : ℝ)) :
    ∃ d, readDelta s g = .ok d ∧ ∀ ax, d.get ax = match w ax with
      | none => 0
      | some q => q - s.pos.get ax := by
  have hx : ∃ d, readDelta s g = .ok d := by
    unfold readDelta GCode.coordinates
    rw [if_pos hs.abs, hs.conv]
    have h1 := hw .x
    have h2 := hw .y
    have h3 := hw .z
    have h4 := hw .e
    simp only [axisWord] at h1 h2 h3 h4
    rw [get_wordIs h1, get_wordIs h2, get_wordIs h3, get_wordIs h4]
    exact ⟨_, rfl⟩
  obtain ⟨d, hd⟩ := hx
  refine ⟨d, hd, fun ax => ?_⟩
  have h1 := hw ax
  rcases (readDelta_ok (plain_tidy hs) hd).2 ax with ⟨q, hq, h⟩ | ⟨hn, h⟩
  · cases ho : w ax with
    | none =>
      rw [ho] at h1
      obtain ⟨t, ht, _⟩ := hq
      rw [WordIs, ht] at h1; cases h1
    | some q' =>
      rw [ho] at h1
      cases hasNum_unique hq h1
      rw [h, if_pos hs.abs, hs.conv, hs.loc, get_zero, mul_one, round10_grid (hgr ax q ho)]
      simp only; ring
  · cases ho : w ax with
    | none => exact h
    | some q' =>
      rw [ho] at h1
      obtain ⟨t, ht, _⟩ := h1
      rw [hn] at ht; cases ht

theorem plain_radius {s : MState ℝ} (hs : Plain s) {g : GCode} {oi oj ok : Option ℚ}
    (hi : WordIs g 'I' oi) (hj : WordIs g 'J' oj) (hk : WordIs g 'K' ok) :
    ∃ r, g.radius Coord.zero s.conv = .ok r ∧ r.get .x = PyNum.round10 ((oi.getD 0 : ℚ) : ℝ) ∧
      r.get .y = PyNum.round10 ((oj.getD 0 : ℚ) : ℝ) ∧ r.get .z = PyNum.round10 ((ok.getD 0 : ℚ) : ℝ) ∧
      r.get .e = 0 := by
  have zx := get_zero .x
  have zy := get_zero .y
  have zz := get_zero .z
  simp only [V4.get] at zx zy zz
  unfold GCode.radius
  rw [hs.conv, get_wordIs hi, get_wordIs hj, get_wordIs hk]
  refine ⟨_, rfl, ?_⟩
  cases oi <;> cases oj <;> cases ok <;> simp [Coord.new, V4.get, zx, zy, zz]

/-- A line runs its command. -/
theorem plain_run_line {s : MState ℝ} (hs : Plain s) {g : GCode} {d r : V4 ℝ}
    (hd : readDelta s g = .ok d) (hr : g.radius Coord.zero s.conv = .ok r) (hF : WordIs g 'F' none)
    {a : Option (Answer ℝ)} {s2 : MState ℝ}
    (hx : execCmd Cfg.default env (lineCmd g) g d r 600 s = (.ok a, s2)) :
    doCommand Cfg.default env (some g) s = (.ok a, { s2 with vel := 600 }) := by
  have hv : g.get 'F' s.vel (PyNum.ofRat 1) = .ok 600 := by
    have := get_wordIs hF s.vel
    rw [ofRat_eq, Rat.cast_one, this, hs.vel]
  have hmin : ((600 : ℝ) <ₚ PyNum.ofRat Cfg.default.minVel) = false := by
    rw [lt_false_iff, ofRat_eq]; norm_num [Cfg.default]
  rcases doCommand_cases (c := Cfg.default) (env := env) g s with ⟨e, h1, h | h | h⟩ |
    ⟨d', v', r', h1, h2, h3, ⟨h4, _⟩ | ⟨_, ⟨a', s', h5, h6⟩ | ⟨e, s', h5, _⟩⟩⟩
  · rw [hd] at h; cases h
  · rw [hv] at h; cases h
  · rw [hr] at h; cases h
  all_goals
    rw [hd] at h1; cases h1
    rw [hv] at h2; cases h2
    rw [hr] at h3; cases h3
  · rw [hmin] at h4; cases h4
  · rw [hx] at h5; cases h5; exact h6
  · rw [hx] at h5; cases h5

/-- A straight move of the default machine. -/
theorem linear_moves (henv : ∀ tr, env.move tr = none) {d d' : V4 ℝ} {v : ℝ} {s : MState ℝ}
    (hr : roundToSteps Cfg.default d = d') (ho : OrdinaryMove d' v)
    (hc : checkDelta Cfg.default s.pos d' = .ok ()) :
    ∃ lg, LinearGen.new Cfg.default d' v = .ok lg ∧
      moveLinear Cfg.default env d v s = (.ok (), { s with
        pos := Coord.add s.pos d', trace := .move (.linear lg) :: s.trace }) := by
  obtain ⟨lg, he, _, hl⟩ := extra_default ho
  have hz : Coord.isZero d' = false := by
    cases hz : Coord.isZero d'
    · rfl
    · obtain ⟨ax, hax⟩ := ho.some
      exact absurd ((isZero_iff _).1 hz ax) hax
  have hv : checkVelocity Cfg.default (Gen.linear lg).maxVelocity = .ok () :=
    checkVelocity_of_le (default_limits true)
      (linear_limit sane_cfg (default_limits true) auto_default ho hl)
  refine ⟨lg, hl, ?_⟩
  rcases moveLinear_cases (c := Cfg.default) (env := env) d v s with ⟨h1, _⟩ | ⟨_, e, _, h1⟩ |
    ⟨_, g, _, h1, _, ⟨e, h2, _⟩ | ⟨_, h2⟩⟩
  · rw [hr, hz] at h1; cases h1
  · rw [hr] at h1
    rcases h1 with h1 | h1 | ⟨g, h1, h2⟩
    · rw [hc] at h1; cases h1
    · rw [hl] at h1; cases h1
    · rw [hl] at h1; cases h1
      rw [hv] at h2; cases h2
  · rw [henv] at h2; cases h2
  · rw [hr] at h1 h2
    rw [hl] at h1; cases h1
    exact h2

/-- `G1 X.. Y..` on the default machine. -/
theorem drive_linear (henv : ∀ tr, env.move tr = none) {s : MState ℝ} (hs : Plain s) {g : GCode}
    (hc : lineCmd g = .g1) {d d' : V4 ℝ} (hd : readDelta s g = .ok d) (hF : WordIs g 'F' none)
    (hI : WordIs g 'I' none) (hJ : WordIs g 'J' none) (hK : WordIs g 'K' none)
    (hr : roundToSteps Cfg.default d = d') (ho : OrdinaryMove d' 600)
    (hcd : checkDelta Cfg.default s.pos d' = .ok ()) :
    ∃ lg, LinearGen.new Cfg.default d' 600 = .ok lg ∧
      doCommand Cfg.default env (some g) s = (.ok none, { s with
        pos := Coord.add s.pos d', trace := .move (.linear lg) :: s.trace }) := by
  obtain ⟨r, hr', -⟩ := plain_radius hs hI hJ hK
  obtain ⟨lg, hl, hm⟩ := linear_moves henv hr ho hcd
  refine ⟨lg, hl, ?_⟩
  have hx : execCmd Cfg.default env (lineCmd g) g d r 600 s = (.ok none, { s with
        pos := Coord.add s.pos d', trace := .move (.linear lg) :: s.trace }) := by
    rw [hc]
    exact M.bind_ok hm
  rw [plain_run_line hs hd hr' hF hx, ← hs.vel]

/-- A clockwise or counterclockwise arc on the default machine. -/
theorem drive_arc {s : MState ℝ} (hs : Plain s) {g : GCode} {rot : Rot}
    (hc : lineCmd g = match rot with
      | .cw => .g2
      | .ccw => .g3)
    {d r : V4 ℝ} (hd : readDelta s g = .ok d) (hF : WordIs g 'F' none)
    (hr : g.radius Coord.zero s.conv = .ok r) {p : V4 ℝ} {tr : List (HalCall ℝ)}
    (hm : moveCircular Cfg.default env d r 600 rot s = (.ok (), { s with pos := p, trace := tr })) :
    doCommand Cfg.default env (some g) s = (.ok none, { s with pos := p, trace := tr }) := by
  have hx : execCmd Cfg.default env (lineCmd g) g d r 600 s =
      (.ok none, { s with pos := p, trace := tr }) := by
    rw [hc]
    cases rot <;> exact M.bind_ok hm
  rw [plain_run_line hs hd hr hF hx, ← hs.vel]

/-- Going to a point of the table. -/
theorem drive_to (henv : ∀ tr, env.move tr = none) {m n : ℤ} (hm : 0 < m ∧ m ≤ 20000)
    (hn : 0 < n ∧ n ≤ 20000) {g : GCode} (hc : lineCmd g = .g1) (hX : HasNum g 'X' (m / 100))
    (hY : HasNum g 'Y' (n / 100)) (hZ : WordIs g 'Z' none) (hE : WordIs g 'E' none)
    (hF : WordIs g 'F' none) (hI : WordIs g 'I' none) (hJ : WordIs g 'J' none)
    (hK : WordIs g 'K' none) :
    ∃ (s : MState ℝ) (lg : LinearGen ℝ), OrdinaryMove ⟨(m : ℝ) / 100, n / 100, 0, 0⟩ 600 ∧
      LinearGen.new Cfg.default ⟨(m : ℝ) / 100, n / 100, 0, 0⟩ 600 = .ok lg ∧
      doCommand Cfg.default env (some g) (MState.init Cfg.default) = (.ok none, s) ∧
      Plain s ∧ s.pos = ⟨m / 100, n / 100, 0, 0⟩ ∧
      s.trace = [.move (.linear lg), .watchdog, .init] := by
  have gr := gridV_hundredth m n 0
  rw [show ((0 : ℤ) : ℝ) / 400 = 0 by norm_num] at gr
  obtain ⟨d, hd, hdv⟩ := plain_delta plain_init (g := g)
    (w := fun | .x => some (m / 100 : ℚ) | .y => some (n / 100 : ℚ) | .z => none | .e => none)
    (by intro ax; cases ax; exacts [hX, hY, hZ, hE])
    (by
      intro ax q hq
      cases ax <;> simp only [Option.some.injEq, reduceCtorEq] at hq <;> subst hq
      · have := gr .x; simp only [V4.get] at this; push_cast; exact this
      · have := gr .y; simp only [V4.get] at this; push_cast; exact this)
  have hp0 : (MState.init Cfg.default : MState ℝ).pos = Coord.zero := rfl
  have hd' : d = ⟨m / 100, n / 100, 0, 0⟩ := by
    apply V4.ext_get
    intro ax
    rw [hdv]
    cases ax <;> simp [V4.get] <;> rw [hp0]
    · have := get_zero .x; simp only [V4.get] at this; rw [this]
    · have := get_zero .y; simp only [V4.get] at this; rw [this]
  subst hd'
  have hz : (Coord.zero : V4 ℝ) = ⟨0, 0, 0, 0⟩ := V4.ext_get fun ax => by
    rw [get_zero]; cases ax <;> rfl
  have m1 : (1 : ℝ) ≤ m := by exact_mod_cast hm.1
  have m2 : (m : ℝ) ≤ 20000 := by exact_mod_cast hm.2
  have n1 : (1 : ℝ) ≤ n := by exact_mod_cast hn.1
  have n2 : (n : ℝ) ≤ 20000 := by exact_mod_cast hn.2
  have ho : OrdinaryMove (⟨m / 100, n / 100, 0, 0⟩ : V4 ℝ) 600 := by
    refine ⟨gr, ⟨.x, by simp only [V4.get]; positivity⟩, fun ax => ?_, fun ax hax => ?_, by norm_num⟩
    · cases ax <;> simp only [V4.get]
      · rw [abs_of_pos (by positivity)]; linarith
      · rw [abs_of_pos (by positivity)]; linarith
      · norm_num
      · norm_num
    · cases ax <;> simp only [V4.get] at hax ⊢
      · rw [abs_of_pos (by positivity)]; linarith
      · rw [abs_of_pos (by positivity)]; linarith
      · exact absurd rfl hax
      · exact absurd rfl hax
  have hcd : checkDelta Cfg.default (MState.init Cfg.default : MState ℝ).pos
      ⟨(m : ℝ) / 100, n / 100, 0, 0⟩ = .ok () := by
    have := area_default (m := 0) (n := 0) (l := 0) (m' := m) (n' := n) (l' := 0) (by omega) (by omega)
      (by omega)
    rw [hp0, hz]
    simpa using this
  have hr : roundToSteps Cfg.default (⟨m / 100, n / 100, 0, 0⟩ : V4 ℝ) = ⟨m / 100, n / 100, 0, 0⟩ :=
    rts_vec m n 0 rfl rfl (by norm_num)
  obtain ⟨lg, hl, hrun⟩ := drive_linear henv plain_init hc hd hF hI hJ hK hr ho hcd
  have hpos : Coord.add (Coord.zero : V4 ℝ) ⟨m / 100, n / 100, 0, 0⟩ = ⟨m / 100, n / 100, 0, 0⟩ := by
    apply V4.ext_get
    intro ax
    rw [get_add_grid gridV_zero gr, get_zero, zero_add]
  refine ⟨_, lg, ho, hl, hrun, ?_, ?_, rfl⟩
  · have h := plain_init
    exact ⟨h.abs, h.conv, h.loc, h.vel, h.plane, by dsimp only; rw [hp0, hpos]; exact gr⟩
  · dsimp only; rw [hp0, hpos]

end PyCNC
