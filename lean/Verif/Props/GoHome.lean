import Verif.Props.HomeSpeed
import Verif.Props.Actuators

/-!
# Property C101: the machine can always be sent home

Exact arithmetic, for every nearest-integer rounding (`PyRound`).
-/

namespace PyCNC.Props

open PyCNC Spec

variable [PyRound] {c : Cfg} {env : Env ℝ}

/-- X, Y and Z are on whole steps. -/
def OnSteps (c : Cfg) (s : MState ℝ) : Prop :=
  ∀ ax, ax ≠ .e → ∃ n : ℤ, s.pos.get ax = n / (c.ppm.get ax : ℝ)

/-- A move that takes some axes to zero, and no other, is accepted. -/
theorem zeroing_ok (hc : SaneMachine c) (hl : DecimalLimits c) (hst : ∀ ax, ax ≠ .e → DecimalStep c ax)
    (henv : ∀ tr, env.move tr = none) {s : MState ℝ} (hin : InTable c s.pos) (hon : OnSteps c s)
    {d : V4 ℝ} {v : ℝ} (hd : ∀ ax, d.get ax = 0 ∨ (ax ≠ .e ∧ d.get ax = - s.pos.get ax)) (hv : 1 ≤ v)
    (h : c.autoVel = true ∨ ∀ ax, d.get ax = 0 ∨ v ≤ c.maxVel.get ax) :
    ∃ s', moveLinear c env d v s = (.ok (), s') ∧ InTable c s'.pos ∧ OnSteps c s' := by
  have hr : roundToSteps c d = d := by
    apply V4.ext_get
    intro ax
    rcases hd ax with h0 | ⟨hax, h0⟩
    · rw [get_roundToSteps, h0, zero_div, rnd_zero, Int.cast_zero, zero_mul, round10_zero]
    · obtain ⟨n, hn⟩ := hon ax hax
      have hp := (decimalStep_ppm (hst ax hax)).1
      have e : d.get ax * (c.ppm.get ax : ℝ) = ((-n : ℤ) : ℝ) := by
        rw [h0, hn]; push_cast; field_simp
      rw [roundToSteps_decimal (hst ax hax), e, rnd_int, h0, hn]
      push_cast; ring
  have hdg : GridV d := hr ▸ gridV_roundToSteps d
  have hadd : ∀ ax, (Coord.add s.pos d).get ax = s.pos.get ax ∨
      (ax ≠ .e ∧ (Coord.add s.pos d).get ax = 0) := by
    intro ax
    rw [get_add_grid hin.grid hdg]
    rcases hd ax with h0 | ⟨hax, h0⟩
    · left; rw [h0, add_zero]
    · right; exact ⟨hax, by rw [h0]; ring⟩
  have he : |(roundToSteps c d).e| ≤ 10 ^ 4 := by
    rw [hr]
    have : d.e = 0 := (hd .e).elim id fun h => absurd rfl h.1
    rw [this]; norm_num
  have hck : checkDelta c s.pos (roundToSteps c d) = .ok () := by
    rw [hr, checkDelta_ok (decimalQ_grid hc.table.1.2) (decimalQ_grid hc.table.2.1.2)
      (decimalQ_grid hc.table.2.2.2) ⟨hc.table.1.1, hc.table.2.1.1, hc.table.2.2.1⟩ hin.grid hdg]
    have tx : (0 : ℝ) ≤ c.tableX := by exact_mod_cast hc.table.1.1
    have ty : (0 : ℝ) ≤ c.tableY := by exact_mod_cast hc.table.2.1.1
    have tz : (0 : ℝ) ≤ c.tableZ := by exact_mod_cast hc.table.2.2.1
    have key : ∀ (ax : Axis) (t : ℝ), 0 ≤ t → 0 ≤ s.pos.get ax → s.pos.get ax ≤ t →
        0 ≤ s.pos.get ax + d.get ax ∧ s.pos.get ax + d.get ax ≤ t := by
      intro ax t ht h1 h2
      rcases hd ax with h0 | ⟨-, h0⟩ <;> rw [h0]
      · rw [add_zero]; exact ⟨h1, h2⟩
      · rw [add_neg_cancel]; exact ⟨le_refl _, ht⟩
    exact ⟨key .x _ tx hin.x.1 hin.x.2, key .y _ ty hin.y.1 hin.y.2, key .z _ tz hin.z.1 hin.z.2⟩
  have hno := moveLinear_notSpeed (env := env) hc hl (by simp [henv]) he hv h s hin
  rcases moveLinear_cases (c := c) (env := env) d v s with ⟨_, k⟩ | ⟨hz, e, k, h2 | h2 | ⟨g, _, h2⟩⟩ |
    ⟨_, g, _, _, _, ⟨e, hm, _⟩ | ⟨_, k⟩⟩
  · exact ⟨s, k, hin, hon⟩
  · rw [hck] at h2; cases h2
  · obtain ⟨g, _, _, h1, _⟩ := linear_new hc.cfg (ordinary_of_check hc hin hz hck he hv)
    rw [h1] at h2; cases h2
  · unfold checkVelocity at h2
    split at h2
    · cases h2
      exact absurd rfl (hno.2 _ _ k)
    · cases h2
  · rw [henv] at hm; cases hm
  · refine ⟨_, k, hno.1 _ _ k, fun ax hax => ?_⟩
    rw [hr]
    rcases hadd ax with h0 | ⟨-, h0⟩
    · rw [h0]; exact hon ax hax
    · exact ⟨0, by rw [h0]; simp⟩

/-- `safe_zero` succeeds. -/
theorem safeZero_succeeds (hc : SaneMachine c) (hl : DecimalLimits c)
    (hst : ∀ ax, ax ≠ .e → DecimalStep c ax) (henv : ∀ tr, env.move tr = none) {x y z : Bool}
    (h : c.autoVel = true ∨ c.maxVel.x ≤ c.maxVel.y ∨ x = true ∨ y = false)
    {s : MState ℝ} (hin : InTable c s.pos) (hon : OnSteps c s) :
    ∃ s', safeZero c env x y z s = (.ok (), s') := by
  have m60 : ∀ ax, (1 : ℝ) ≤ (c.maxVel.get ax : ℝ) := fun ax => by
    have : (60 : ℝ) ≤ c.maxVel.get ax := by exact_mod_cast hc.cfg.maxVel ax
    linarith
  have mx := m60 .x
  have my := m60 .y
  have mz := m60 .z
  simp only [V4.get] at mx my mz
  have zr : (PyNum.round10 (zeroF : ℝ) : ℝ) = 0 := by rw [zeroF_eq, round10_zero]
  have nr : ∀ {s : MState ℝ}, InTable c s.pos → ∀ ax, (PyNum.round10 (PyNum.neg (s.pos.get ax)) : ℝ) =
      - s.pos.get ax := fun hin ax => round10_grid (hin.grid ax).neg
  have ex : (PyNum.ofRat c.maxVel.x : ℝ) = c.maxVel.x := by simp
  have ez : (PyNum.ofRat c.maxVel.z : ℝ) = c.maxVel.z := by simp
  have exy : (pmin (PyNum.ofRat c.maxVel.x) (PyNum.ofRat c.maxVel.y) : ℝ) =
      min (c.maxVel.x : ℝ) c.maxVel.y := by rw [pmin_eq]; simp
  have hX : ∀ {s : MState ℝ}, InTable c s.pos → OnSteps c s → ∃ s', moveLinear c env
      (Coord.new (PyNum.neg s.pos.x) zeroF zeroF zeroF) (PyNum.ofRat c.maxVel.x) s = (.ok (), s') ∧
      InTable c s'.pos ∧ OnSteps c s' := fun hin hon => by
    rw [ex]
    refine zeroing_ok hc hl hst henv hin hon (fun ax => ?_) mx (.inr fun ax => ?_) <;> cases ax
    · exact .inr ⟨by decide, nr hin .x⟩
    iterate 3 exact .inl zr
    · exact .inr (le_refl _)
    all_goals exact .inl zr
  have hZ : ∀ {s : MState ℝ}, InTable c s.pos → OnSteps c s → ∃ s', moveLinear c env
      (Coord.new zeroF zeroF (PyNum.neg s.pos.z) zeroF) (PyNum.ofRat c.maxVel.z) s = (.ok (), s') ∧
      InTable c s'.pos ∧ OnSteps c s' := fun hin hon => by
    rw [ez]
    refine zeroing_ok hc hl hst henv hin hon (fun ax => ?_) mz (.inr fun ax => ?_) <;> cases ax
    iterate 2 exact .inl zr
    · exact .inr ⟨by decide, nr hin .z⟩
    iterate 3 exact .inl zr
    · exact .inr (le_refl _)
    · exact .inl zr
  have hXY : ∀ {s : MState ℝ}, InTable c s.pos → OnSteps c s → ∃ s', moveLinear c env
      (Coord.new (PyNum.neg s.pos.x) (PyNum.neg s.pos.y) zeroF zeroF)
        (pmin (PyNum.ofRat c.maxVel.x) (PyNum.ofRat c.maxVel.y)) s = (.ok (), s') ∧
      InTable c s'.pos ∧ OnSteps c s' := fun hin hon => by
    rw [exy]
    refine zeroing_ok hc hl hst henv hin hon (fun ax => ?_) (le_min mx my) (.inr fun ax => ?_) <;> cases ax
    · exact .inr ⟨by decide, nr hin .x⟩
    · exact .inr ⟨by decide, nr hin .y⟩
    iterate 2 exact .inl zr
    · exact .inr (min_le_left _ _)
    · exact .inr (min_le_right _ _)
    all_goals exact .inl zr
  have hY : (c.autoVel = true ∨ c.maxVel.x ≤ c.maxVel.y) → ∀ {s : MState ℝ}, InTable c s.pos → OnSteps c s →
      ∃ s', moveLinear c env (Coord.new zeroF (PyNum.neg s.pos.y) zeroF zeroF) (PyNum.ofRat c.maxVel.x) s =
        (.ok (), s') ∧ InTable c s'.pos ∧ OnSteps c s' := fun h _ hin hon => by
    rw [ex]
    refine zeroing_ok hc hl hst henv hin hon (fun ax => ?_) mx (h.imp_right fun h ax => ?_) <;> cases ax
    · exact .inl zr
    · exact .inr ⟨by decide, nr hin .y⟩
    iterate 3 exact .inl zr
    · exact .inr (by exact_mod_cast h)
    all_goals exact .inl zr
  unfold safeZero
  rw [M.bind_get]
  cases x <;> cases y <;>
    simp only [Bool.not_true, Bool.not_false, Bool.and_true, Bool.and_false, Bool.false_eq_true,
      if_false, if_true, Bool.and_self]
  case false.false =>
    cases z <;> simp only [Bool.false_eq_true, if_false, if_true]
    · exact ⟨s, rfl⟩
    · rw [M.bind_get]
      exact (hZ hin hon).imp fun _ h => h.1
  case false.true =>
    obtain ⟨s1, h1, h2, h3⟩ := hY (by simpa using h) hin hon
    rw [M.bind_ok h1]
    cases z <;> simp only [Bool.false_eq_true, if_false, if_true]
    · exact ⟨s1, rfl⟩
    · rw [M.bind_get]
      exact (hZ h2 h3).imp fun _ h => h.1
  case true.false =>
    obtain ⟨s1, h1, h2, h3⟩ := hX hin hon
    rw [M.bind_ok h1]
    cases z <;> simp only [Bool.false_eq_true, if_false, if_true]
    · exact ⟨s1, rfl⟩
    · rw [M.bind_get]
      exact (hZ h2 h3).imp fun _ h => h.1
  case true.true =>
    obtain ⟨s1, h1, h2, h3⟩ := hXY hin hon
    rw [M.bind_ok h1]
    cases z <;> simp only [Bool.false_eq_true, if_false, if_true]
    · exact ⟨s1, rfl⟩
    · rw [M.bind_get]
      exact (hZ h2 h3).imp fun _ h => h.1

/-- **C101.** From every reachable state, after any lines whatever, a `G28` line whose words are numbers takes
the axes that it homes to zero and no other axis anywhere, and it is answered with success or, exactly when
the end switches fail, with "failed to calibrate".  The machine has decimal steps and its moves do not fail; it
adjusts velocities, or its X is not faster than its Y, or the line homes X or does not home Y (see C100). -/
theorem C101_home (hc : SaneMachine c) (hl : DecimalLimits c)
    (hst : DecimalStep c .x ∧ DecimalStep c .y ∧ DecimalStep c .z)
    (hmin : ∀ ax, c.minVel ≤ c.maxVel.get ax) (henv : ∀ tr, env.move tr = none)
    {s : MState ℝ} (hs : Reachable c env s) {g : GCode} (hg : Is g 'G' "28")
    (h : c.autoVel = true ∨ c.maxVel.x ≤ c.maxVel.y ∨ Homes g .x ∨ ¬ Homes g .y)
    (hw : ∀ k t, g.params.lookup k = some t → ∃ q, parseFloat t = some q ∧ (k = 'F' → c.minVel ≤ q)) :
    ∃ s' x y z, doCommand c env (some g) s =
        (if env.calibrate s'.trace = true then .ok none else .error (.gmachine "failed to calibrate"), s') ∧
      (∀ ax, (Homes g ax → s'.pos.get ax = 0) ∧ (¬ Homes g ax → s'.pos.get ax = s.pos.get ax)) ∧
      (∃ moves, s'.trace = .calibrate x y z :: .join :: moves ++ s.trace ∧
        ∀ call ∈ moves, ∃ gen, call = .move gen) ∧
      (x = true ↔ Homes g .x) ∧ (y = true ↔ Homes g .y) ∧ (z = true ↔ Homes g .z) := by
  have hl' : lineCmd g = .g28 := is_lineCmd (cmd := .g28) ⟨_, by simp [Cmd.words]; rfl, hg⟩
  have hbw : ¬ BadWord g := by
    rintro ⟨k, t, h1, h2⟩
    obtain ⟨q, h3, -⟩ := hw k t h1
    rw [h2] at h3; cases h3
  have hst' : ∀ ax, ax ≠ .e → DecimalStep c ax := by
    intro ax hax
    cases ax
    · exact hst.1
    · exact hst.2.1
    · exact hst.2.2
    · exact absurd rfl hax
  have hon : OnSteps c s := fun ax hax => reachable_onStep hs (hst' ax hax)
  have hvel : ((c.minVel : ℚ) : ℝ) ≤ s.vel := by
    have := C18_feed_at_least_minimum (c := c) (env := env) s hs (fun ax => by
      change (PyNum.ofRat c.minVel : ℝ) ≤ PyNum.ofRat (c.maxVel.get ax)
      rw [ofRat_eq, ofRat_eq]; exact_mod_cast hmin ax)
    change (PyNum.ofRat c.minVel : ℝ) ≤ s.vel at this
    rwa [ofRat_eq] at this
  obtain ⟨x, y, z, s2, hrun, hx, hy, hz, -⟩ := home_run (c := c) (env := env) g s
  obtain ⟨s3, h3⟩ := safeZero_succeeds (env := env) (x := x) (y := y) (z := z) hc hl hst' henv (by
    rcases h with h | h | h | h
    · exact .inl h
    · exact .inr (.inl h)
    · exact .inr (.inr (.inl (hx.2 h)))
    · refine .inr (.inr (.inr ?_))
      rcases hb : y with _ | _
      · rfl
      · exact absurd (hy.1 hb) h) (reachable_inTable hc.table hs) hon
  rcases doCommand_cases (c := c) (env := env) g s with ⟨e, _, h2 | h2 | h2⟩ |
    ⟨d', f, r, _, hf, -, ⟨h4, _⟩ | ⟨-, hex⟩⟩
  · exact absurd (readDelta_error h2).2 hbw
  · exact absurd ⟨_, (get_error h2).2⟩ hbw
  · exact absurd (radius_error h2).2 hbw
  · exfalso
    have h4' : f < c.minVel := by
      have := decide_eq_true_iff.1 h4
      rwa [ofRat_eq] at this
    unfold GCode.get GCode.lookup at hf
    rcases hk : g.params.lookup 'F' with _ | t
    · rw [hk] at hf
      cases hf
      exact absurd hvel (not_le.2 h4')
    · rw [hk] at hf
      obtain ⟨q, hq, hq2⟩ := hw _ _ hk
      simp only [hq, Except.ok.injEq] at hf
      have hf' : (q : ℝ) = f := by
        rw [← hf, ofRat_eq, ofRat_eq, Rat.cast_one]; exact (mul_one _).symm
      have : (c.minVel : ℝ) ≤ q := by exact_mod_cast hq2 rfl
      linarith
  · rw [hl'] at hex
    rcases hrun with ⟨e, n1, -⟩ | ⟨n1, n2⟩
    · rw [h3] at n1; cases n1
    obtain ⟨h6, ⟨moves, h7, h8⟩, h9⟩ := safeZero_ok (tidy_reachable hs) hon hst n1
    have hpos : ∀ ax, (Homes g ax → s2.pos.get ax = 0) ∧ (¬ Homes g ax → s2.pos.get ax = s.pos.get ax) := by
      intro ax
      rw [h6]
      have : (pick3 x y z ax = true) ↔ Homes g ax := by
        cases ax
        · exact hx
        · exact hy
        · exact hz
        · exact ⟨fun h => (by cases h), fun h => absurd rfl h.1⟩
      exact ⟨fun hh => if_pos (this.2 hh), fun hh => if_neg fun k => hh (this.1 k)⟩
    have htr : HalCall.calibrate x y z :: .join :: s2.trace =
        .calibrate x y z :: .join :: moves ++ s.trace := by rw [h7]; rfl
    rcases n2 with ⟨hcal, hm⟩ | ⟨hcal, hm⟩
    · rcases hex with ⟨a, s', k1, -⟩ | ⟨e, s', k1, k2⟩
      · simp only [execCmd] at k1
        rw [M.bind_error hm] at k1; cases k1
      · simp only [execCmd] at k1
        rw [M.bind_error hm] at k1
        cases k1
        refine ⟨{ s2 with trace := .calibrate x y z :: .join :: s2.trace }, x, y, z, ?_, hpos,
          ⟨moves, htr, h8⟩, hx, hy, hz⟩
        rw [k2]
        simp only [hcal, Bool.false_eq_true, if_false]
    · rcases hex with ⟨a, s', k1, k2⟩ | ⟨e, s', k1, -⟩
      · simp only [execCmd] at k1
        rw [M.bind_ok hm] at k1
        cases k1
        refine ⟨{ { s2 with trace := .calibrate x y z :: .join :: s2.trace } with vel := f }, x, y, z, ?_, hpos,
          ⟨moves, htr, h8⟩, hx, hy, hz⟩
        rw [k2]
        simp only [hcal, if_true]
      · simp only [execCmd] at k1
        rw [M.bind_ok hm] at k1; cases k1

/-- The hypotheses are met by the default machine and the lines `G28` and `G28 Y0 F600`. -/
example : SaneMachine Cfg.default ∧ DecimalLimits Cfg.default ∧
    (DecimalStep Cfg.default .x ∧ DecimalStep Cfg.default .y ∧ DecimalStep Cfg.default .z) ∧
    (∀ ax, Cfg.default.minVel ≤ Cfg.default.maxVel.get ax) ∧ Cfg.default.autoVel = true ∧
    Is ⟨[('G', "28".toList), ('Y', "0".toList), ('F', "600".toList)]⟩ 'G' "28" ∧
    parseFloat "0".toList = some 0 ∧ parseFloat "28".toList = some 28 ∧
    parseFloat "600".toList = some 600 ∧ Cfg.default.minVel ≤ 600 := by
  refine ⟨default_plain.sane, default_limits true, default_decimalStep, fun ax => ?_, rfl, ?_,
    by decide +kernel, by decide +kernel, by decide +kernel, by norm_num [Cfg.default]⟩
  · cases ax <;> norm_num [V4.get, Cfg.default]
  · exact (by unfold Is; decide)

/-- For example after an arc: in every state that the default machine reaches, the line `G28` takes X, Y and Z to
zero, if the end switches answer. -/
theorem C101_example (henv : ∀ tr, env.move tr = none) (hcal : ∀ tr, env.calibrate tr = true) {s : MState ℝ}
    (hs : Reachable Cfg.default env s) :
    ∃ s', doCommand Cfg.default env (some ⟨[('G', "28".toList)]⟩) s = (.ok none, s') ∧
      s'.pos = ⟨0, 0, 0, s.pos.e⟩ := by
  obtain ⟨s', x, y, z, h1, h2, -⟩ := C101_home (c := Cfg.default) default_plain.sane (default_limits true)
    default_decimalStep (fun ax => by cases ax <;> norm_num [V4.get, Cfg.default]) henv hs
    (g := ⟨[('G', "28".toList)]⟩) (by unfold Is; decide) (.inl rfl) (by
      intro k t h
      by_cases hk : k = 'G'
      · subst hk
        obtain rfl : "28".toList = t := by simpa using h
        exact ⟨28, by decide +kernel, by decide⟩
      · have hb : (k == 'G') = false := by simpa using hk
        rw [List.lookup_cons, hb] at h
        simp at h)
  have hh : ∀ ax, ax ≠ .e → Homes ⟨[('G', "28".toList)]⟩ ax := fun ax hax => ⟨hax, .inr fun ax' _ => by
    cases ax' <;> decide⟩
  refine ⟨s', by rw [h1, hcal]; rfl, V4.ext_get fun ax => ?_⟩
  cases ax
  · exact (h2 .x).1 (hh _ (by decide))
  · exact (h2 .y).1 (hh _ (by decide))
  · exact (h2 .z).1 (hh _ (by decide))
  · exact (h2 .e).2 fun h => h.1 rfl

end PyCNC.Props
