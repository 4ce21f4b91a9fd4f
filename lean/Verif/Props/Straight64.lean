import Verif.Lemmas.Straight64
import Verif.Props.Speed64

/-!
# Property C95: straight moves by any numbers in floating point

Binary64 arithmetic, for every nearest-integer rounding (`PyRound`).
-/

namespace PyCNC.Props

open PyCNC Spec

variable [PyRound] {c : Cfg} {env : Env F64}

/-- What an accepted straight move by `n` steps does: the position changes by these steps, and the
motors make them, unless there are none; the move ends on the table. -/
def GoesBy (c : Cfg) (s s' : MState F64) (n : V4 ℤ) : Prop :=
  (∀ ax, |(s'.pos.get ax).1 - ((s.pos.get ax).1 + n.get ax / c.ppm.get ax)| ≤ 2 / 10 ^ 10) ∧
  ((s'.trace = s.trace ∧ ∀ ax, n.get ax = 0) ∨
    ∃ lg evs, s'.trace = .move (.linear lg) :: s.trace ∧ Emits c (.linear lg) evs ∧
      (∀ ax, netSteps c ax evs = n.get ax) ∧
      ∀ ax, ax ≠ .e → -(2 / 10 ^ 10) ≤ (s.pos.get ax).1 + n.get ax / c.ppm.get ax ∧
        (s.pos.get ax).1 + n.get ax / c.ppm.get ax ≤ tableSize c ax + 3 / 10 ^ 10)

/-- The move by `n` steps leaves the table, or ends within 3·10⁻¹⁰ mm of its border, by an axis that
moves or was not on the table before. -/
def Leaves (c : Cfg) (s : MState F64) (n : V4 ℤ) : Prop :=
  ∃ ax, ax ≠ .e ∧ (n.get ax = 0 → (s.pos.get ax).1 < 0 ∨ fl (tableSize c ax) < (s.pos.get ax).1) ∧
    ((s.pos.get ax).1 + n.get ax / c.ppm.get ax < 2 / 10 ^ 10 ∨
    tableSize c ax - 3 / 10 ^ 10 < (s.pos.get ax).1 + n.get ax / c.ppm.get ax)

theorem straight_move (hc : AdjustingMachine c) (ht : ∀ ax, 0 ≤ tableSize c ax ∧ tableSize c ax ≤ 10 ^ 4)
    (henv : ∀ tr, env.move tr = none) {s : MState F64} {d : V4 F64} {v : F64} (hv : 1 ≤ v.1)
    {n : V4 ℤ} (hn : ∀ ax, |(n.get ax : ℝ)| ≤ 10 ^ 4 * c.ppm.get ax)
    (hw : ∀ ax, (roundToSteps c d).get ax = stepVal (c.ppm.get ax) (n.get ax))
    (hpos : ∀ ax, |(s.pos.get ax).1| ≤ 10 ^ 5) :
    (∃ s', moveLinear c env d v s = (.ok (), s') ∧ GoesBy c s s' n) ∨
    (moveLinear c env d v s = (.error (.gmachine "out of effective area"), s) ∧ Leaves c s n) := by
  have hP1 : ∀ ax, (1 : ℝ) ≤ c.ppm.get ax := fun ax => by exact_mod_cast hc.steps ax
  have hP : ∀ ax, (0 : ℝ) < c.ppm.get ax := fun ax => by linarith [hP1 ax]
  have hP2 : ∀ ax, (c.ppm.get ax : ℝ) ≤ 1000 := fun ax => by exact_mod_cast hc.sane.ppm_le ax
  have near := fun ax => (stepVal_near (hc.steps ax) (hc.sane.ppm_le ax) (hn ax)).1
  have hq : ∀ ax, |(n.get ax : ℝ) / c.ppm.get ax| ≤ 10 ^ 4 := fun ax => by
    rw [abs_div, abs_of_pos (hP ax), div_le_iff₀ (hP ax)]; exact hn ax
  have hadd : ∀ ax, |((Coord.add s.pos (roundToSteps c d)).get ax).1 -
      ((s.pos.get ax).1 + n.get ax / c.ppm.get ax)| ≤ 2 / 10 ^ 10 := fun ax => by
    have e : (Coord.add s.pos (roundToSteps c d)).get ax =
        PyNum.round10 (s.pos.get ax +ₚ (roundToSteps c d).get ax) := by cases ax <;> rfl
    rw [e, hw]
    exact add_near64 (hpos ax) (near ax) (hq ax)
  have htab : ∀ ax, |(PyNum.round10 (PyNum.ofRat (tableSize c ax) : F64)).1 - tableSize c ax| ≤ 6 / 10 ^ 11 := by
    intro ax
    have t0 : (0 : ℝ) ≤ tableSize c ax := by exact_mod_cast (ht ax).1
    have t1 : (tableSize c ax : ℝ) ≤ 10 ^ 4 := by exact_mod_cast (ht ax).2
    have h1 := r10_near3 (PyNum.ofRat (tableSize c ax) : F64)
    rw [val_ofRat] at h1
    have h2 := fl_near3 (tableSize c ax : ℝ)
    have h3 := fl_hi3 t0
    rw [abs_of_nonneg t0] at h2
    rw [abs_of_nonneg (fl_nonneg t0)] at h1
    generalize (PyNum.round10 (PyNum.ofRat (tableSize c ax) : F64)).1 = A at *
    generalize fl (tableSize c ax : ℝ) = B at *
    rw [abs_le] at *
    norm_num at *
    constructor <;> linarith
  have hsteps : Steps64 c n (roundToSteps c d) := steps_of_val hc.sane hc.steps hn hw
  obtain ⟨k1, k2⟩ := checkDelta_any64 (c := c) (fun ax => (ht ax).1) s.pos (roundToSteps c d)
  rcases moveLinear_cases (c := c) (env := env) d v s with ⟨h0, h1⟩ | ⟨h0, e, h1, h2⟩ |
    ⟨h0, lg, h2, h3, -, ⟨e, h4, -⟩ | ⟨-, h1⟩⟩
  · have hz : ∀ ax, n.get ax = 0 := by
      intro ax
      have h2 := (isZero64 _).1 h0 ax
      have h3 := near ax
      rw [← hw, h2, val_zero, zero_sub, abs_neg, abs_div, abs_of_pos (hP ax), div_le_iff₀ (hP ax)] at h3
      have h4 : |(n.get ax : ℝ)| < 1 := by
        have := hP2 ax
        norm_num at *
        linarith
      have h5 : |n.get ax| < 1 := by exact_mod_cast h4
      exact Int.abs_lt_one_iff.1 h5
    refine .inl ⟨s, h1, fun ax => ?_, .inl ⟨rfl, hz⟩⟩
    rw [hz ax]
    norm_num
  · obtain ⟨lg, l1, l2⟩ := line_accepted64 hc.sane hc.limits hc.fast hc.auto hsteps hv h0
    rcases h2 with h2 | h2 | ⟨lg', h2, h3⟩
    · have he := k2 e h2
      subst he
      refine .inr ⟨h1, ?_⟩
      by_contra hcon
      have : checkDelta c s.pos (roundToSteps c d) = .ok () := k1.2 fun ax hax => by
        unfold Leaves at hcon
        push Not at hcon
        by_cases hz : n.get ax = 0 ∧ 0 ≤ (s.pos.get ax).1 ∧ (s.pos.get ax).1 ≤ fl (tableSize c ax)
        · obtain ⟨z1, z2, z3⟩ := hz
          have e : (Coord.add s.pos (roundToSteps c d)).get ax =
              PyNum.round10 (s.pos.get ax +ₚ (roundToSteps c d).get ax) := by cases ax <;> rfl
          have e2 : (s.pos.get ax +ₚ (roundToSteps c d).get ax).1 = (s.pos.get ax).1 := by
            rw [val_add, hsteps.zero ax z1, add_zero]; exact (s.pos.get ax).2
          rw [e]
          refine ⟨r10_nonneg (by rw [e2]; exact z2), ?_⟩
          rw [val_round10, val_round10, e2, val_ofRat]
          refine fl_mono (div_le_div_of_nonneg_right ?_ E10_pos.le)
          exact_mod_cast rnd_mono (mul_le_mul_of_nonneg_right z3 E10_pos.le)
        obtain ⟨c1, c2⟩ := hcon ax hax fun h0 => by
          by_contra hh
          push Not at hh
          exact hz ⟨h0, hh⟩
        obtain ⟨a1, a2⟩ := abs_le.1 (hadd ax)
        obtain ⟨b1, b2⟩ := abs_le.1 (htab ax)
        norm_num at *
        constructor <;> linarith
      rw [h2] at this
      cases this
    · rw [l1] at h2; cases h2
    · rw [l1] at h2; cases h2
      rw [l2] at h3; cases h3
  · rw [henv] at h4; cases h4
  · have hne : ∃ ax, n.get ax ≠ 0 := by
      by_contra hcon
      push Not at hcon
      have : Coord.isZero (roundToSteps c d) = true := (isZero64 _).2 fun ax => ext64 (by
        rw [hsteps.zero ax (hcon ax), val_zero])
      rw [h0] at this
      cases this
    obtain ⟨lg', l1, hgood⟩ := linear64_new hc.sane hsteps hne hv
    rw [h3] at l1
    cases l1
    obtain ⟨evs, hem⟩ := linear64_done hgood
    refine .inl ⟨_, h1, hadd, .inr ⟨lg, evs, rfl, hem, train64 hc.sane hsteps h3 hem, fun ax hax => ?_⟩⟩
    obtain ⟨c1, c2⟩ := k1.1 h2 ax hax
    obtain ⟨a1, a2⟩ := abs_le.1 (hadd ax)
    obtain ⟨b1, b2⟩ := abs_le.1 (htab ax)
    norm_num at *
    constructor <;> linarith

/-- **C95** -/
theorem C95_straight (hc : AdjustingMachine c) (ht : ∀ ax, 0 ≤ tableSize c ax ∧ tableSize c ax ≤ 10 ^ 4)
    (henv : ∀ tr, env.move tr = none) {s : MState F64} {g : GCode}
    (hg : lineCmd g = .g0 ∨ lineCmd g = .g1) {d : V4 F64} (hd : readDelta s g = .ok d)
    (hsize : ∀ ax, |(d.get ax).1| ≤ 9999) (hpos : ∀ ax, |(s.pos.get ax).1| ≤ 10 ^ 5) :
    ∃ n : V4 ℤ, (∀ ax, |(n.get ax : ℝ) - (d.get ax).1 * c.ppm.get ax| ≤ 1 / 2 + 1 / 10 ^ 7) ∧
      ((∃ s', doCommand c env (some g) s = (.ok none, s') ∧ GoesBy c s s' n) ∨
       (doCommand c env (some g) s = (.error (.gmachine "out of effective area"), s) ∧ Leaves c s n) ∨
       (doCommand c env (some g) s = (.error (.gmachine "feed speed too low"), s) ∧
        ∃ v : F64, g.get 'F' s.vel (PyNum.ofRat 1) = .ok v ∧ v.1 < fl c.minVel) ∨
       (doCommand c env (some g) s = (.error .value, s) ∧ BadWord g)) := by
  obtain ⟨n, h1, h2, h3⟩ := round_nearest64 hc.sane hc.steps hsize
  refine ⟨n, h1, ?_⟩
  have hb : ∀ {v : F64}, (∃ s', moveLinear c env d v s = (.ok (), s') ∧ GoesBy c s s' n) ∨
      (moveLinear c env d v s = (.error (.gmachine "out of effective area"), s) ∧ Leaves c s n) →
      (∃ s', (moveLinear c env d v >>= fun _ => (pure none : M F64 (Option (Answer F64)))) s = (.ok none, s') ∧
        GoesBy c s s' n) ∨
      ((moveLinear c env d v >>= fun _ => (pure none : M F64 (Option (Answer F64)))) s =
        (.error (.gmachine "out of effective area"), s) ∧ Leaves c s n) := by
    rintro v (⟨s', k1, k2⟩ | ⟨k1, k2⟩)
    · exact .inl ⟨s', M.bind_ok k1, k2⟩
    · exact .inr ⟨M.bind_error k1, k2⟩
  rcases doCommand_cases (c := c) (env := env) g s with ⟨e, k1, k2 | k2 | k2⟩ |
    ⟨d', v, r', k1, k2, -, ⟨k3, k4⟩ | ⟨hv, k5⟩⟩
  · rw [hd] at k2; cases k2
  · obtain ⟨e1, e2⟩ := get_error k2
    subst e1
    exact .inr (.inr (.inr ⟨k1, _, e2⟩))
  · obtain ⟨e1, e2⟩ := radius_error k2
    subst e1
    exact .inr (.inr (.inr ⟨k1, e2⟩))
  · rw [lt64_iff, val_ofRat] at k3
    exact .inr (.inr (.inl ⟨k4, v, k2, k3⟩))
  · rw [hd] at k1
    cases k1
    have hv1 : 1 ≤ v.1 := by
      have : ¬ v.1 < fl c.minVel := by
        rw [← val_ofRat, ← lt64_iff, hv]; simp
      have h1 : (1 : ℝ) ≤ c.minVel := by exact_mod_cast hc.slow
      have h2 := fl_mono h1
      rw [fl_one] at h2
      linarith
    have hex : (∃ s', execCmd c env (lineCmd g) g d r' v s = (.ok none, s') ∧ GoesBy c s s' n) ∨
        (execCmd c env (lineCmd g) g d r' v s = (.error (.gmachine "out of effective area"), s) ∧
          Leaves c s n) := by
      rcases hg with hg | hg <;> rw [hg]
      · obtain ⟨vl, l1, l2⟩ := rapid_any64 hc.sane d
        simp only [execCmd, l1, M.bind_lift_ok]
        exact hb (straight_move hc ht henv l2 h2 h3 hpos)
      · simp only [execCmd]
        exact hb (straight_move hc ht henv hv1 h2 h3 hpos)
    rcases hex with ⟨s1, l1, l2⟩ | ⟨l1, l2⟩ <;> rcases k5 with ⟨a, s2, k5, k6⟩ | ⟨e, s2, k5, k6⟩ <;>
      rw [l1] at k5 <;> cases k5
    · exact .inl ⟨_, k6, l2⟩
    · exact .inr (.inl ⟨k6, l2⟩)

/-- `G1X7` -/
def sevenLine : GCode := ⟨[('G', ['1']), ('X', ['7'])]⟩

/-- After `G91`, `G1X7` is a move by 7 mm. -/
theorem seven_move : let s : MState F64 := { MState.init Cfg.default with absMode := false }
    ∃ d : V4 F64, readDelta s sevenLine = .ok d ∧ (d.get .x).1 = 7 ∧ ∀ ax, ax ≠ .x → (d.get ax).1 = 0 := by
  intro s
  have hn : NumbersOk sevenLine := by unfold NumbersOk; decide +kernel
  have hf : fl (7 : ℝ) = 7 := by
    have := fl_int 7 (by norm_num)
    simpa using this
  obtain ⟨d, hd⟩ : ∃ d, readDelta s sevenLine = .ok d := by
    rcases h : readDelta s sevenLine with e | d
    · obtain ⟨_, k, t, h3, h4⟩ := readDelta_error h
      exact absurd h4 (hn _ (mem_of_lookup h3))
    · exact ⟨d, rfl⟩
  refine ⟨d, hd, ?_, fun ax hax => ?_⟩
  · rcases coordinates_okF hd .x with ⟨q, ⟨t, h1, h2⟩, h⟩ | ⟨h1, h⟩
    · cases (show t = ['7'] from (Option.some.inj h1).symm)
      cases (show q = 7 by
        have : parseFloat ['7'] = some 7 := by decide +kernel
        rw [this] at h2; exact (Option.some.inj h2).symm)
      rw [h, val_round10, val_mul, val_ofRat, show s.conv = PyNum.ofRat 1 from rfl, val_ofRat, Rat.cast_one,
        fl_one, Rat.cast_ofNat, hf, mul_one, hf, e10_val, rnd_unique (n := 7 * 10 ^ 10) (by push_cast; norm_num)]
      push_cast
      rw [show (70000000000 : ℝ) / 10 ^ 10 = 7 by norm_num, hf]
    · cases h1
  · have hl : sevenLine.params.lookup (axisWord ax) = none := by
      cases ax <;> first | exact absurd rfl hax | decide
    have zero : (PyNum.round10 (zeroF : F64)).1 = 0 := r10_zero val_zero
    rcases coordinates_okF hd ax with ⟨q, ⟨t, h1, h2⟩, h⟩ | ⟨h1, h⟩
    · rw [hl] at h1; cases h1
    · rw [h]
      refine r10_zero ?_
      cases ax <;> exact zero

omit [PyRound] in
theorem default_table : ∀ ax, 0 ≤ tableSize Cfg.default ax ∧ tableSize Cfg.default ax ≤ 10 ^ 4 := fun ax => by
  cases ax <;> norm_num [tableSize, Cfg.default]

/-- The default machine after `G91` makes 700 steps for `G1X7`. -/
theorem C95_example (henv : ∀ tr, env.move tr = none) :
    let s : MState F64 := { MState.init Cfg.default with absMode := false }
    ∃ s' lg evs, doCommand Cfg.default env (some sevenLine) s = (.ok none, s') ∧
      s'.trace = .move (.linear lg) :: s.trace ∧ Emits Cfg.default (.linear lg) evs ∧
      netSteps Cfg.default .x evs = 700 := by
  intro s
  obtain ⟨d, hd, hx, h0⟩ := seven_move
  have zero : (PyNum.round10 (zeroF : F64)).1 = 0 := r10_zero val_zero
  have hp0 : ∀ ax, (s.pos.get ax).1 = 0 := fun ax => by cases ax <;> exact zero
  obtain ⟨n, h1, h2⟩ := C95_straight default_adjusting default_table henv (s := s) (g := sevenLine)
    (.inr (by decide)) hd (fun ax => by
      by_cases hax : ax = .x
      · rw [hax, hx]; norm_num
      · rw [h0 ax hax]; norm_num) (fun ax => by rw [hp0]; norm_num)
  have int : ∀ (ax : Axis) (k : ℤ), (d.get ax).1 * Cfg.default.ppm.get ax = k → n.get ax = k := by
    intro ax k hk
    have h3 := h1 ax
    rw [hk] at h3
    have h4 : |n.get ax - k| < 1 := by
      have : |((n.get ax - k : ℤ) : ℝ)| < 1 := by push_cast; exact lt_of_le_of_lt h3 (by norm_num)
      exact_mod_cast this
    have := Int.abs_lt_one_iff.1 h4
    omega
  have nx : n.get .x = 700 := int .x 700 (by rw [hx]; norm_num [Cfg.default, V4.get])
  have n0 : ∀ ax, ax ≠ .x → n.get ax = 0 := fun ax hax => int ax 0 (by rw [h0 ax hax]; simp)
  have hF : sevenLine.get 'F' s.vel (PyNum.ofRat 1) = .ok s.vel := rfl
  rcases h2 with ⟨s', h3, -, ⟨-, h4⟩ | ⟨lg, evs, h4, h5, h6, -⟩⟩ | ⟨-, ax, hax, h7, h4⟩ | ⟨-, v, h3, h4⟩ | ⟨-, h3⟩
  · have := h4 .x
    omega
  · exact ⟨s', lg, evs, h3, h4, h5, (h6 .x).trans nx⟩
  · exfalso
    rw [hp0] at h4 h7
    by_cases hx' : ax = .x
    · subst hx'
      rw [nx] at h4
      norm_num [Cfg.default, V4.get, tableSize] at h4
    · rcases h7 (n0 ax hx') with h | h
      · exact lt_irrefl _ h
      · refine absurd h (not_lt.2 (fl_nonneg ?_))
        exact_mod_cast (default_table ax).1
  · rw [hF] at h3
    cases h3
    exfalso
    have hvel : s.vel = minMaxVel Cfg.default := rfl
    have hmin : ∀ a b : F64, 1 ≤ a.1 → 1 ≤ b.1 → 1 ≤ (pmin a b).1 := by
      intro a b ha hb
      unfold pmin
      split
      · exact hb
      · exact ha
    have one : ∀ q : ℚ, 1 ≤ q → 1 ≤ (PyNum.ofRat q : F64).1 := by
      intro q hq
      rw [val_ofRat]
      have h1 : (1 : ℝ) ≤ q := by exact_mod_cast hq
      have h2 := fl_mono h1
      rwa [fl_one] at h2
    have h5 : 1 ≤ s.vel.1 := by
      rw [hvel]
      unfold minMaxVel
      refine hmin _ _ (hmin _ _ (hmin _ _ (one _ ?_) (one _ ?_)) (one _ ?_)) (one _ ?_) <;>
        norm_num [Cfg.default]
    have h6 : fl (Cfg.default.minVel : ℝ) = 1 := by
      rw [show ((Cfg.default.minVel : ℚ) : ℝ) = 1 by norm_num [Cfg.default], fl_one]
    rw [h6] at h4
    linarith
  · obtain ⟨k, t, h3, h4⟩ := h3
    have hn : NumbersOk sevenLine := by unfold NumbersOk; decide +kernel
    exact absurd h4 (hn _ (mem_of_lookup h3))

/-- The hypotheses of C95 are met by the default machine, the line `G1X7` and any state after `G91`. -/
example : AdjustingMachine Cfg.default ∧
    (∀ ax, 0 ≤ tableSize Cfg.default ax ∧ tableSize Cfg.default ax ≤ 10 ^ 4) ∧ lineCmd sevenLine = .g1 ∧
    ∃ (s : MState F64) (d : V4 F64), readDelta s sevenLine = .ok d ∧ ∀ ax, |(d.get ax).1| ≤ 9999 := by
  obtain ⟨d, hd, hx, h0⟩ := seven_move
  refine ⟨default_adjusting, default_table, by decide, _, d, hd, fun ax => ?_⟩
  by_cases hax : ax = .x
  · rw [hax, hx]; norm_num
  · rw [h0 ax hax]; norm_num

end PyCNC.Props
