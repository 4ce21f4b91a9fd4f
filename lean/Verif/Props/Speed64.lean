import Verif.Lemmas.Speed64
import Verif.Props.ArcInterp64

/-!
# Property C94: no straight move and no flat arc is refused for its speed in floating point

Binary64 arithmetic, for every nearest-integer rounding (`PyRound`).
-/

namespace PyCNC.Props

open PyCNC Spec

variable [PyRound] {c : Cfg} {env : Env F64}

/-- A machine with automatic adjustment of velocities, at least one step per mm, and limits of at least
60 and at most 60000 mm/min. -/
structure AdjustingMachine (c : Cfg) : Prop where
  sane : SaneCfg c
  limits : DecimalLimits c
  steps : ∀ ax, 1 ≤ c.ppm.get ax
  fast : ∀ ax, c.maxVel.get ax ≤ 60000
  slow : 1 ≤ c.minVel
  auto : c.autoVel = true

/-- A straight move by less than 10 m, or an arc in the plane by less than 1.9 m about a centre less
than 1.9 m away, on each axis. -/
def StraightOrFlat (s : MState F64) (g : GCode) (d r : V4 F64) : Prop :=
  ((lineCmd g = .g0 ∨ lineCmd g = .g1) ∧ ∀ ax, |(d.get ax).1| ≤ 9999) ∨
  ((lineCmd g = .g2 ∨ lineCmd g = .g3) ∧ (∀ ax, |(d.get ax).1| ≤ 1900) ∧ (∀ ax, |(r.get ax).1| ≤ 1900) ∧
    (d.get (axis3 s.plane)).1 = 0 ∧ (d.get .e).1 = 0)

/-- **C94** -/
theorem C94_accepted (hc : AdjustingMachine c)
    (henv : ∀ tr, env.move tr ≠ some (.gmachine "out of maximum speed"))
    {s s' : MState F64} {g : GCode} {d r : V4 F64} (hd : readDelta s g = .ok d)
    (hr : g.radius Coord.zero s.conv = .ok r) (hg : StraightOrFlat s g d r) :
    doCommand c env (some g) s ≠ (.error (.gmachine "out of maximum speed"), s') := by
  intro h
  have hb : ∀ {m : M F64 Unit} {s1 : MState F64}, Calm (m s).1 →
      (m >>= fun _ => (pure none : M F64 (Option (Answer F64)))) s ≠
        (.error (.gmachine "out of maximum speed"), s1) := by
    intro m s1 hm hx
    rcases hms : m s with ⟨e | a, s2⟩
    · rw [M.bind_error hms] at hx
      cases hx
      rw [hms] at hm
      exact hm rfl
    · rw [M.bind_ok hms] at hx
      cases hx
  rcases doCommand_cases (c := c) (env := env) g s with ⟨e, h1, h2 | h2 | h2⟩ |
    ⟨d', v, r', h1, -, h3, ⟨-, h4⟩ | ⟨hv, ⟨a', s1, h5, h6⟩ | ⟨e, s1, h5, h6⟩⟩⟩
  · rw [hd] at h2; cases h2
  · rw [h] at h1; cases h1; exact calm_get _ _ _ _ h2
  · rw [hr] at h2; cases h2
  · rw [h] at h4
    have := congrArg Prod.fst h4
    simp at this
  · rw [h] at h6; cases h6
  · rw [h] at h6
    cases h6
    rw [hd] at h1
    cases h1
    rw [hr] at h3
    cases h3
    have hv1 : 1 ≤ v.1 := by
      have : ¬ v.1 < fl c.minVel := by
        rw [← val_ofRat, ← lt64_iff, hv]; simp
      have h1 : (1 : ℝ) ≤ c.minVel := by exact_mod_cast hc.slow
      have h2 := fl_mono h1
      rw [fl_one] at h2
      linarith
    rcases hg with ⟨hg | hg, hs⟩ | ⟨hg | hg, hs, hs2, h3, he⟩ <;> rw [hg] at h5
    · obtain ⟨vl, k1, k2⟩ := rapid_any64 hc.sane d
      simp only [execCmd, k1, M.bind_lift_ok] at h5
      exact hb (linear_calm64 hc.sane hc.limits hc.fast hc.auto hc.steps henv hs k2 s) h5
    · simp only [execCmd] at h5
      exact hb (linear_calm64 hc.sane hc.limits hc.fast hc.auto hc.steps henv hs hv1 s) h5
    · simp only [execCmd] at h5
      exact hb (arc_calm64 hc.sane hc.limits hc.fast hc.auto hc.steps henv hs hs2 hv1 _ s h3 he) h5
    · simp only [execCmd] at h5
      exact hb (arc_calm64 hc.sane hc.limits hc.fast hc.auto hc.steps henv hs hs2 hv1 _ s h3 he) h5

omit [PyRound] in
/-- The default machine. -/
theorem default_adjusting : AdjustingMachine Cfg.default where
  sane := default_sane true
  limits := default_limits true
  steps := fun ax => by cases ax <;> norm_num [Cfg.default, V4.get]
  fast := fun ax => by cases ax <;> norm_num [Cfg.default, V4.get]
  slow := by norm_num [Cfg.default]
  auto := rfl

/-- `G2X20I10` -/
def halfLine : GCode := ⟨[('G', ['2']), ('X', "20".toList), ('I', "10".toList)]⟩

/-- After `G91`, `G2X20I10` is a half circle of 20 mm in the plane XY, and meets the hypotheses. -/
theorem half_flat : let s : MState F64 := { MState.init Cfg.default with absMode := false }
    ∃ d r : V4 F64, readDelta s halfLine = .ok d ∧ halfLine.radius Coord.zero s.conv = .ok r ∧
      (d.get .x).1 = 20 ∧ (r.get .x).1 = 10 ∧ StraightOrFlat s halfLine d r := by
  intro s
  have hn : NumbersOk halfLine := by unfold NumbersOk; decide +kernel
  have num : ∀ n : ℕ, n ≤ 1000 → (PyNum.round10 (PyNum.ofRat n *ₚ (PyNum.ofRat 1 : F64))).1 = n := by
    intro n hle
    have hf : fl (n : ℝ) = n := by
      have := fl_int n (by rw [abs_of_nonneg (by positivity)]; omega)
      simpa using this
    rw [val_round10, val_mul, val_ofRat, val_ofRat, Rat.cast_one, fl_one, Rat.cast_natCast, hf, mul_one, hf,
      e10_val, rnd_unique (n := n * 10 ^ 10) (by push_cast; norm_num)]
    push_cast
    rw [mul_div_assoc, show (10000000000 : ℝ) / 10 ^ 10 = 1 by norm_num, mul_one, hf]
  have zero : (PyNum.round10 (zeroF : F64)).1 = 0 := r10_zero val_zero
  obtain ⟨d, hd⟩ : ∃ d, readDelta s halfLine = .ok d := by
    rcases h : readDelta s halfLine with e | d
    · obtain ⟨_, k, t, h3, h4⟩ := readDelta_error h
      exact absurd h4 (hn _ (mem_of_lookup h3))
    · exact ⟨d, rfl⟩
  obtain ⟨r, hr⟩ : ∃ r, halfLine.radius Coord.zero s.conv = .ok r := by
    rcases h : halfLine.radius Coord.zero s.conv with e | r
    · obtain ⟨_, k, t, h3, h4⟩ := radius_error h
      exact absurd h4 (hn _ (mem_of_lookup h3))
    · exact ⟨r, rfl⟩
  have hdx : (d.get .x).1 = 20 := by
    rcases coordinates_okF hd .x with ⟨q, ⟨t, h1, h2⟩, h⟩ | ⟨h1, h⟩
    · cases (show t = "20".toList from (Option.some.inj h1).symm)
      cases (show q = 20 by
        have : parseFloat "20".toList = some 20 := by decide +kernel
        rw [this] at h2; exact (Option.some.inj h2).symm)
      rw [h]
      exact num 20 (by norm_num)
    · cases h1
  have hd0 : ∀ ax, ax ≠ .x → (d.get ax).1 = 0 := by
    intro ax hax
    have hl : halfLine.params.lookup (axisWord ax) = none := by
      cases ax <;> first | exact absurd rfl hax | decide
    rcases coordinates_okF hd ax with ⟨q, ⟨t, h1, h2⟩, h⟩ | ⟨h1, h⟩
    · rw [hl] at h1; cases h1
    · rw [h]
      refine r10_zero ?_
      cases ax <;> exact zero
  have hr' := hr
  unfold GCode.radius at hr'
  obtain ⟨i, hi, hr'⟩ := bindE_ok hr'
  obtain ⟨j, hj, hr'⟩ := bindE_ok hr'
  obtain ⟨k, hk, hr'⟩ := bindE_ok hr'
  cases hr'
  have hrx : ((Coord.new i j k zeroF : V4 F64).get .x).1 = 10 := by
    have : parseFloat "10".toList = some 10 := by decide +kernel
    have h : halfLine.get 'I' (Coord.zero : V4 F64).x s.conv = .ok (PyNum.ofRat 10 *ₚ s.conv) := by
      unfold GCode.get
      rw [show halfLine.lookup 'I' = some "10".toList from rfl]
      simp only [this]
    rw [h] at hi
    cases hi
    exact num 10 (by norm_num)
  have hr0 : ∀ ax, ax ≠ .x → ((Coord.new i j k zeroF : V4 F64).get ax).1 = 0 := by
    intro ax hax
    cases hj
    cases hk
    cases ax
    · exact absurd rfl hax
    all_goals refine r10_zero ?_
    · exact zero
    · exact zero
    · exact val_zero
  refine ⟨d, _, hd, hr, hdx, hrx, .inr ⟨.inl (by decide), fun ax => ?_, fun ax => ?_, hd0 .z (by decide),
    hd0 _ (by decide)⟩⟩
  · by_cases hax : ax = .x
    · rw [hax, hdx]; norm_num
    · rw [hd0 ax hax]; norm_num
  · by_cases hax : ax = .x
    · rw [hax, hrx]; norm_num
    · rw [hr0 ax hax]; norm_num

/-- The default machine and this line meet the hypotheses of C94. -/
example : AdjustingMachine Cfg.default ∧
    (∀ tr, (⟨fun _ => none, fun _ => none, fun _ => true, fun _ => none⟩ : Env F64).move tr ≠
      some (.gmachine "out of maximum speed")) ∧
    ∃ (s : MState F64) (d r : V4 F64), readDelta s halfLine = .ok d ∧
      halfLine.radius Coord.zero s.conv = .ok r ∧ StraightOrFlat s halfLine d r := by
  obtain ⟨d, r, h1, h2, -, -, h3⟩ := half_flat
  exact ⟨default_adjusting, fun _ => by simp, _, d, r, h1, h2, h3⟩

end PyCNC.Props
