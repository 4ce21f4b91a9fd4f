import Verif.Lemmas.LinearWitness
import Verif.Lemmas.LinearCheck
import Verif.Lemmas.MachineExact

/-!
# Properties C28–C33: linear moves

Exact arithmetic, for every nearest-integer rounding (`PyRound`), except for
`C28_any_arithmetic_partial`, which holds for binary64 too.  `SaneCfg` and `OrdinaryMove`
describe configurations and moves of realistic size; `C28_refuted` shows what happens beyond.
-/

namespace PyCNC.Props

open PyCNC Spec

/-! ## C28 -/

/-- **C28.** The generator of a linear move emits one announcement of the directions, then for
each axis exactly `round(|delta| * pulses_per_mm)` step pulses, all in the direction of `delta`,
and stops. -/
theorem C28_linear_pulses [PyRound] {c : Cfg} {delta : V4 ℝ} {v : ℝ} (hc : SaneCfg c)
    (hm : OrdinaryMove delta v) :
    ∃ g evs, LinearGen.new c delta v = .ok g ∧ Emits c (.linear g) evs ∧
      (∃ d r, evs = .dir d :: r ∧ ∀ ev ∈ r, ¬ IsDir ev) ∧
      (∀ ax, (steps ax evs : ℤ) = PyRound.rnd (|delta.get ax| * c.ppm.get ax)) ∧
      ∀ ax, netSteps c ax evs =
        if delta.get ax < 0 then -(steps ax evs : ℤ) else (steps ax evs : ℤ) := by
  obtain ⟨g, w, q, h1, _, _, ht, hdir, _⟩ := linear_new hc hm
  have hlf := linear_facts hc hm h1
  obtain ⟨r, he, _, hp, hst, _, _⟩ := good_emits hlf.good
  refine ⟨g, _, h1, he, ⟨_, r, rfl, fun ev hev => ?_⟩, fun ax => ?_, fun ax => ?_⟩
  · obtain ⟨t, rfl⟩ := hp ev hev
    exact id
  · have e : steps ax (Event.dir (invertDirs c g.dir) :: r) = steps ax r := rfl
    rw [e, hst ax, ht ax, Int.toNat_of_nonneg]
    rw [← rnd_zero]
    have hP : (0 : ℝ) < c.ppm.get ax := by exact_mod_cast hc.ppm_pos ax
    exact rnd_mono (by positivity)
  · obtain ⟨N, hN⟩ := he
    have h2 := linear_run_net c g N ax
    rw [hN N le_rfl] at h2
    rw [h2, hdir]
    split <;> simp

/-- **C28** in any arithmetic, for any configuration: whenever the iteration stops, the number of
pulses is `round(|delta| * pulses_per_mm)` as computed, and their direction is that of `delta`.
Missing here: that the iteration stops, which needs exact arithmetic (`C28_linear_pulses`). -/
theorem C28_any_arithmetic_partial {F : Type} [PyNum F] {c : Cfg} {delta : V4 F} {v : F}
    {g : LinearGen F} (h : LinearGen.new c delta v = .ok g) (n : Nat) (evs : List (Event F))
    (he : (Gen.linear g).run c n .init = (evs, .done)) (ax : Axis) :
    steps ax evs = (PyNum.roundI ((Coord.abs delta).get ax *ₚ PyNum.ofRat (c.ppm.get ax))).toNat ∧
    netSteps c ax evs = sign1 (delta.get ax) * steps ax evs := by
  obtain ⟨htot, hdir⟩ := linear_new_total h ax
  have h1 := (linear_run_steps c g n .init ax (by cases ax <;> exact Nat.zero_le _)).2
  have h2 := linear_run_net c g n ax
  rw [he] at h1 h2
  have h3 := h1 rfl
  have h0 : GenState.init.it.get ax = 0 := by cases ax <;> rfl
  rw [h0, Nat.zero_add] at h3
  rw [← htot, ← hdir]
  exact ⟨h3, h2⟩

/-- **C28** beyond realistic sizes: with 10^10 mm of filament (E is not limited by the machine) a
move of one X step crashes with `ZeroDivisionError` before the first pulse. -/
theorem C28_refuted [PyRound] :
    ∃ (delta : V4 ℝ) (v : ℝ) (g : LinearGen ℝ), Decimal10 delta ∧ delta.x = 1 / 100 ∧ v = 600 ∧
      LinearGen.new Cfg.default delta v = .ok g ∧
      ∀ n, (Gen.linear g).run Cfg.default (n + 1) .init = ([], .raised .zeroDiv) := by
  obtain ⟨g, h1, h2, h3, -⟩ := hugeE_new
  exact ⟨hugeE, 600, g, hugeE_decimal, rfl, rfl, h1, hugeE_raises h2 h3⟩

/-- A diagonal move with the default configuration meets the hypotheses. -/
example : SaneCfg Cfg.default ∧ OrdinaryMove ⟨30, 40, 0, 0⟩ 3000 :=
  ⟨default_sane true, diag_ordinary⟩

/-! ## C29 -/

/-- **C29.** Pulse events are ordered in time, all pulses of one event have the same time, the
times of successive pulses of one axis strictly increase, and all times are between 0 and
`total_time_s()`. -/
theorem C29_ordered [PyRound] {c : Cfg} {delta : V4 ℝ} {v : ℝ} (hc : SaneCfg c)
    (hm : OrdinaryMove delta v) {g : LinearGen ℝ} (hg : LinearGen.new c delta v = .ok g)
    {evs : List (Event ℝ)} (he : Emits c (.linear g) evs) :
    (∀ ev ∈ evs, ¬ IsDir ev → ∃ τ, StepsAt τ ev) ∧
    (evs.Pairwise fun e₁ e₂ => ∀ τ₁ τ₂, StepsAt τ₁ e₁ → StepsAt τ₂ e₂ → τ₁ ≤ τ₂) ∧
    (∀ ax, (stepTimes ax evs).Pairwise (· < ·)) ∧
    ∀ ax, ∀ τ ∈ stepTimes ax evs, 0 ≤ τ ∧ τ ≤ (Gen.linear g).totalTime := by
  have hlf := linear_facts hc hm hg
  obtain ⟨r, he', _, hp, _, hti, hso⟩ := good_emits hlf.good
  cases emits_unique he he'
  have e : ∀ ax, stepTimes ax (Event.dir (invertDirs c g.dir) :: r) = stepTimes ax r :=
    fun ax => rfl
  refine ⟨?_, ?_, fun ax => ?_, fun ax τ hτ => ?_⟩
  · obtain ⟨N, hN⟩ := he
    have h1 := run_stepsAt c (.linear g) N .init
    rw [hN N le_rfl] at h1
    exact h1
  · refine List.Pairwise.cons (fun ev hev τ₁ τ₂ h1 => ?_) hso
    exact h1.elim
  · rw [e, hti ax, List.pairwise_map]
    refine List.pairwise_lt_range.imp_of_mem ?_
    intro i j _ hj hij
    rw [List.mem_range] at hj
    have hmv : 0 < g.maxV.get ax := hlf.good.moving ax (by omega)
    have h1 := warp_gap hlf.k_pos hlf.good.accT hlf.good.linT hlf.shape (pt_nonneg hlf.good ax i)
      (pt_lt hlf.good ax hij hmv).le (hlf.ends ax j hj)
    have h2 := pt_lt hlf.good ax hij hmv
    unfold LinearGen.at
    by_contra hcon
    push Not at hcon
    have h3 : 0 ≤ 2 * g.accT / (Gen.linear g).twoVmaxPerA c :=
      div_nonneg (by have := hlf.good.accT; linarith) hlf.k_pos.le
    have h4 := mul_nonpos_of_nonneg_of_nonpos h3 (sub_nonpos.2 hcon)
    linarith
  · rw [e, hti ax, List.mem_map] at hτ
    obtain ⟨i, _, rfl⟩ := hτ
    have h0 := pt_nonneg hlf.good ax i
    refine ⟨warp_nonneg hlf.k_pos.le hlf.good.accT hlf.good.linT h0, ?_⟩
    have h1 := warp_le_total hlf.k_pos.le hlf.good.accT hlf.good.linT h0
    have hT : (Gen.linear g).totalTime = 2 * g.accT + g.linT := by
      simp [Gen.totalTime, Gen.accT, Gen.linT]; ring
    rw [hT]
    exact h1

/-! ## C30 -/

/-- **C30.** With automatic velocity adjustment two successive step pulses of an axis are at
least as far apart as they are at its maximum velocity. -/
theorem C30_step_rate [PyRound] {c : Cfg} {delta : V4 ℝ} {v : ℝ} (hc : SaneCfg c)
    (hd : DecimalLimits c) (ha : c.autoVel = true) (hm : OrdinaryMove delta v) {g : LinearGen ℝ}
    (hg : LinearGen.new c delta v = .ok g) {evs : List (Event ℝ)}
    (he : Emits c (.linear g) evs) (ax : Axis) (i : Nat) (τ₁ τ₂ : ℝ)
    (h1 : (stepTimes ax evs)[i]? = some τ₁) (h2 : (stepTimes ax evs)[i + 1]? = some τ₂) :
    1 / ((c.ppm.get ax : ℝ) * ((c.maxVel.get ax : ℝ) / 60)) ≤ τ₂ - τ₁ := by
  have hlf := linear_facts hc hm hg
  obtain ⟨r, he', _, hp, _, hti, _⟩ := good_emits hlf.good
  cases emits_unique he he'
  have e : stepTimes ax (Event.dir (invertDirs c g.dir) :: r) = stepTimes ax r := rfl
  rw [e, hti ax] at h1 h2
  rw [List.getElem?_map] at h1 h2
  have hlt : i + 1 < (g.total.get ax).toNat := by
    by_contra hcon
    rw [List.getElem?_eq_none (by simpa using hcon)] at h2
    cases h2
  rw [List.getElem?_range hlt] at h2
  rw [List.getElem?_range (by omega)] at h1
  cases h1
  cases h2
  exact linear_gap hc hd ha hm hg ax hlt

example : SaneCfg Cfg.default ∧ DecimalLimits Cfg.default ∧ Cfg.default.autoVel = true ∧
    OrdinaryMove ⟨30, 40, 0, 0⟩ 3000 := ⟨default_sane true, default_limits true, rfl, diag_ordinary⟩

/-! ## C31 -/

/-- **C31.** After every event the pulses done so far are within one step per axis of a point of
the straight segment from start to end; velocities are rounded to ten digits, which adds at most
10^-10 mm per second of the move. -/
theorem C31_straight [PyRound] {c : Cfg} {delta : V4 ℝ} {v : ℝ} (hc : SaneCfg c)
    (hm : OrdinaryMove delta v) {g : LinearGen ℝ} (hg : LinearGen.new c delta v = .ok g)
    {evs : List (Event ℝ)} (he : Emits c (.linear g) evs) (n : Nat) :
    ∃ lam : ℝ, 0 ≤ lam ∧ lam ≤ 1 ∧ ∀ ax,
      |(steps ax (evs.take n) : ℝ) - lam * (|delta.get ax| * c.ppm.get ax)| ≤
        1 + 1 / 10 ^ 10 * (Gen.linear g).totalTime * c.ppm.get ax := by
  have hlf := linear_facts hc hm hg
  obtain ⟨r, he', hpre, _⟩ := good_emits hlf.good
  cases emits_unique he he'
  cases n with
  | zero =>
    refine ⟨0, le_rfl, zero_le_one, fun ax => ?_⟩
    have hP : (0 : ℝ) < c.ppm.get ax := by exact_mod_cast hc.ppm_pos ax
    have hT : (Gen.linear g).totalTime = 2 * g.accT + g.linT := by
      simp [Gen.totalTime, Gen.accT, Gen.linT]; ring
    have := hlf.good.accT
    have := hlf.good.linT
    simp only [List.take_zero, steps, stepTimes, List.length_nil, Nat.cast_zero, zero_mul,
      sub_zero, abs_zero]
    rw [hT]
    positivity
  | succ n =>
    obtain ⟨N, hN⟩ := hpre n
    obtain ⟨lam, h0, h1, h⟩ := linear_straight hc hm hg N
    refine ⟨lam, h0, h1, fun ax => ?_⟩
    have h2 := h ax
    rw [← hN, mul_assoc, mul_assoc, mul_comm (c.ppm.get ax : ℝ) (Gen.totalTime _),
      ← mul_assoc (1 / 10 ^ 10 : ℝ)] at h2
    exact h2

/-! ## C32 -/

/-- **C32** with automatic adjustment: a linear move into the table is never rejected for its
speed, it is handed to the HAL, and no axis is faster than its limit.  Missing: circular moves
(`C32_circular_refuted`). -/
theorem C32_adjusted_partial [PyRound] {c : Cfg} (env : Env ℝ) {delta : V4 ℝ} {v : ℝ}
    (hc : SaneCfg c) (hd : DecimalLimits c) (ha : c.autoVel = true)
    (hm : OrdinaryMove (roundToSteps c delta) v) (s : MState ℝ)
    (hin : checkDelta c s.pos (roundToSteps c delta) = .ok ()) :
    ∃ g, (∀ ax, g.maxV.get ax ≤ (c.maxVel.get ax : ℝ) / 60) ∧
      (moveLinear c env delta v s).2.trace = .move (.linear g) :: s.trace := by
  obtain ⟨g, _, _, h1, _⟩ := linear_new hc hm
  have hlim := linear_limit hc hd ha hm h1
  have hcv := checkVelocity_of_le hd hlim
  refine ⟨g, hlim, ?_⟩
  rcases moveLinear_cases (c := c) (env := env) delta v s with ⟨hz, _⟩ | ⟨_, e, _, h | h | ⟨g', h2, h3⟩⟩ |
    ⟨_, g', _, h2, _, ⟨e, _, h⟩ | ⟨_, h⟩⟩
  · obtain ⟨ax, hax⟩ := hm.some
    exact absurd ((isZero_iff _).1 hz ax) hax
  · rw [hin] at h; cases h
  · rw [h1] at h; cases h
  · rw [h1] at h2; cases h2
    rw [hcv] at h3; cases h3
  · rw [h1] at h2; cases h2
    rw [h]
  · rw [h1] at h2; cases h2
    rw [h]

/-- **C32** without adjustment, for moves long enough to reach the programmed speed: the
velocities are the programmed ones, so a move with all of them within the limits passes the
check, and one with an axis above its limit (by more than rounding) is rejected.  Missing: short
moves (`C32_manual_refuted`). -/
theorem C32_manual_partial [PyRound] {c : Cfg} {delta : V4 ℝ} {v : ℝ} (hc : SaneCfg c)
    (hd : DecimalLimits c) (ha : c.autoVel = false) (hm : OrdinaryMove delta v)
    (hlong : ∀ ax, (v / 60 * |delta.get ax| / norm4 delta + 1 / 10 ^ 10) ^ 2 ≤
      c.accel * norm4 delta) :
    ∃ g, LinearGen.new c delta v = .ok g ∧
      (∀ ax, |g.maxV.get ax - v / 60 * |delta.get ax| / norm4 delta| ≤ 1 / 10 ^ 10) ∧
      ((∀ ax, v * |delta.get ax| / norm4 delta ≤ c.maxVel.get ax) →
        checkVelocity c (Gen.linear g).maxVelocity = .ok ()) ∧
      ((∃ ax, c.maxVel.get ax + 1 / 10 ^ 8 < v * |delta.get ax| / norm4 delta) →
        checkVelocity c (Gen.linear g).maxVelocity = .error (.gmachine "out of maximum speed")) :=
  linear_manual hc hd ha hm hlong

/-- **C32** without adjustment is false for short diagonal moves: with the default configuration
and `AUTO_VELOCITY_ADJUSTMENT = False` the move X11.52 Y15.36 at F24000 is accepted, but steps Y
faster than its limit of 200 mm/s. -/
theorem C32_manual_refuted [PyRound] :
    ∃ (c : Cfg) (delta : V4 ℝ) (v : ℝ) (g : LinearGen ℝ) (evs : List (Event ℝ)) (τ₁ τ₂ : ℝ),
      c = { Cfg.default with autoVel := false } ∧
      delta = ⟨1152 / 100, 1536 / 100, 0, 0⟩ ∧ v = 24000 ∧
      LinearGen.new c delta v = .ok g ∧ checkVelocity c (Gen.linear g).maxVelocity = .ok () ∧
      Emits c (.linear g) evs ∧ (stepTimes .y evs)[959]? = some τ₁ ∧
      (stepTimes .y evs)[960]? = some τ₂ ∧
      τ₂ - τ₁ < 1 / ((c.ppm.get .y : ℝ) * ((c.maxVel.get .y : ℝ) / 60)) := by
  obtain ⟨g, h1, _, _, _, h5⟩ := short_new
  have hlf := linear_facts (c := manualCfg) (default_sane false) short_ordinary h1
  obtain ⟨r, he, _, _, _, hti, _⟩ := good_emits hlf.good
  have e : stepTimes .y (Event.dir (invertDirs manualCfg g.dir) :: r) = stepTimes .y r := rfl
  have htn : (g.total.get .y).toNat = 1536 := by
    change g.total.y.toNat = _
    rw [h5]; rfl
  refine ⟨manualCfg, short, 24000, g, _, g.at manualCfg (g.pt manualCfg .y 959),
    g.at manualCfg (g.pt manualCfg .y 960), rfl, rfl, rfl, h1, ?_, he, ?_, ?_, ?_⟩
  · exact checkVelocity_ok_iff.2 (short_accepted h1)
  · rw [e, hti, htn, List.getElem?_map, List.getElem?_range (by norm_num)]; rfl
  · rw [e, hti, htn, List.getElem?_map, List.getElem?_range (by norm_num)]; rfl
  · have := short_fast h1
    have e2 : (1 : ℝ) / ((manualCfg.ppm.get .y : ℝ) * ((manualCfg.maxVel.get .y : ℝ) / 60)) =
        1 / (100 * 200) := by norm_num [manualCfg, Cfg.default, V4.get]
    rw [e2]; exact this

/-- A long move without adjustment. -/
example : DecimalLimits { Cfg.default with autoVel := false } ∧
    ∀ ax, (3000 / 60 * |(⟨30, 40, 0, 0⟩ : V4 ℝ).get ax| / norm4 ⟨30, 40, 0, 0⟩ + 1 / 10 ^ 10) ^ 2 ≤
      (({ Cfg.default with autoVel := false } : Cfg).accel : ℝ) * norm4 ⟨30, 40, 0, 0⟩ := by
  refine ⟨default_limits false, fun ax => ?_⟩
  rw [show norm4 ⟨30, 40, 0, 0⟩ = 50 from norm_diag]
  cases ax <;> norm_num [V4.get, Cfg.default]

/-! ## C33 -/

/-- **C33.** Every axis can follow the pulses with an acceleration within the limit, starting at
rest; the last part of a move of one axis brings it to rest at its target.  Missing: moves of
several axes do not end at rest (`C33_refuted`). -/
theorem C33_acceleration_partial [PyRound] {c : Cfg} {delta : V4 ℝ} {v : ℝ} (hc : SaneCfg c)
    (hm : OrdinaryMove delta v) {g : LinearGen ℝ} (hg : LinearGen.new c delta v = .ok g)
    {evs : List (Event ℝ)} (he : Emits c (.linear g) evs) (ax : Axis) :
    ∃ s u : ℝ → ℝ, Motion c.accel s u ∧ s 0 = 0 ∧ u 0 = 0 ∧
      (∀ (i : ℕ) (τ : ℝ), (stepTimes ax evs)[i]? = some τ → s τ = i / c.ppm.get ax) ∧
      ((∀ ax', ax' ≠ ax → delta.get ax' = 0) →
        s (Gen.linear g).totalTime = |delta.get ax| ∧ u (Gen.linear g).totalTime = 0) := by
  have hlf := linear_facts hc hm hg
  obtain ⟨r, he', _, _, _, hti, _⟩ := good_emits hlf.good
  cases emits_unique he he'
  have e : stepTimes ax (Event.dir (invertDirs c g.dir) :: r) = stepTimes ax r := rfl
  refine ⟨g.where c ax, g.speed c ax, linear_motion hlf ax, (linear_starts hlf ax).1,
    (linear_starts hlf ax).2, fun i τ hτ => ?_, fun hs => ?_⟩
  · rw [e, hti ax, List.getElem?_map] at hτ
    have hlt : i < (g.total.get ax).toNat := by
      by_contra hcon
      rw [List.getElem?_eq_none (by simpa using hcon)] at hτ
      cases hτ
    rw [List.getElem?_range hlt] at hτ
    cases hτ
    exact linear_where_pulse hlf ax hlt
  · have hT : (Gen.linear g).totalTime = 2 * g.accT + g.linT := by
      simp [Gen.totalTime, Gen.accT, Gen.linT]; ring
    rw [hT]
    exact linear_single_ends hc hm hg hs

/-- **C33** is false for moves of several axes: whatever follows the pulses of the Y axis of the
move X30 Y40 at F3000 with the configured acceleration is more than five steps past its target
at the end of the move. -/
theorem C33_refuted [PyRound] :
    ∃ (g : LinearGen ℝ) (evs : List (Event ℝ)),
      LinearGen.new Cfg.default ⟨30, 40, 0, 0⟩ 3000 = .ok g ∧ Emits Cfg.default (.linear g) evs ∧
      ∀ s u : ℝ → ℝ, Motion Cfg.default.accel s u →
        (∀ (i : ℕ) (τ : ℝ), (stepTimes .y evs)[i]? = some τ → s τ = i / Cfg.default.ppm.y) →
        40 + 5 / Cfg.default.ppm.y < s (Gen.linear g).totalTime := by
  obtain ⟨g, h1, _, _, _, h5⟩ := diag_new
  have hlf := linear_facts (c := Cfg.default) (default_sane true) diag_ordinary h1
  obtain ⟨r, he, _, _, _, hti, _⟩ := good_emits hlf.good
  have e : stepTimes .y (Event.dir (invertDirs Cfg.default g.dir) :: r) = stepTimes .y r := rfl
  have htn : (g.total.get .y).toNat = 4000 := by
    change g.total.y.toNat = _
    rw [h5]; rfl
  refine ⟨g, _, h1, he, fun s u hsu hs => ?_⟩
  have h6 : ((Cfg.default.accel : ℚ) : ℝ) = 3000 := by norm_num [Cfg.default]
  have h7 : ((Cfg.default.ppm.y : ℚ) : ℝ) = 100 := by norm_num [Cfg.default]
  rw [h6] at hsu
  have := diag_overshoot h1 hsu fun i hi => by
    rw [← h7]
    refine hs i _ ?_
    rw [e, hti, htn, List.getElem?_map, List.getElem?_range hi]; rfl
  rw [h7]
  linarith

/-- A move of one axis. -/
example : OrdinaryMove ⟨100, 0, 0, 0⟩ 3000 ∧
    ∀ ax', ax' ≠ Axis.x → (⟨100, 0, 0, 0⟩ : V4 ℝ).get ax' = 0 := by
  refine ⟨⟨fun ax => ?_, ⟨.x, by norm_num [V4.get]⟩, fun ax => ?_, fun ax => ?_, by norm_num⟩,
    fun ax => ?_⟩
  · cases ax
    · exact ⟨100 * 10 ^ 10, by norm_num [V4.get]⟩
    all_goals exact ⟨0, by norm_num [V4.get]⟩
  all_goals cases ax <;> norm_num [V4.get]

end PyCNC.Props
