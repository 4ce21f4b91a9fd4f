import Verif.Lemmas.LinearShape

/-!
# Concrete linear moves
-/

set_option linter.unusedSectionVars false

namespace PyCNC

open Spec

variable [PyRound]

theorem abs_id {d : V4 ℝ} (hg : GridV d) (h : ∀ ax, 0 ≤ d.get ax) : Coord.abs d = d := by
  refine V4.ext_get fun ax => ?_
  rw [get_abs_grid hg, abs_of_nonneg (h ax)]

/-- Nothing to adjust. -/
theorem adjustVelocity_id {c : Cfg} {w : V4 ℝ} (hg : GridV w)
    (h : ∀ ax, w.get ax * 60 ≤ c.maxVel.get ax) : adjustVelocity c w = .ok w := by
  unfold adjustVelocity
  split
  · rfl
  · have key : ∀ (k : ℝ) ax, adjustAxis k (w.get ax) (c.maxVel.get ax) = .ok k := by
      intro k ax
      unfold adjustAxis
      rw [if_neg (by simpa using h ax)]
      rfl
    have hx := key 1 .x; have hy := key 1 .y; have hz := key 1 .z; have he := key 1 .e
    simp only [V4.get] at hx hy hz he
    have e1 : (PyNum.ofRat 1 : ℝ) = 1 := by simp
    rw [e1, hx]
    change (adjustAxis 1 w.y c.maxVel.y >>= _) = _
    rw [hy]
    change (adjustAxis 1 w.z c.maxVel.z >>= _) = _
    rw [hz]
    change (adjustAxis 1 w.e c.maxVel.e >>= _) = _
    rw [he]
    change Except.ok _ = _
    congr 1
    refine V4.ext_get fun ax => ?_
    rw [get_smul, mul_one, round10_grid (hg ax)]

/-- The constructor when the velocities are known. -/
theorem linear_new_explicit {c : Cfg} {delta w : V4 ℝ} {v : ℝ} (hc : SaneCfg c)
    (hm : OrdinaryMove delta v)
    (hw : adjustVelocity c (Coord.smul (Coord.abs delta) (v / 60 / norm4 (Coord.abs delta))) = .ok w) :
    ∃ g, LinearGen.new c delta v = .ok g ∧
      (∀ ax, g.total.get ax = PyRound.rnd (|delta.get ax| * c.ppm.get ax)) ∧
      (LongMove c delta w g ∨ ShortMove c delta w g) := by
  obtain ⟨g, w', q, h1, hi, _, ht, _, h⟩ := linear_new hc hm
  have := hi.ok
  rw [hw] at this
  cases this
  exact ⟨g, h1, ht, h⟩

omit [PyRound] in
theorem default_sane (b : Bool) : SaneCfg { Cfg.default with autoVel := b } := by
  constructor <;> first | (intro ax; cases ax <;> norm_num [Cfg.default, V4.get]) | norm_num [Cfg.default]

omit [PyRound] in
theorem default_limits (b : Bool) : DecimalLimits { Cfg.default with autoVel := b } := by
  intro ax
  cases ax
  · exact ⟨400 * 10 ^ 10, by norm_num [Cfg.default, V4.get]⟩
  · exact ⟨200 * 10 ^ 10, by norm_num [Cfg.default, V4.get]⟩
  · exact ⟨10 * 10 ^ 10, by norm_num [Cfg.default, V4.get]⟩
  · exact ⟨25 * 10 ^ 10, by norm_num [Cfg.default, V4.get]⟩

/-! ## A diagonal move: 30 mm in X, 40 mm in Y at 3000 mm/min -/

/-- 30 mm in X, 40 mm in Y. -/
noncomputable def diag : V4 ℝ := ⟨30, 40, 0, 0⟩

omit [PyRound] in
theorem diag_decimal : Decimal10 diag := by
  intro ax
  cases ax
  · exact ⟨30 * 10 ^ 10, by norm_num [diag, V4.get]⟩
  · exact ⟨40 * 10 ^ 10, by norm_num [diag, V4.get]⟩
  · exact ⟨0, by norm_num [diag, V4.get]⟩
  · exact ⟨0, by norm_num [diag, V4.get]⟩

omit [PyRound] in
theorem diag_ordinary : OrdinaryMove diag 3000 := by
  refine ⟨diag_decimal, ⟨.x, by norm_num [diag, V4.get]⟩, fun ax => ?_, fun ax => ?_, by norm_num⟩ <;>
    cases ax <;> norm_num [diag, V4.get]

omit [PyRound] in
theorem norm_diag : norm4 diag = 50 := by
  have : (50 : ℝ) = √(50 ^ 2) := by rw [Real.sqrt_sq]; norm_num
  rw [this]
  unfold norm4 diag
  norm_num

theorem diag_abs : Coord.abs diag = diag :=
  abs_id diag_decimal fun ax => by cases ax <;> norm_num [diag, V4.get]

theorem diag_new : ∃ g, LinearGen.new Cfg.default diag 3000 = .ok g ∧
    g.maxV = diag ∧ g.accT = 1 / 75 ∧ g.linT = 74 / 75 + 1 / 375 ∧ g.total.y = 4000 := by
  have hw : adjustVelocity Cfg.default (Coord.smul (Coord.abs diag)
      (3000 / 60 / norm4 (Coord.abs diag))) = .ok diag := by
    rw [diag_abs, norm_diag]
    have : Coord.smul diag (3000 / 60 / 50) = diag := by
      refine V4.ext_get fun ax => ?_
      rw [get_smul]
      norm_num only
      rw [mul_one, round10_grid (diag_decimal ax)]
    rw [this]
    refine adjustVelocity_id diag_decimal fun ax => ?_
    cases ax <;> norm_num [diag, V4.get, Cfg.default]
  obtain ⟨g, h1, ht, h⟩ := linear_new_explicit (default_sane true) diag_ordinary hw
  have hmax : Coord.findMax diag = 40 := by rw [findMax_eq]; norm_num [diag]
  refine ⟨g, h1, ?_⟩
  have hty : g.total.y = 4000 := by
    have := ht .y
    simp only [V4.get] at this
    rw [this]
    have : |diag.y| * ((Cfg.default.ppm.y : ℚ) : ℝ) = ((4000 : ℤ) : ℝ) := by
      norm_num [diag, Cfg.default]
    exact (congrArg _ this).trans (rnd_int _)
  rcases h with h | h
  · refine ⟨h.maxV, ?_, ?_, hty⟩
    · rw [h.accT, hmax]; norm_num [Cfg.default]
    · rw [h.linT, hmax, diag_abs, norm_diag]; norm_num [Cfg.default]
  · have := h.cond
    rw [hmax, diag_abs, norm_diag] at this
    norm_num [Cfg.default] at this

/-- Lower bound of the position of a motor with bounded acceleration. -/
theorem Spec.Motion.lower {a : ℝ} {s v : ℝ → ℝ} (h : Motion a s v) {x y : ℝ} (hxy : x ≤ y) :
    s x + v x * (y - x) - a * (y - x) ^ 2 / 2 ≤ s y := by
  have hd : ∀ t, HasDerivAt (fun t => s t - (s x + v x * (t - x) - a * (t - x) ^ 2 / 2))
      (v t - (v x - a * (t - x))) t := by
    intro t
    have h1 : HasDerivAt (fun t => t - x) 1 t := (hasDerivAt_id t).sub_const x
    have h2 := (h1.pow 2).const_mul (a / 2)
    have h3 := h1.const_mul (v x)
    have h4 := (h.deriv t).sub ((h3.const_add (s x)).sub h2)
    refine (h4.congr_deriv ?_).congr_of_eventuallyEq (.of_eq ?_)
    · simp; ring
    · funext t; simp only [Pi.sub_apply, Pi.pow_apply]; ring
  have hmono : MonotoneOn (fun t => s t - (s x + v x * (t - x) - a * (t - x) ^ 2 / 2))
      (Set.Ici x) := by
    refine monotoneOn_of_deriv_nonneg (convex_Ici x)
      (fun t _ => (hd t).continuousAt.continuousWithinAt)
      (fun t _ => (hd t).differentiableAt.differentiableWithinAt) fun t ht => ?_
    rw [interior_Ici, Set.mem_Ioi] at ht
    rw [(hd t).deriv]
    have h1 := h.accel t x
    rw [abs_of_pos (by linarith : 0 < t - x)] at h1
    have := (abs_le.1 h1).1
    linarith
  have := hmono (Set.mem_Ici.2 le_rfl) (Set.mem_Ici.2 hxy) hxy
  simp only [sub_self, mul_zero, add_zero] at this
  norm_num at this
  linarith

/-- A motor that follows the pulses of the diagonal move has not stopped at its end. -/
theorem diag_overshoot {g : LinearGen ℝ} (hg : LinearGen.new Cfg.default diag 3000 = .ok g)
    {s v : ℝ → ℝ} (h : Motion 3000 s v)
    (hs : ∀ i : Nat, i < 4000 → s (g.at Cfg.default (g.pt Cfg.default .y i)) = (i : ℝ) / 100) :
    40 + 1 / 20 < s (Gen.linear g).totalTime := by
  obtain ⟨g', h1, h2, h3, h4, _⟩ := diag_new
  rw [h1] at hg
  cases hg
  rename LinearGen ℝ => g
  have hmax : Coord.findMax diag = 40 := by rw [findMax_eq]; norm_num [diag]
  have hk : (Gen.linear g).twoVmaxPerA Cfg.default = 2 / 75 := by
    rw [twoVmaxPerA_eq, h2, hmax]; norm_num [Cfg.default]
  have hT : (Gen.linear g).totalTime = 2 * (1 / 75) + (74 / 75 + 1 / 375) := by
    simp [Gen.totalTime, Gen.accT, Gen.linT, h3, h4]; ring
  have hp : ∀ i : Nat, g.pt Cfg.default .y i = (i : ℝ) / 4000 := by
    intro i
    unfold LinearGen.pt
    rw [h2]
    simp only [V4.get, diag, Cfg.default]
    push_cast
    rw [div_div]; norm_num
  have ht : ∀ i : Nat, 3990 < i → i < 4000 → g.at Cfg.default (g.pt Cfg.default .y i) =
      2 * (1 / 75) + (74 / 75 + 1 / 375) -
        √(1 / 75 * (1 / 75) - 2 / 75 * ((i : ℝ) / 4000 - 1 / 75 * (1 / 75) / (2 / 75) -
          (74 / 75 + 1 / 375))) := by
    intro i hi1 hi2
    rw [hp]
    unfold LinearGen.at
    rw [hk, h3, h4]
    have b1 : (3991 : ℝ) ≤ i := by exact_mod_cast hi1
    have hi0 : (0 : ℝ) ≤ (i : ℝ) / 4000 := by positivity
    rcases warp_cases (k := 2 / 75) (A := 1 / 75) (B := 74 / 75 + 1 / 375) (by norm_num)
      (by norm_num) hi0 with ⟨g1, _⟩ | ⟨_, _, g1, _⟩ | ⟨_, _, _, g1⟩
    · exfalso
      norm_num at g1
      linarith
    · exfalso
      norm_num at g1
      linarith
    · exact g1
  have ht1 := ht 3998 (by norm_num) (by norm_num)
  have ht2 := ht 3999 (by norm_num) (by norm_num)
  have hs1 := hs 3998 (by norm_num)
  have hs2 := hs 3999 (by norm_num)
  norm_num at ht1 ht2 hs1 hs2
  rw [ht1] at hs1
  rw [ht2] at hs2
  rw [← Real.sqrt_div (by norm_num)] at hs1 hs2
  have hr1 := Real.sqrt_nonneg (19 / 225000 : ℝ)
  have hr1' := Real.sq_sqrt (show (0 : ℝ) ≤ 19 / 225000 by norm_num)
  have hr2 := Real.sqrt_nonneg (7 / 90000 : ℝ)
  have hr2' := Real.sq_sqrt (show (0 : ℝ) ≤ 7 / 90000 by norm_num)
  rw [hT, show (2 * (1 / 75) + (74 / 75 + 1 / 375) : ℝ) = 127 / 125 by norm_num]
  generalize √(19 / 225000 : ℝ) = r₁ at *
  generalize √(7 / 90000 : ℝ) = r₂ at *
  have b1 : r₁ ≤ 919 / 100000 := by nlinarith
  have b2 : 8819 / 1000000 ≤ r₂ := by nlinarith
  have b3 : r₂ ≤ 882 / 100000 := by nlinarith
  have b4 : 918 / 100000 ≤ r₁ := by nlinarith
  obtain ⟨τ, hτ, hv⟩ := exists_hasDerivAt_eq_slope s v
    (show 127 / 125 - r₁ < 127 / 125 - r₂ by linarith)
    (fun t _ => (h.deriv t).continuousAt.continuousWithinAt) (fun t _ => h.deriv t)
  rw [hs1, hs2, eq_div_iff (by linarith)] at hv
  have hvt : 26 ≤ v τ := by
    by_contra hc
    push Not at hc
    nlinarith
  have h5 := h.accel (127 / 125 - r₂) τ
  rw [abs_of_pos (by linarith [hτ.2] : 0 < 127 / 125 - r₂ - τ)] at h5
  have h6 := (abs_le.1 h5).1
  have h7 : 24 ≤ v (127 / 125 - r₂) := by linarith [hτ.1]
  have h8 := h.lower (show 127 / 125 - r₂ ≤ 127 / 125 by linarith)
  rw [hs2] at h8
  nlinarith

/-! ## A short diagonal move without automatic velocity adjustment -/

/-- The default configuration with `AUTO_VELOCITY_ADJUSTMENT = False`. -/
def manualCfg : Cfg := { Cfg.default with autoVel := false }

/-- 11.52 mm in X, 15.36 mm in Y. -/
noncomputable def short : V4 ℝ := ⟨1152 / 100, 1536 / 100, 0, 0⟩

omit [PyRound] in
theorem short_decimal : Decimal10 short := by
  intro ax
  cases ax
  · exact ⟨1152 * 10 ^ 8, by norm_num [short, V4.get]⟩
  · exact ⟨1536 * 10 ^ 8, by norm_num [short, V4.get]⟩
  · exact ⟨0, by norm_num [short, V4.get]⟩
  · exact ⟨0, by norm_num [short, V4.get]⟩

omit [PyRound] in
theorem short_ordinary : OrdinaryMove short 24000 := by
  refine ⟨short_decimal, ⟨.x, by norm_num [short, V4.get]⟩, fun ax => ?_, fun ax => ?_,
    by norm_num⟩ <;>
    cases ax <;> norm_num [short, V4.get]

omit [PyRound] in
theorem norm_short : norm4 short = 192 / 10 := by
  have : (192 / 10 : ℝ) = √((192 / 10) ^ 2) := by rw [Real.sqrt_sq]; norm_num
  rw [this]
  unfold norm4 short
  norm_num

theorem short_abs : Coord.abs short = short :=
  abs_id short_decimal fun ax => by cases ax <;> norm_num [short, V4.get]

theorem short_new : ∃ g, LinearGen.new manualCfg short 24000 = .ok g ∧
    g.maxV = ⟨144, 192, 0, 0⟩ ∧ g.accT = 8 / 100 ∧ g.linT = 0 ∧ g.total.y = 1536 := by
  have hw : adjustVelocity manualCfg (Coord.smul (Coord.abs short)
      (24000 / 60 / norm4 (Coord.abs short))) = .ok ⟨240, 320, 0, 0⟩ := by
    rw [short_abs, norm_short]
    have : Coord.smul short (24000 / 60 / (192 / 10)) = ⟨240, 320, 0, 0⟩ := by
      refine V4.ext_get fun ax => ?_
      rw [get_smul]
      cases ax
      · have : Grid (240 : ℝ) := by exact_mod_cast Grid.int 240
        rw [← round10_grid this]; norm_num [short, V4.get]
      · have : Grid (320 : ℝ) := by exact_mod_cast Grid.int 320
        rw [← round10_grid this]; norm_num [short, V4.get]
      · rw [show short.get .z = 0 from rfl, zero_mul, round10_zero]; rfl
      · rw [show short.get .e = 0 from rfl, zero_mul, round10_zero]; rfl
    rw [this]
    rfl
  obtain ⟨g, h1, ht, h⟩ := linear_new_explicit (default_sane false) short_ordinary hw
  have hmax : Coord.findMax (⟨240, 320, 0, 0⟩ : V4 ℝ) = 320 := by rw [findMax_eq]; norm_num
  refine ⟨g, h1, ?_⟩
  have hty : g.total.y = 1536 := by
    have := ht .y
    simp only [V4.get] at this
    rw [this]
    have : |short.y| * ((Cfg.default.ppm.y : ℚ) : ℝ) = ((1536 : ℤ) : ℝ) := by
      norm_num [short, Cfg.default]
    exact (congrArg _ this).trans (rnd_int _)
  rcases h with h | h
  · have := h.cond
    rw [hmax, short_abs, norm_short] at this
    norm_num [Cfg.default] at this
  · have hA : g.accT = 8 / 100 := by
      have : (8 / 100 : ℝ) = √((8 / 100) ^ 2) := by rw [Real.sqrt_sq]; norm_num
      rw [h.accT, short_abs, norm_short, this]
      norm_num [Cfg.default]
    refine ⟨V4.ext_get fun ax => ?_, hA, h.linT, hty⟩
    rw [h.maxV, hA, short_abs]
    cases ax
    · have : Grid (144 : ℝ) := by exact_mod_cast Grid.int 144
      change _ = (144 : ℝ)
      rw [← round10_grid this]; norm_num [short, V4.get]
    · have : Grid (192 : ℝ) := by exact_mod_cast Grid.int 192
      change _ = (192 : ℝ)
      rw [← round10_grid this]; norm_num [short, V4.get]
    · rw [show short.get .z = 0 from rfl, zero_div, round10_zero]; rfl
    · rw [show short.get .e = 0 from rfl, zero_div, round10_zero]; rfl

/-- Two pulses of the Y axis come faster than its limit of 200 mm/s allows. -/
theorem short_fast {g : LinearGen ℝ} (hg : LinearGen.new manualCfg short 24000 = .ok g) :
    g.at manualCfg (g.pt manualCfg .y 960) - g.at manualCfg (g.pt manualCfg .y 959) <
      1 / (100 * 200) := by
  obtain ⟨g', h1, h2, h3, h4, _⟩ := short_new
  rw [h1] at hg
  cases hg
  rename LinearGen ℝ => g
  have hmax : Coord.findMax (⟨144, 192, 0, 0⟩ : V4 ℝ) = 192 := by rw [findMax_eq]; norm_num
  have hk : (Gen.linear g).twoVmaxPerA manualCfg = 16 / 125 := by
    rw [twoVmaxPerA_eq, h2, hmax]; norm_num [manualCfg, Cfg.default]
  have hp : ∀ i : Nat, g.pt manualCfg .y i = (i : ℝ) / 19200 := by
    intro i
    unfold LinearGen.pt
    rw [h2]
    simp only [V4.get, manualCfg, Cfg.default]
    push_cast
    rw [div_div]; norm_num
  have ht : ∀ i : Nat, i ≤ 960 → g.at manualCfg (g.pt manualCfg .y i) =
      √((i : ℝ) / 19200 * (16 / 125)) := by
    intro i hi
    rw [hp]
    unfold LinearGen.at
    rw [hk, h3, h4]
    unfold warp
    rw [if_pos]
    rw [Real.sqrt_le_iff]
    have : (i : ℝ) ≤ 960 := by exact_mod_cast hi
    refine ⟨by norm_num, ?_⟩
    norm_num
    linarith
  rw [ht 960 le_rfl, ht 959 (by norm_num)]
  have e : ((960 : ℕ) : ℝ) / 19200 * (16 / 125) = (8 / 100) ^ 2 := by norm_num
  rw [e, Real.sqrt_sq (by norm_num)]
  have : (7995 / 100000 : ℝ) < √(((959 : ℕ) : ℝ) / 19200 * (16 / 125)) := by
    rw [Real.lt_sqrt (by norm_num)]; norm_num
  norm_num at this ⊢
  linarith

theorem short_accepted {g : LinearGen ℝ} (hg : LinearGen.new manualCfg short 24000 = .ok g) (ax : Axis) :
    (Gen.linear g).maxVelocity.get ax ≤ manualCfg.maxVel.get ax := by
  obtain ⟨g', h1, h2, _⟩ := short_new
  rw [h1] at hg
  cases hg
  rename LinearGen ℝ => g
  unfold Gen.maxVelocity
  rw [get_smul]
  change PyNum.round10 (g.maxV.get ax * secInMin) ≤ _
  rw [h2, secInMin_eq]
  cases ax
  · have : Grid (24000 : ℝ) := by exact_mod_cast Grid.int 24000
    have := round10_le_grid this (x := 144 * 60) (by norm_num)
    simpa [V4.get, manualCfg, Cfg.default] using this
  · have : Grid (12000 : ℝ) := by exact_mod_cast Grid.int 12000
    have := round10_le_grid this (x := 192 * 60) (by norm_num)
    simpa [V4.get, manualCfg, Cfg.default] using this
  · have : Grid (600 : ℝ) := by exact_mod_cast Grid.int 600
    have := round10_le_grid this (x := 0 * 60) (by norm_num)
    simp [V4.get, manualCfg, Cfg.default]
  · have : Grid (1500 : ℝ) := by exact_mod_cast Grid.int 1500
    have := round10_le_grid this (x := 0 * 60) (by norm_num)
    simp [V4.get, manualCfg, Cfg.default]

/-! ## A move with a huge amount of filament -/

/-- 0.01 mm in X, 10^10 mm of filament. -/
noncomputable def hugeE : V4 ℝ := ⟨1 / 100, 0, 0, 10 ^ 10⟩

omit [PyRound] in
theorem hugeE_decimal : Decimal10 hugeE := by
  intro ax
  cases ax
  · exact ⟨10 ^ 8, by norm_num [hugeE, V4.get]⟩
  · exact ⟨0, by norm_num [hugeE, V4.get]⟩
  · exact ⟨0, by norm_num [hugeE, V4.get]⟩
  · exact ⟨10 ^ 20, by norm_num [hugeE, V4.get]⟩

theorem hugeE_abs : Coord.abs hugeE = hugeE :=
  abs_id hugeE_decimal fun ax => by cases ax <;> norm_num [hugeE, V4.get]

/-- The X velocity is rounded to zero. -/
theorem hugeE_new : ∃ g, LinearGen.new Cfg.default hugeE 600 = .ok g ∧ g.maxV.x = 0 ∧
    g.total.x = 1 ∧ ∀ ax, g.maxV.get ax ≤ (Cfg.default.maxVel.get ax : ℝ) / 60 := by
  set L := norm4 hugeE with hL
  have hLsq := norm4_sq hugeE
  have hL0 := norm4_nonneg hugeE
  rw [← hL] at hLsq hL0
  have hL1 : 10 ^ 10 ≤ L := by
    have := abs_le_norm4 hugeE .e
    rw [← hL] at this
    norm_num [hugeE, V4.get] at this ⊢
    linarith
  have hL2 : L ≤ 10 ^ 11 := by
    refine le_of_sq_le_sq ?_ (by norm_num)
    rw [hLsq]; norm_num [hugeE]
  set w := Coord.smul hugeE (600 / 60 / L) with hw
  have hLpos : 0 < L := lt_of_lt_of_le (by norm_num) hL1
  have hwx : w.x = 0 := by
    have : w.get .x = 0 := by
      rw [hw, get_smul]
      have h1 : PyRound.rnd (hugeE.get .x * (600 / 60 / L) * E10) = 0 := by
        refine rnd_unique ?_
        have h0 : 0 ≤ hugeE.get .x * (600 / 60 / L) * E10 := by
          have := E10_pos
          have : 0 ≤ hugeE.get .x := by norm_num [hugeE, V4.get]
          positivity
        rw [Int.cast_zero, sub_zero, abs_of_nonneg h0, e10_val]
        have : hugeE.get .x * (600 / 60 / L) * 10 ^ 10 = 10 ^ 9 / L := by
          simp only [hugeE, V4.get]; field_simp; norm_num
        rw [this, div_lt_iff₀ hLpos]
        linarith
      rw [round10_eq, h1]; simp
    exact this
  have hwg : GridV w := gridV_new _ _ _ _
  have hwe : w.get .e ≤ 10 := by
    rw [hw, get_smul]
    have : Grid (10 : ℝ) := by exact_mod_cast Grid.int 10
    refine round10_le_grid this ?_
    simp only [hugeE, V4.get]
    rw [mul_div_assoc', div_le_iff₀ hLpos]
    linarith
  have hwe0 : 1 / 2 ≤ w.get .e := by
    rw [hw, get_smul]
    have : Grid (1 / 2 : ℝ) := ⟨5 * 10 ^ 9, by norm_num [E10]⟩
    refine le_round10_grid this ?_
    simp only [hugeE, V4.get]
    rw [mul_div_assoc', le_div_iff₀ hLpos]
    linarith
  have hwy : w.get .y = 0 := by
    rw [hw, get_smul, show hugeE.get .y = 0 from rfl, zero_mul, round10_zero]
  have hwz : w.get .z = 0 := by
    rw [hw, get_smul, show hugeE.get .z = 0 from rfl, zero_mul, round10_zero]
  have hlim : ∀ ax, w.get ax * 60 ≤ (Cfg.default.maxVel.get ax : ℝ) := by
    intro ax
    cases ax
    · change w.x * 60 ≤ _
      rw [hwx]; norm_num [Cfg.default, V4.get]
    · rw [hwy]; norm_num [Cfg.default, V4.get]
    · rw [hwz]; norm_num [Cfg.default, V4.get]
    · norm_num [Cfg.default, V4.get] at hwe ⊢
      linarith
  have hadj : adjustVelocity Cfg.default w = .ok w := adjustVelocity_id hwg hlim
  have hmax : Coord.findMax w = w.get .e := by
    have hy : w.y = 0 := hwy
    have hz : w.z = 0 := hwz
    rw [findMax_eq, hwx, hy, hz]
    simp only [max_self]
    exact max_eq_right (by change 0 ≤ w.get .e; linarith)
  have hW : norm4 w ≠ 0 := by
    have := abs_le_norm4 w .e
    have h2 := le_abs_self (w.get .e)
    intro h; linarith
  have e1 : pdiv (600 /ₚ secInMin) L = .ok (600 / 60 / L) := by
    rw [pdiv_ok hLpos.ne']; simp
  have htot : PyNum.roundI ((Coord.abs hugeE).x *ₚ PyNum.ofRat Cfg.default.ppm.x) = 1 := by
    rw [hugeE_abs]
    have : hugeE.x * ((Cfg.default.ppm.x : ℚ) : ℝ) = ((1 : ℤ) : ℝ) := by
      norm_num [hugeE, Cfg.default]
    exact (congrArg _ this).trans (rnd_int _)
  refine ⟨⟨hugeE, w, Coord.findMax w / Cfg.default.accel,
    (L - Coord.findMax w / Cfg.default.accel * (Coord.findMax w / Cfg.default.accel) *
      Cfg.default.accel) / norm4 w,
    ⟨PyNum.roundI (hugeE.x *ₚ PyNum.ofRat Cfg.default.ppm.x),
     PyNum.roundI (hugeE.y *ₚ PyNum.ofRat Cfg.default.ppm.y),
     PyNum.roundI (hugeE.z *ₚ PyNum.ofRat Cfg.default.ppm.z),
     PyNum.roundI (hugeE.e *ₚ PyNum.ofRat Cfg.default.ppm.e)⟩,
    ⟨sign1 hugeE.x, sign1 hugeE.y, sign1 hugeE.z, sign1 hugeE.e⟩⟩, ?_, hwx, ?_,
    fun ax => (le_div_iff₀ (by norm_num)).2 (hlim ax)⟩
  · unfold LinearGen.new
    simp only [length_eq]
    rw [hugeE_abs, ← hL, e1]
    change (adjustVelocity Cfg.default w >>= _) = _
    rw [hadj]
    change (if _ then _ else _) = _
    rw [if_neg, pdiv_ok hW]
    · rfl
    · rw [hmax]
      simp only [lt_iff, mul_eq, div_eq, ofRat_eq, not_lt]
      norm_num [Cfg.default]
      nlinarith
  · rw [hugeE_abs] at htot; exact htot

/-- Iterating raises an exception at once. -/
theorem hugeE_raises {g : LinearGen ℝ} (h0 : g.maxV.x = 0) (h1 : g.total.x = 1) (n : Nat) :
    (Gen.linear g).run Cfg.default (n + 1) .init = ([], .raised .zeroDiv) := by
  have hx : linearTime 0 Cfg.default.ppm.x g.total.x g.maxV.x = .error .zeroDiv := by
    unfold linearTime
    rw [h1, h0, if_neg (by norm_num)]
    unfold pdiv
    rw [if_pos (by simp)]
    rfl
  have hi : (Gen.linear g).interp Cfg.default ⟨0, 0, 0, 0⟩ = .error .zeroDiv := by
    change LinearGen.interp Cfg.default g ⟨0, 0, 0, 0⟩ = _
    unfold LinearGen.interp
    simp only
    rw [hx]
    rfl
  rcases next_cases Cfg.default (.linear g) .init with ⟨e, h2, h3⟩ | ⟨d, t, h2, _⟩
  · change (Gen.linear g).interp Cfg.default ⟨0, 0, 0, 0⟩ = _ at h2
    rw [hi] at h2
    cases h2
    simp [Gen.run, h3]
  · change (Gen.linear g).interp Cfg.default ⟨0, 0, 0, 0⟩ = _ at h2
    rw [hi] at h2
    cases h2

end PyCNC
