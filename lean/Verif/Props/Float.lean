import Verif.Lemmas.Crash64
import Verif.Props.Linear

/-!
# Properties C58, C63 and C36 with binary64 arithmetic

Every statement here is about `F64`: each operation is the exact one followed by rounding to the
nearest number with a 53 bit significand.
-/

set_option linter.unusedSectionVars false

namespace PyCNC.Props

open PyCNC Spec

variable [PyRound]

/-! ## C58 -/

/-- **C58**, linear moves.  A displacement `d` that is nearly a whole number of steps `n ax` on
every axis (0.499 steps are allowed as error), rounded to steps as the machine does: the generator
exists, its iteration ends without an exception, sends exactly `|n ax|` pulses per axis and moves
every axis by exactly `n ax` steps. -/
theorem C58_linear {c : Cfg} (hc : SaneCfg c) {d : V4 F64} {n : V4 ℤ} {v : F64}
    (hn : ∀ ax, |(n.get ax : ℝ)| ≤ 10 ^ 4 * c.ppm.get ax)
    (hd : ∀ ax, |(d.get ax).1 * c.ppm.get ax - n.get ax| ≤ 499 / 1000)
    (h0 : ∃ ax, n.get ax ≠ 0) (hv : 1 ≤ v.1) :
    ∃ g evs, LinearGen.new c (roundToSteps c d) v = .ok g ∧ Emits c (.linear g) evs ∧
      ∀ ax, (steps ax evs : ℤ) = |n.get ax| ∧ netSteps c ax evs = n.get ax := by
  have hs := roundToSteps64 hc hn hd
  obtain ⟨g, hg, hgood⟩ := linear64_new hc hs h0 hv
  obtain ⟨evs, N, hN⟩ := linear64_done hgood
  refine ⟨g, evs, hg, ⟨N, hN⟩, fun ax => ?_⟩
  obtain ⟨h1, h2⟩ := C28_any_arithmetic_partial hg N evs (hN N le_rfl) ax
  rw [total64 hc hs ax] at h1
  have h3 : (steps ax evs : ℤ) = |n.get ax| := by
    rw [h1, Int.toNat_of_nonneg (abs_nonneg _)]
  refine ⟨h3, ?_⟩
  rw [h2, h3, sign64 hc hs ax]

/-- **C58** for the default configuration: all moves of up to 10^6 steps per axis, given as the
nearest binary64 number to the position of the step. -/
theorem C58_linear_default {n : V4 ℤ} {v : F64} (hn : ∀ ax, |n.get ax| ≤ 10 ^ 6)
    (h0 : ∃ ax, n.get ax ≠ 0) (hv : 1 ≤ v.1) {d : V4 F64}
    (hd : ∀ ax, d.get ax = F64.of (n.get ax / Cfg.default.ppm.get ax)) :
    ∃ g evs, LinearGen.new Cfg.default (roundToSteps Cfg.default d) v = .ok g ∧
      Emits Cfg.default (.linear g) evs ∧
      ∀ ax, (steps ax evs : ℤ) = |n.get ax| ∧ netSteps Cfg.default ax evs = n.get ax := by
  have hp : ∀ ax, (100 : ℝ) ≤ Cfg.default.ppm.get ax ∧ (Cfg.default.ppm.get ax : ℝ) ≤ 400 := by
    intro ax; cases ax <;> norm_num [Cfg.default, V4.get]
  have hn' : ∀ ax, |(n.get ax : ℝ)| ≤ 10 ^ 6 := fun ax => by exact_mod_cast hn ax
  refine C58_linear (c := Cfg.default) (default_sane true) (fun ax => ?_) (fun ax => ?_) h0 hv
  · have := (hp ax).1
    have := hn' ax
    linarith
  · rw [hd ax]
    obtain ⟨p1, p2⟩ := hp ax
    have hq := hn' ax
    generalize (n.get ax : ℝ) = m at hq ⊢
    generalize (Cfg.default.ppm.get ax : ℝ) = p at p1 p2 ⊢
    change |fl (m / p) * p - m| ≤ _
    have e : fl (m / p) * p - m = (fl (m / p) - m / p) * p := by
      rw [sub_mul, div_mul_cancel₀ _ (by linarith)]
    have h1 := fl_near (m / p)
    rw [e, abs_mul, abs_of_nonneg (by linarith : (0 : ℝ) ≤ p)]
    have h2 : |m / p| ≤ 10 ^ 6 := by
      rw [abs_div, abs_of_nonneg (by linarith : (0 : ℝ) ≤ p), div_le_iff₀ (by linarith)]
      nlinarith
    have h3 : |fl (m / p) - m / p| ≤ 1 / 10 ^ 8 := by linarith
    calc |fl (m / p) - m / p| * p ≤ 1 / 10 ^ 8 * 400 := by gcongr
      _ ≤ 499 / 1000 := by norm_num

/-- One million steps on X, minus one step on Z. -/
example : ∃ n : V4 ℤ, (∀ ax, |n.get ax| ≤ 10 ^ 6) ∧ (∃ ax, n.get ax ≠ 0) ∧ n.x = 1000000 ∧
    n.z = -1 := ⟨⟨1000000, 0, -1, 0⟩, fun ax => by cases ax <;> norm_num [V4.get],
  ⟨.x, by norm_num [V4.get]⟩, rfl, rfl⟩

/-- **C58** is false for circular moves: `int(radius * 100)` of the radius 0.29 mm is 28, because
the product is 28.999999999999996.  A full circle of that radius still sends 4 * 29 pulses per
axis, turns at 28 steps, and so ends 4 steps away from where it started, on both axes. -/
theorem C58_refuted : ∃ (g : CircGen F64) (evs : List (Event F64)),
    CircGen.new Cfg.default (dec64 ⟨0, 0, 0, 0⟩) (dec64 ⟨0, -2900000000, 0, 0⟩) .xy .cw (F64.of 600) =
      .ok g ∧
    g.radiusAP = 28 ∧
    Emits Cfg.default (.circular g) evs ∧ steps .x evs = 116 ∧ steps .y evs = 116 ∧
    netSteps Cfg.default .x evs = 4 ∧ netSteps Cfg.default .y evs = -4 := by
  obtain ⟨h1, h2⟩ := Small.decimals
  rw [h1, h2]
  obtain ⟨g, evs, hg, h⟩ := Small.run_off
  obtain ⟨g', hg', _, h3, _⟩ := Small.new_ok
  obtain rfl : g' = g := by rw [hg] at hg'; exact (Except.ok.inj hg').symm
  exact ⟨g', evs, hg, h3, h⟩

/-- **C58**, what remains for arcs in the XY plane with the same step on both axes: the radius in
pulses is the number of steps of the radius or one less.  It is exact if the radius, fitted to
steps, is a binary64 number, for instance a multiple of 1/4 mm.  Missing: exactness in general
(`C58_refuted`). -/
theorem C58_circle_partial {c : Cfg} (hc : SaneCfg c) (hxy : c.ppm.x = c.ppm.y)
    {delta radius : V4 F64} {rot : Rot} {v : F64} {g : CircGen F64} (hx : |radius.x.1| ≤ 10 ^ 4)
    (hy : |radius.y.1| ≤ 10 ^ 4) (h : CircGen.new c delta radius .xy rot v = .ok g) :
    ∃ k : ℤ, |(k : ℝ) - √(radius.x.1 ^ 2 + radius.y.1 ^ 2) * c.ppm.x| ≤ 51 / 100 ∧
      (g.radiusAP = k - 1 ∨ g.radiusAP = k) ∧ g.radiusBP = g.radiusAP ∧
      (fl c.ppm.x = c.ppm.x → fl (k / c.ppm.x) = k / c.ppm.x → g.radiusAP = k) :=
  arc_radius64 hc hxy hx hy h

/-- The circle of `C58_refuted` meets the hypotheses. -/
example : ∃ (delta radius : V4 F64) (g : CircGen F64), |radius.x.1| ≤ 10 ^ 4 ∧
    |radius.y.1| ≤ 10 ^ 4 ∧ CircGen.new Cfg.default delta radius .xy .cw (F64.of 600) = .ok g := by
  obtain ⟨g, hg, _⟩ := Small.new_ok
  refine ⟨_, _, g, ?_, ?_, hg⟩
  · change |Small.Z.1| ≤ _
    rw [Small.z1]; norm_num
  · change |(PyNum.neg Small.R : F64).1| ≤ _
    rw [val_neg, abs_neg, abs_of_pos Small.r_pos, Small.r1, Small.r_val]
    norm_num

/-! ## C36 -/

/-- **C36** is false in binary64: `G2 I0.27 J0.1` is a full circle whose radius is 29 steps, fitted
to 0.29 mm, which is truncated to 28 pulses (`C58_refuted`).  The 115th pulse of X is computed 30
steps from the centre, `math.sqrt(radius² - a²)` gets a negative number: every complete
iteration of the generator raises an exception, after the motors have made nearly the whole
circle. -/
theorem C36_binary64_refuted : ∃ g : CircGen F64,
    CircGen.new Cfg.default (dec64 ⟨0, 0, 0, 0⟩) (dec64 ⟨2700000000, 1000000000, 0, 0⟩) .xy .cw
      (F64.of 600) = .ok g ∧
    (∃ N, ∀ n, N ≤ n → ∃ e, ((Gen.circular g).run Cfg.default n .init).2 = .raised e) ∧
    ¬ ∃ evs, Emits Cfg.default (.circular g) evs := by
  obtain ⟨h1, h2⟩ := Crash.decimals
  rw [h1, h2]
  obtain ⟨g, hg, N, hN⟩ := Crash.raises
  refine ⟨g, hg, ⟨N, hN⟩, ?_⟩
  rintro ⟨evs, M, hM⟩
  obtain ⟨e, he⟩ := hN (max N M) (le_max_left _ _)
  rw [hM _ (le_max_right _ _)] at he
  cases he

/-! ## C63 -/

/-- **C63.** The angle of a point around the centre of an arc: unless both coordinates are zero
there is no exception (no division by zero, no argument of `acos` beyond ±1) and the result is
between 0 and 2 * pi. -/
theorem C63_angle {a b : F64} (h : a.1 ≠ 0 ∨ b.1 ≠ 0) :
    ∃ φ, angle a b = .ok φ ∧ 0 ≤ φ.1 ∧ φ.1 ≤ 2 * (PyNum.pi : F64).1 :=
  angle64_ok h

/-- **C63**, the centre itself: `ZeroDivisionError`. -/
theorem C63_centre {a b : F64} (ha : a.1 = 0) (hb : b.1 = 0) : angle a b = .error .zeroDiv :=
  angle64_zero ha hb

/-- A point meets the hypothesis. -/
example : (Small.R).1 ≠ 0 ∨ (Small.Z).1 ≠ 0 := .inl Small.r_pos.ne'

end PyCNC.Props
