import Verif.Spec.Numbers
import Verif.Spec.Pulses
import Mathlib.Analysis.Calculus.Deriv.Basic

/-!
# Vocabulary for statements about moves in exact arithmetic
-/

namespace PyCNC.Spec

/-- A configuration with realistic constants: up to 1000 pulses per mm, an acceleration of at
least 1 mm/s², maximum velocities from 60 mm/min to 600 m/min. -/
structure SaneCfg (c : Cfg) : Prop where
  ppm_pos : ∀ ax, 0 < c.ppm.get ax
  ppm_le : ∀ ax, c.ppm.get ax ≤ 1000
  accel : 1 ≤ c.accel
  maxVel : ∀ ax, 60 ≤ c.maxVel.get ax
  maxVel_le : ∀ ax, c.maxVel.get ax ≤ 600000

/-- The maximum velocities, in mm per second, are decimal numbers with at most ten fractional
digits (default configuration: 400, 200, 10, 25). -/
def DecimalLimits (c : Cfg) : Prop := ∀ ax, ∃ k : ℤ, (c.maxVel.get ax : ℝ) / 60 = k / 10 ^ 10

/-- A move of realistic size: decimal coordinates (as `Coordinates` always has), some axis
moves, no axis moves by more than 10 m, an axis that moves does so by at least 1/1000 mm,
the feed is at least 1 mm/min. -/
structure OrdinaryMove (delta : V4 ℝ) (v : ℝ) : Prop where
  decimal : Decimal10 delta
  some : ∃ ax, delta.get ax ≠ 0
  le : ∀ ax, |delta.get ax| ≤ 10 ^ 4
  ge : ∀ ax, delta.get ax ≠ 0 → 1 / 1000 ≤ |delta.get ax|
  feed : 1 ≤ v

/-- Iterating the generator yields exactly the events `evs` and then stops without an
exception. -/
def Emits {F : Type} [PyNum F] (c : Cfg) (g : Gen F) (evs : List (Event F)) : Prop :=
  ∃ N, ∀ n, N ≤ n → g.run c n .init = (evs, .done)

/-- Length of a vector. -/
noncomputable def norm4 (v : V4 ℝ) : ℝ := √(v.x ^ 2 + v.y ^ 2 + v.z ^ 2 + v.e ^ 2)

/-- Motion of one motor: position `s` and speed `v` as functions of time, with the magnitude
of the acceleration bounded by `a`. -/
structure Motion (a : ℝ) (s v : ℝ → ℝ) : Prop where
  deriv : ∀ t, HasDerivAt s (v t) t
  accel : ∀ t₁ t₂, |v t₁ - v t₂| ≤ a * |t₁ - t₂|

end PyCNC.Spec
