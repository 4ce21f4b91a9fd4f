import Verif.Spec.Moves

/-!
# Vocabulary for statements about rapid moves
-/

namespace PyCNC.Spec

open PyCNC

/-- At the speed `v` (mm/min) in the direction of `d` no axis is faster than its limit, up to `ε`. -/
def WithinLimits (c : Cfg) (d : V4 ℝ) (v ε : ℝ) : Prop :=
  ∀ ax, v * |d.get ax| ≤ (c.maxVel.get ax + ε) * norm4 d

/-- At the speed `v + 1` some axis that moves would be faster than its limit, up to `ε`. -/
def AtLimit (c : Cfg) (d : V4 ℝ) (v ε : ℝ) : Prop :=
  ∃ ax, d.get ax ≠ 0 ∧ (c.maxVel.get ax - ε) * norm4 d < (v + 1) * |d.get ax|

/-- `top` is the limit of the fastest axis. -/
def FastestAxis (c : Cfg) (top : ℝ) : Prop :=
  (∃ ax, top = c.maxVel.get ax) ∧ ∀ ax, (c.maxVel.get ax : ℝ) ≤ top

end PyCNC.Spec
