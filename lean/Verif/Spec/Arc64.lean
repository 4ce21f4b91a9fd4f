import Verif.Model.Binary64
import Verif.Spec.Arc

/-!
# Vocabulary for circular moves in binary64
-/

namespace PyCNC

namespace Spec

/-- A number of steps is not lost by conversion to mm and back in binary64: `n / p * p` does not fall
below `n` (and so `int(...)` of it is `n` again). -/
def Survives (p : Rat) (n : Int) : Prop := |(n : ℝ)| ≤ |fl (fl ((n : ℝ) / p) * p)|

/-- A number of steps does not grow by conversion to mm and back in binary64 (and so a count up to
`n / p * p` makes no more than `n` steps). -/
def Fits (p : Rat) (n : Int) : Prop := |fl (fl ((n : ℝ) / p) * p)| ≤ |(n : ℝ)|

/-- A bound for the length of the way of an arc, all axes together. -/
noncomputable def reach (plane : Plane) (delta radius : V4 ℝ) : ℝ :=
  13 * startDist plane radius + |delta.get (axis3 plane)| + |delta.e|

/-- No part of the motion is a tiny part of the whole: the third axis and the extruder, if they move,
and the arc itself. -/
structure Balanced (plane : Plane) (delta radius : V4 ℝ) : Prop where
  third : delta.get (axis3 plane) ≠ 0 → reach plane delta radius ≤ 1000 * |delta.get (axis3 plane)|
  extr : delta.e ≠ 0 → reach plane delta radius ≤ 1000 * |delta.e|
  turn : delta.get (axisA plane) = 0 ∧ delta.get (axisB plane) = 0 ∧
      reach plane delta radius ≤ 1000 * startDist plane radius ∨
    reach plane delta radius ≤ 400 * √(delta.get (axisA plane) ^ 2 + delta.get (axisB plane) ^ 2)

end Spec

end PyCNC
