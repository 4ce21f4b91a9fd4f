import Verif.Spec.Moves
import Verif.Spec.Arc

/-!
# Vocabulary for statements about the speed of moves
-/

namespace PyCNC.Spec

open PyCNC

/-- `w` are the speeds of the motors, in mm/s, in a straight move by `delta` at the feed `v` (mm/min),
up to ten decimal digits: the feed in the direction of the move, or, with automatic adjustment, a lower
speed in that direction for which some axis is at its limit. -/
def FeedVelocity (c : Cfg) (delta : V4 ℝ) (v : ℝ) (w : V4 ℝ) : Prop :=
  (∀ ax, |w.get ax - |delta.get ax| / norm4 delta * (v / 60)| ≤ 1 / 10 ^ 10) ∨
  (c.autoVel = true ∧ (∃ q, 0 < q ∧ q ≤ v / 60 ∧
    ∀ ax, |w.get ax - |delta.get ax| / norm4 delta * q| ≤ 1 / 10 ^ 10) ∧
    ∃ ax, (c.maxVel.get ax : ℝ) / 60 - 1 / 10 ^ 10 ≤ w.get ax)

/-- `V` is the speed along the circle, in mm/s, of an arc in `plane` at the feed `v` (mm/min), up to ten
decimal digits: the feed, or, with automatic adjustment, a lower speed, which is the limit of one of the
axes of the plane. -/
def ArcFeed (c : Cfg) (plane : Plane) (v V : ℝ) : Prop :=
  |V - v / 60| ≤ 1 / 10 ^ 10 ∨
  (c.autoVel = true ∧ V ≤ v / 60 + 1 / 10 ^ 10 ∧
    (V ≤ (c.maxVel.get (axisA plane) : ℝ) / 60 ∧ V ≤ (c.maxVel.get (axisB plane) : ℝ) / 60) ∧
    ((c.maxVel.get (axisA plane) : ℝ) / 60 - 1 / 10 ^ 10 ≤ V ∨
     (c.maxVel.get (axisB plane) : ℝ) / 60 - 1 / 10 ^ 10 ≤ V))

/-- `V`, `v₃` and `vE` are the speeds, in mm/s, along the circle, of the third axis and of the extruder, of
an arc with a way of `A` mm along the circle at the feed `v` (mm/min), up to ten decimal digits: all are
in proportion to the distances, and together the feed, or, with automatic adjustment, a lower speed for
which one of the axes is at its limit and none above it. -/
def HelixFeed (c : Cfg) (delta : V4 ℝ) (plane : Plane) (A v V v₃ vE : ℝ) : Prop :=
  ∃ q, 0 < q ∧ q ≤ v / 60 ∧
    |V - A / √(A ^ 2 + delta.get (axis3 plane) ^ 2 + delta.e ^ 2) * q| ≤ 1 / 10 ^ 10 ∧
    |v₃ - |delta.get (axis3 plane)| / √(A ^ 2 + delta.get (axis3 plane) ^ 2 + delta.e ^ 2) * q| ≤ 1 / 10 ^ 10 ∧
    |vE - |delta.e| / √(A ^ 2 + delta.get (axis3 plane) ^ 2 + delta.e ^ 2) * q| ≤ 1 / 10 ^ 10 ∧
    (c.autoVel = true → V ≤ (c.maxVel.get (axisA plane) : ℝ) / 60 ∧
      V ≤ (c.maxVel.get (axisB plane) : ℝ) / 60 ∧ v₃ ≤ (c.maxVel.get (axis3 plane) : ℝ) / 60 ∧
      vE ≤ (c.maxVel.e : ℝ) / 60) ∧
    (q = v / 60 ∨ (c.autoVel = true ∧
      ((c.maxVel.get (axisA plane) : ℝ) / 60 - 1 / 10 ^ 10 ≤ V ∨
       (c.maxVel.get (axisB plane) : ℝ) / 60 - 1 / 10 ^ 10 ≤ V ∨
       (c.maxVel.get (axis3 plane) : ℝ) / 60 - 1 / 10 ^ 10 ≤ v₃ ∨
       (c.maxVel.e : ℝ) / 60 - 1 / 10 ^ 10 ≤ vE)))

end PyCNC.Spec
