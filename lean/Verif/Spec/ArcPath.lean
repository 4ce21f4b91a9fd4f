import Verif.Spec.Arc

/-!
# Vocabulary for statements about the path of circular moves
-/

namespace PyCNC

namespace Spec

/-- The sense of a move in the coordinates of its plane (`a` to the right, `b` upwards). -/
def turnSign : Rot → ℝ
  | .cw => 1
  | .ccw => -1

/-- The point of the circle that is reached when the start turns by the angle `θ` around the centre,
in the sense of the move; relative to the centre. -/
noncomputable def turnedA (plane : Plane) (radius : V4 ℝ) (rot : Rot) (θ : ℝ) : ℝ :=
  startA plane radius * Real.cos θ + turnSign rot * (startB plane radius * Real.sin θ)
noncomputable def turnedB (plane : Plane) (radius : V4 ℝ) (rot : Rot) (θ : ℝ) : ℝ :=
  startB plane radius * Real.cos θ - turnSign rot * (startA plane radius * Real.sin θ)

/-- The same for an axis of the plane. -/
noncomputable def turnedOn (plane : Plane) (radius : V4 ℝ) (rot : Rot) (θ : ℝ) (ax : Axis) : ℝ :=
  if ax = axisA plane then turnedA plane radius rot θ else turnedB plane radius rot θ

/-- After the angle `θ` the arc is at one of the points of the circle that are outermost in the
direction of the axis `ax`: its other coordinate is that of the centre. -/
def OutermostOn (plane : Plane) (radius : V4 ℝ) (rot : Rot) (θ : ℝ) (ax : Axis) : Prop :=
  turnedOn plane radius rot θ (if ax = axisA plane then axisB plane else axisA plane) = 0

/-- The same for one of the axes of the plane: the arc passes from one quarter to the next. -/
def Outermost (plane : Plane) (radius : V4 ℝ) (rot : Rot) (θ : ℝ) : Prop :=
  OutermostOn plane radius rot θ (axisA plane) ∨ OutermostOn plane radius rot θ (axisB plane)

/-- It is the time `t` after the first `n` events: they are not later, the others not earlier. -/
def AtTime (evs : List (Event ℝ)) (t : ℝ) (n : ℕ) : Prop :=
  (∀ ax, ∀ τ ∈ stepTimes ax (evs.take n), τ ≤ t) ∧ ∀ ax, ∀ τ ∈ stepTimes ax (evs.drop n), t ≤ τ

end Spec

end PyCNC
