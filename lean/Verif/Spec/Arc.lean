import Verif.Model.Exact
import Verif.Spec.Pulses
import Mathlib.Analysis.Real.Sqrt
import Mathlib.Analysis.SpecialFunctions.Trigonometric.Basic

/-!
# Vocabulary for statements about circular moves

An arc is described in the coordinates of its plane relative to its centre: `a` is the first
axis of the plane, `b` the second one.
-/

namespace PyCNC

namespace Spec

/-- One step of an axis that goes to and fro between `-R` and `R`: position and direction.  It
turns round when it has reached the end. -/
def bounce (R : Int) (w : Int × Int) : Int × Int :=
  if -R ≤ w.1 + w.2 ∧ w.1 + w.2 ≤ R then (w.1 + w.2, w.2) else (w.1 - w.2, -w.2)

/-- Position and direction of such an axis after `i` steps. -/
def walk (R start dir : Int) : Nat → Int × Int
  | 0 => (start, dir)
  | i + 1 => bounce R (walk R start dir i)

/-- The axes of a plane: the first, the second and the one across. -/
def axisA : Plane → Axis
  | .xy => .x
  | .yz => .y
  | .zx => .z

def axisB : Plane → Axis
  | .xy => .y
  | .yz => .z
  | .zx => .x

def axis3 : Plane → Axis
  | .xy => .z
  | .yz => .x
  | .zx => .y

/-- The quarter of the circle a point lies in, counted in the direction of the clockwise moves
of the program from the axis `a = 0`, `b > 0`. -/
noncomputable def arcQuarter (a b : ℝ) : Int :=
  if 0 ≤ a ∧ 0 < b then 0
  else if 0 < a ∧ b ≤ 0 then 1
  else if a ≤ 0 ∧ b < 0 then 2
  else 3

/-- Start of an arc relative to its centre: `radius` is the vector from the start to the
centre. -/
def startA (plane : Plane) (radius : V4 ℝ) : ℝ := -radius.get (axisA plane)
def startB (plane : Plane) (radius : V4 ℝ) : ℝ := -radius.get (axisB plane)

/-- End of an arc relative to its centre: `delta` is the vector from the start to the end. -/
def endA (plane : Plane) (delta radius : V4 ℝ) : ℝ :=
  delta.get (axisA plane) - radius.get (axisA plane)
def endB (plane : Plane) (delta radius : V4 ℝ) : ℝ :=
  delta.get (axisB plane) - radius.get (axisB plane)

/-- Distances of start and end from the centre. -/
noncomputable def startDist (plane : Plane) (radius : V4 ℝ) : ℝ :=
  √(startA plane radius ^ 2 + startB plane radius ^ 2)
noncomputable def endDist (plane : Plane) (delta radius : V4 ℝ) : ℝ :=
  √(endA plane delta radius ^ 2 + endB plane delta radius ^ 2)

/-- The coordinate is a whole number of steps. -/
def OnSteps (c : Cfg) (v : V4 ℝ) (ax : Axis) : Prop := ∃ n : ℤ, v.get ax * c.ppm.get ax = n

/-- Start, centre and end of the arc lie on steps of the two axes of its plane, and the axes have
either equal steps, or the radius is a whole number of steps of both and the end lies on the
circle. -/
structure GridArc (c : Cfg) (delta radius : V4 ℝ) (plane : Plane) : Prop where
  posA : 0 < c.ppm.get (axisA plane)
  posB : 0 < c.ppm.get (axisB plane)
  radA : OnSteps c radius (axisA plane)
  radB : OnSteps c radius (axisB plane)
  delA : OnSteps c delta (axisA plane)
  delB : OnSteps c delta (axisB plane)
  fit : c.ppm.get (axisA plane) = c.ppm.get (axisB plane) ∨
    (∃ n : ℤ, startDist plane radius * c.ppm.get (axisA plane) = n) ∧
    (∃ n : ℤ, startDist plane radius * c.ppm.get (axisB plane) = n) ∧
    endDist plane delta radius = startDist plane radius

/-- The end of the arc lies in the same quarter of the circle as its start and, in the sense of
clockwise motion, before it. -/
def BackInQuarter (plane : Plane) (delta radius : V4 ℝ) : Prop :=
  arcQuarter (startA plane radius) (startB plane radius) =
    arcQuarter (endA plane delta radius) (endB plane delta radius) ∧
  endA plane delta radius * startB plane radius < startA plane radius * endB plane delta radius

/-- The first directions of the two axes agree with the sense of rotation (`a` to the right, `b`
upwards): clockwise the first axis moves to the right above the centre and to the left below it,
the second axis down on the right hand side and up on the left. -/
def TurnsAs (rot : Rot) (a b : ℝ) (da db : Int) : Prop :=
  match rot with
  | .cw => (0 < b → da = 1) ∧ (b < 0 → da = -1) ∧ (0 < a → db = -1) ∧ (a < 0 → db = 1)
  | .ccw => (0 < b → da = -1) ∧ (b < 0 → da = 1) ∧ (0 < a → db = 1) ∧ (a < 0 → db = -1)

/-- `T` is the angle of the turn, more than nothing and at most a full turn: turning the direction
of the start by it in the sense of the move (`a` to the right, `b` upwards) gives the direction of
the end. -/
def Sweep (plane : Plane) (delta radius : V4 ℝ) (rot : Rot) (T : ℝ) : Prop :=
  let σ : ℝ := match rot with
    | .cw => 1
    | .ccw => -1
  0 < T ∧ T ≤ 2 * Real.pi ∧
  endA plane delta radius * startDist plane radius = endDist plane delta radius *
    (startA plane radius * Real.cos T + σ * (startB plane radius * Real.sin T)) ∧
  endB plane delta radius * startDist plane radius = endDist plane delta radius *
    (startB plane radius * Real.cos T - σ * (startA plane radius * Real.sin T))

/-- Pulses per mm of the coarser axis of the plane. -/
def coarse (c : Cfg) (plane : Plane) : Rat := min (c.ppm.get (axisA plane)) (c.ppm.get (axisB plane))

/-- An arc of realistic size: it lies on steps; its start is not its centre; start and end have
the same distance from the centre, counted in steps; the radius is at most 1 m; the other two axes
move by at most 1 m and, if they move at all, by at least 1/1000 mm; when one of them moves, the arc
either returns to its start or ends at least two steps away; the feed is at least 1 mm/min. -/
structure OrdinaryArc [PyRound] (c : Cfg) (delta radius : V4 ℝ) (plane : Plane) (v : ℝ) : Prop where
  grid : GridArc c delta radius plane
  start : startDist plane radius ≠ 0
  ends : PyRound.rnd (endDist plane delta radius * coarse c plane) =
    PyRound.rnd (startDist plane radius * coarse c plane)
  size : startDist plane radius ≤ 1000
  le3 : |delta.get (axis3 plane)| ≤ 1000
  leE : |delta.e| ≤ 1000
  ge3 : delta.get (axis3 plane) ≠ 0 → 1 / 1000 ≤ |delta.get (axis3 plane)|
  geE : delta.e ≠ 0 → 1 / 1000 ≤ |delta.e|
  helix : (delta.get (axis3 plane) = 0 ∧ delta.e = 0) ∨
    (delta.get (axisA plane) = 0 ∧ delta.get (axisB plane) = 0) ∨
    (2 / (c.ppm.get (axisA plane) : ℝ)) ^ 2 ≤
      delta.get (axisA plane) ^ 2 + delta.get (axisB plane) ^ 2
  feed : 1 ≤ v

end Spec

end PyCNC
