import Verif.Spec.ArcInterp
import Verif.Spec.ArcMotor

/-!
# Programs with arcs whose ends need not be on their circles

Numbers of a G-code file are rounded, so the end of an arc is hardly ever exactly on the circle.  The
program then looks for a point on the circle, goes there, and makes a straight move to the end.
-/

namespace PyCNC.Spec

open PyCNC

variable [PyRound]

/-- The end of the arc, seen from its centre, is exactly to the right or left, exactly above or below,
or away from these directions: each coordinate has a part of at least `4 / (r P)²` of the sum of both,
`r P` being the radius in steps.  The radius is two steps at least. -/
def EndAside (c : Cfg) (delta radius : V4 ℝ) (plane : Plane) : Prop :=
  2 ≤ startDist plane radius * c.ppm.get (axisA plane) ∧
  ((endA plane delta radius = 0 ∧ endB plane delta radius ≠ 0) ∨
   (endA plane delta radius ≠ 0 ∧ endB plane delta radius = 0) ∨
   (endA plane delta radius ≠ 0 ∧ endB plane delta radius ≠ 0 ∧
    4 * (|endA plane delta radius| + |endB plane delta radius|) ≤
      (startDist plane radius * c.ppm.get (axisA plane)) ^ 2 * |endA plane delta radius| ∧
    4 * (|endA plane delta radius| + |endB plane delta radius|) ≤
      (startDist plane radius * c.ppm.get (axisA plane)) ^ 2 * |endB plane delta radius|))

/-- The arcs whose motors end where they should.  The radius is at most `R`, the third axis moves by at
most 1 m and the extruder does not move.  Either the end is in another quarter of the circle than the
start, anywhere but close to the border of a quarter, and the two axes have equal steps; or, as for the
`RightArc`s, it is on the circle, on a horizontal, vertical or diagonal line through the centre, or it is
the start, and is not, in the sense of clockwise motion, before the start in the same quarter.  If the
third axis moves, the ends are two steps apart, or the arc is a full circle. -/
structure FairArc (c : Cfg) (r : Ref) (plane : Plane) (w k : Axis → Option ℚ) (R : ℝ) : Prop where
  size : startDist plane (r.toCentre c k) ≤ R
  extruder : r.go c w .e = 0
  third : |(r.toEnd c w).get (axis3 plane)| ≤ 1000
  ends :
    (c.ppm.get (axisA plane) = c.ppm.get (axisB plane) ∧
      arcQuarter (startA plane (r.toCentre c k)) (startB plane (r.toCentre c k)) ≠
        arcQuarter (endA plane (r.toEnd c w) (r.toCentre c k)) (endB plane (r.toEnd c w) (r.toCentre c k)) ∧
      EndAside c (r.toEnd c w) (r.toCentre c k) plane ∧
      (r.go c w (axis3 plane) = 0 ∨
        (endA plane (r.toEnd c w) (r.toCentre c k) = 0 →
          2 ≤ |startA plane (r.toCentre c k)| * c.ppm.get (axisA plane)) ∧
        (endB plane (r.toEnd c w) (r.toCentre c k) = 0 →
          2 ≤ |startB plane (r.toCentre c k)| * c.ppm.get (axisB plane)))) ∨
    (endDist plane (r.toEnd c w) (r.toCentre c k) = startDist plane (r.toCentre c k) ∧
      (endA plane (r.toEnd c w) (r.toCentre c k) = 0 ∨
        endB plane (r.toEnd c w) (r.toCentre c k) = 0 ∨
        |endA plane (r.toEnd c w) (r.toCentre c k)| = |endB plane (r.toEnd c w) (r.toCentre c k)| ∨
        (r.go c w (axisA plane) = 0 ∧ r.go c w (axisB plane) = 0)) ∧
      ¬ BackInQuarter plane (r.toEnd c w) (r.toCentre c k) ∧
      (c.ppm.get (axisA plane) = c.ppm.get (axisB plane) ∨
        (∃ n : ℤ, startDist plane (r.toCentre c k) * c.ppm.get (axisA plane) = n) ∧
        (∃ n : ℤ, startDist plane (r.toCentre c k) * c.ppm.get (axisB plane) = n)) ∧
      (r.go c w (axis3 plane) = 0 ∨ (r.go c w (axisA plane) = 0 ∧ r.go c w (axisB plane) = 0) ∨
        (2 / (c.ppm.get (axisA plane) : ℝ)) ^ 2 ≤
          (r.toEnd c w).get (axisA plane) ^ 2 + (r.toEnd c w).get (axisB plane) ^ 2))

/-- Arcs off their circles that are certainly carried out: the whole circle is on the table, the radius is
a whole number of steps of both axes, the end is exactly to the right or left of the centre, or exactly
above or below it, at any distance, and only the two axes of the plane move. -/
structure AxisEnd (c : Cfg) (r : Ref) (plane : Plane) (w k : Axis → Option ℚ) : Prop where
  table : ∀ ax, ax = axisA plane ∨ ax = axisB plane →
    startDist plane (r.toCentre c k) ≤ r.at c ax + (r.toCentre c k).get ax ∧
    r.at c ax + (r.toCentre c k).get ax + startDist plane (r.toCentre c k) ≤ tableSize c ax
  whole : ∀ ax, ax = axisA plane ∨ ax = axisB plane →
    ∃ n : ℤ, startDist plane (r.toCentre c k) * c.ppm.get ax = n
  aligned : (endA plane (r.toEnd c w) (r.toCentre c k) = 0 ∧ endB plane (r.toEnd c w) (r.toCentre c k) ≠ 0) ∨
    (endA plane (r.toEnd c w) (r.toCentre c k) ≠ 0 ∧ endB plane (r.toEnd c w) (r.toCentre c k) = 0)
  flat : r.go c w (axis3 plane) = 0

/-- A line that says an arc. -/
def SaysArc (l : ArcLine) : Prop := ∃ rot w k, l.stmt = .arc rot w k

/-- The interpreter goes through the lines and carries out those that are marked; all but arcs are
marked if and only if it would carry them out anyway, and of the arcs only such ones are. -/
inductive Follows (c : Cfg) : ArcRef → List ArcLine → List Bool → ArcRef → Prop where
  | nil {r} : Follows c r [] [] r
  | done {r r1 r' l ls fs} : r.step c l = some r1 → Follows c r1 ls fs r' →
      Follows c r (l :: ls) (true :: fs) r'
  | not {r r' l ls fs} : r.step c l = none ∨ SaysArc l → Follows c r ls fs r' →
      Follows c r (l :: ls) (false :: fs) r'

/-- Whichever arcs are carried out: every arc is a `FairArc`, and no line asks for more than `m`
millimetres of extrusion. -/
def FairArcs (c : Cfg) (m : ℚ) (R : ℝ) (r : ArcRef) : List ArcLine → Prop
  | [] => True
  | l :: ls =>
    (∀ w, l.stmt = .plain (.move w) → (|r.base.go c w .e| : ℝ) ≤ m * c.ppm.e) ∧
    (∀ rot w k, l.stmt = .arc rot w k → r.step c l ≠ none → FairArc c r.base r.plane w k R) ∧
    (∀ r1, r.step c l = some r1 → FairArcs c m R r1 ls) ∧
    (r.step c l = none ∨ SaysArc l → FairArcs c m R r ls)

/-- Bytes of the buffer that an arc with a radius of up to `R` can take, whatever its third axis does on
the table, and bytes of the straight move to the end of such an arc. -/
def longestFair (c : Cfg) (R : ℚ) (plane : Plane) : ℚ :=
  992 + 128 * (4 * R * (c.ppm.get (axisA plane) + c.ppm.get (axisB plane)) +
    tableSize c (axis3 plane) * c.ppm.get (axis3 plane))
def longestRest (c : Cfg) (R : ℚ) (plane : Plane) : ℚ :=
  32 + 128 * ((tableSize c (axisA plane) + 3 * R) * c.ppm.get (axisA plane) +
    (tableSize c (axisB plane) + 3 * R) * c.ppm.get (axisB plane))

end PyCNC.Spec
