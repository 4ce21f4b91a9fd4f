import Verif.Spec.ArcInterp
import Verif.Spec.Interp64
import Verif.Spec.Arc64

/-!
# The reference interpreter with arcs and the machine that computes in binary64

The interpreter is that of `Verif/Spec/ArcInterp.lean`: it computes with real numbers.
-/

namespace PyCNC.Spec

open PyCNC

variable [PyRound]

/-- The arcs for which the program is right also when it computes in binary64.  They are right in
exact arithmetic; they end straight above, below or beside their centre, or at their start; the
circle keeps a millionth of a millimetre away from the border of the table; the two axes have equal
steps, a number that binary64 has, and the radius is not more than 10000 of them; the third axis does
not move; and the steps of the centre and of the radius survive the conversion to millimetres and
back. -/
structure FloatArc (c : Cfg) (r : Ref) (plane : Plane) (rot : Rot) (w k : Axis → Option ℚ) (v : ℝ) :
    Prop where
  right : RightArc c r plane rot w k v
  place : endA plane (r.toEnd c w) (r.toCentre c k) = 0 ∨
    endB plane (r.toEnd c w) (r.toCentre c k) = 0 ∨
    (r.go c w (axisA plane) = 0 ∧ r.go c w (axisB plane) = 0)
  inside : ∀ ax, ax = axisA plane ∨ ax = axisB plane →
    startDist plane (r.toCentre c k) + 1 / 10 ^ 6 ≤ r.at c ax + (r.toCentre c k).get ax ∧
    r.at c ax + (r.toCentre c k).get ax + startDist plane (r.toCentre c k) + 1 / 10 ^ 6 ≤
      tableSize c ax
  same : c.ppm.get (axisA plane) = c.ppm.get (axisB plane)
  exact : fl (c.ppm.get (axisA plane)) = c.ppm.get (axisA plane)
  size : startDist plane (r.toCentre c k) * c.ppm.get (axisA plane) ≤ 10000
  flat : r.go c w (axis3 plane) = 0
  radius : Survives (c.ppm.get (axisA plane))
    (PyRound.rnd (startDist plane (r.toCentre c k) * c.ppm.get (axisA plane)))
  centre : ∀ ax, ax = axisA plane ∨ ax = axisB plane → Survives (c.ppm.get ax) (r.centre c k ax)

/-- The numbers of an arc are small, and it does not ask for an end or a centre within a millionth of
a step of the middle between two steps. -/
structure TameWords (c : Cfg) (r : Ref) (w k : Axis → Option ℚ) : Prop where
  move : ∀ ax, (∀ q, w ax = some q → SmallWord r q) ∧
    |r.dist c w ax * c.ppm.get ax - r.go c w ax| ≤ 1 / 2 - 1 / 10 ^ 6
  amount : (|r.go c w .e| : ℝ) ≤ 9999 * c.ppm.e
  centre : ∀ ax, ax ≠ .e → ∀ q, k ax = some q → SmallWord r q ∧
    |(q : ℝ) * r.unit * c.ppm.get ax - r.centre c k ax| ≤ 1 / 2 - 1 / 10 ^ 6

/-- A line that is not an arc is as in `Tame`; the numbers of an arc are small; if it is not refused,
it is one for which the program is right. -/
structure TameArc (c : Cfg) (r : ArcRef) (l : ArcLine) : Prop where
  feed : ∀ q, l.feed = some q → NineDigits q
  plain : ∀ st, l.stmt = .plain st → Tame c r.base ⟨st, l.feed⟩
  words : ∀ rot w k, l.stmt = .arc rot w k → TameWords c r.base w k
  right : ∀ rot w k, l.stmt = .arc rot w k → r.step c l ≠ none →
    FloatArc c r.base r.plane rot w k (r.feedOf l)
  extruded : |r.base.extruded| ≤ 3 * 10 ^ 4

/-- Every line of the program is such a line, in the state in which it is executed. -/
def TameArcs (c : Cfg) (r : ArcRef) : List ArcLine → Prop
  | [] => True
  | l :: ls => TameArc c r l ∧ TameArcs c ((r.step c l).getD r) ls

/-- The machine and the motors are in the state of the reference interpreter. -/
structure ArcMatches64 (c : Cfg) (s : MState F64) (r : ArcRef) : Prop where
  base : Matches64 c s r.base
  plane : s.plane = r.plane

end PyCNC.Spec
