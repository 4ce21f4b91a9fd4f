import Verif.Spec.ArcAny
import Verif.Spec.ArcInterp64

/-!
# Programs with arcs whose ends need not be on their circles, in binary64
-/

namespace PyCNC.Spec

open PyCNC

variable [PyRound]

/-- Arcs that end in another quarter of the circle than they start in, anywhere but close to the border of
a quarter, on the circle or not.  Only the two axes of the plane move; they have equal steps, a number that
binary64 has, and the radius is not more than 1 m and 10000 of them; the steps of the centre and of the
radius survive the conversion to millimetres and back; and the table is so small that three radii more are
not above 10 m. -/
structure AsideArc (c : Cfg) (r : Ref) (plane : Plane) (w k : Axis → Option ℚ) : Prop where
  size : startDist plane (r.toCentre c k) ≤ 1000
  steps : startDist plane (r.toCentre c k) * c.ppm.get (axisA plane) ≤ 10000
  extruder : r.go c w .e = 0
  flat : r.go c w (axis3 plane) = 0
  same : c.ppm.get (axisA plane) = c.ppm.get (axisB plane)
  exact : fl (c.ppm.get (axisA plane)) = c.ppm.get (axisA plane)
  other : arcQuarter (startA plane (r.toCentre c k)) (startB plane (r.toCentre c k)) ≠
    arcQuarter (endA plane (r.toEnd c w) (r.toCentre c k)) (endB plane (r.toEnd c w) (r.toCentre c k))
  aside : EndAside c (r.toEnd c w) (r.toCentre c k) plane
  radius : Survives (c.ppm.get (axisA plane))
    (PyRound.rnd (startDist plane (r.toCentre c k) * c.ppm.get (axisA plane)))
  centre : ∀ ax, ax = axisA plane ∨ ax = axisB plane → Survives (c.ppm.get ax) (r.centre c k ax)
  table : ∀ ax, ax = axisA plane ∨ ax = axisB plane →
    tableSize c ax + 3 * startDist plane (r.toCentre c k) ≤ 10 ^ 4

/-- Such arcs that are certainly carried out: the circle keeps a millionth of a millimetre away from the
border of the table, the radius is a whole number of steps, and the end is exactly to the right or left of
the centre, or exactly above or below it, at any distance. -/
structure AxisEnd64 (c : Cfg) (r : Ref) (plane : Plane) (w k : Axis → Option ℚ) : Prop where
  inside : ∀ ax, ax = axisA plane ∨ ax = axisB plane →
    startDist plane (r.toCentre c k) + 1 / 10 ^ 6 ≤ r.at c ax + (r.toCentre c k).get ax ∧
    r.at c ax + (r.toCentre c k).get ax + startDist plane (r.toCentre c k) + 1 / 10 ^ 6 ≤
      tableSize c ax
  whole : ∃ n : ℤ, startDist plane (r.toCentre c k) * c.ppm.get (axisA plane) = n
  aligned : endA plane (r.toEnd c w) (r.toCentre c k) = 0 ∨ endB plane (r.toEnd c w) (r.toCentre c k) = 0

/-- A line that is not an arc is as in `Tame`; the numbers of an arc are small; if the interpreter carries it
out, it is a `FloatArc` or an `AsideArc`. -/
structure TameAny (c : Cfg) (r : ArcRef) (l : ArcLine) : Prop where
  feed : ∀ q, l.feed = some q → NineDigits q
  plain : ∀ st, l.stmt = .plain st → Tame c r.base ⟨st, l.feed⟩
  words : ∀ rot w k, l.stmt = .arc rot w k → TameWords c r.base w k
  right : ∀ rot w k, l.stmt = .arc rot w k → r.step c l ≠ none →
    FloatArc c r.base r.plane rot w k (r.feedOf l) ∨ AsideArc c r.base r.plane w k
  extruded : |r.base.extruded| ≤ 3 * 10 ^ 4

/-- Whichever arcs are carried out, every line of the program is such a line. -/
def TameAnys (c : Cfg) (r : ArcRef) : List ArcLine → Prop
  | [] => True
  | l :: ls => TameAny c r l ∧ (∀ r1, r.step c l = some r1 → TameAnys c r1 ls) ∧
    (r.step c l = none ∨ SaysArc l → TameAnys c r ls)

end PyCNC.Spec
