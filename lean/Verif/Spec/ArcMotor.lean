import Verif.Spec.Motor
import Verif.Spec.Head

/-!
How much room the control blocks of an arc can take.
-/

namespace PyCNC.Spec

/-- Bytes of the buffer that an arc of a circle on the table can take, whatever its third axis does on
the table: 128 for a pulse of each of the `8 r` steps along the two axes of a whole circle, and for
those of the third axis, and a little for what is rounded and for the changes of direction. -/
def longestArc (c : Cfg) (plane : Plane) : ℚ :=
  992 + 128 * (2 * min (tableSize c (axisA plane)) (tableSize c (axisB plane)) *
    (c.ppm.get (axisA plane) + c.ppm.get (axisB plane)) + tableSize c (axis3 plane) * c.ppm.get (axis3 plane))

end PyCNC.Spec
