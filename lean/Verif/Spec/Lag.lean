import Mathlib.Order.Lattice
import Mathlib.Algebra.Order.Group.Int

/-!
# Vocabulary for statements about late pulses
-/

namespace PyCNC.Spec

/-- How late the pulses start that are planned for the times of the list: a pulse that is planned
before the end of the one before it, which was planned to end at `t`, adds what is missing to the lag
`l`.  `len` is the length of a pulse. -/
def lags (len : Int) : Int → Int → List Int → List Int
  | _, _, [] => []
  | t, l, k :: ks => (l + max 0 (t - k)) :: lags len (k + len) (l + max 0 (t - k)) ks

end PyCNC.Spec
