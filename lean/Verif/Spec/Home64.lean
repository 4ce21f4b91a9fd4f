import Verif.Spec.Interp64

/-!
# Homing in the reference interpreter
-/

namespace PyCNC.Spec

open Classical in
/-- The state of the interpreter with some axes at zero. -/
noncomputable def Ref.zeroed (r : Ref) (sel : Axis → Prop) : Ref :=
  { r with steps := fun ax => if sel ax then 0 else r.steps ax }

end PyCNC.Spec
