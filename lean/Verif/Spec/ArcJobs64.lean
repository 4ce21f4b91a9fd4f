import Verif.Spec.ArcInterp64
import Verif.Spec.Home64

/-!
# Programs with arcs and homing
-/

namespace PyCNC.Spec

open PyCNC

/-- A line of a program: a line of `Verif/Spec/ArcInterp.lean`, or homing of some axes. -/
inductive ArcJobLine where
  | line (l : ArcLine)
  | home (axes : Axis → Prop)

/-- What the line means. -/
def ArcJobSays (g : GCode) : ArcJobLine → Prop
  | .line l => ArcSays g l
  | .home axes => Is g 'G' "28" ∧ NumbersOk g ∧ g.params.lookup 'F' = none ∧ ∀ ax, Homes g ax ↔ axes ax

variable [PyRound]

/-- The axes are at zero, the plane is what it was. -/
noncomputable def ArcRef.zeroed (r : ArcRef) (axes : Axis → Prop) : ArcRef :=
  { r with base := r.base.zeroed axes }

/-- A program: which lines were accepted, and the state at the end.  The end switches work (`sw`) or they do
not: then homing is answered with an error, and the head is at zero all the same. -/
noncomputable def ArcRef.job (c : Cfg) (sw : Bool) (r : ArcRef) : List ArcJobLine → List Bool × ArcRef
  | [] => ([], r)
  | .line l :: ls =>
    match r.step c l with
    | none => (false :: (job c sw r ls).1, (job c sw r ls).2)
    | some r' => (true :: (job c sw r' ls).1, (job c sw r' ls).2)
  | .home axes :: ls => (sw :: (job c sw (r.zeroed axes) ls).1, (job c sw (r.zeroed axes) ls).2)

/-- Every line is one of C92, in the state in which it is executed; homing comes when the feed is not
below the minimum and less than 30 m have been extruded. -/
def TameArcJob (c : Cfg) (r : ArcRef) : List ArcJobLine → Prop
  | [] => True
  | .line l :: ls => TameArc c r l ∧ TameArcJob c ((r.step c l).getD r) ls
  | .home axes :: ls =>
    (c.minVel ≤ r.base.feed ∧ |r.base.extruded| ≤ 3 * 10 ^ 4) ∧ TameArcJob c (r.zeroed axes) ls

end PyCNC.Spec
