import Verif.Spec.Home64

/-!
# Programs with homing
-/

namespace PyCNC.Spec

open PyCNC

/-- A line of a program: a line of `Verif/Spec/Interp.lean`, or homing of some axes. -/
inductive JobLine where
  | line (l : Line)
  | home (axes : Axis → Prop)

/-- What the line means. -/
def JobSays (g : GCode) : JobLine → Prop
  | .line l => Says g l
  | .home axes => Is g 'G' "28" ∧ NumbersOk g ∧ g.params.lookup 'F' = none ∧ ∀ ax, Homes g ax ↔ axes ax

variable [PyRound]

/-- A program: which lines were accepted, and the state at the end. -/
noncomputable def Ref.job (c : Cfg) (r : Ref) : List JobLine → List Bool × Ref
  | [] => ([], r)
  | .line l :: ls =>
    match r.step c l with
    | none => (false :: (job c r ls).1, (job c r ls).2)
    | some r' => (true :: (job c r' ls).1, (job c r' ls).2)
  | .home axes :: ls => (true :: (job c (r.zeroed axes) ls).1, (job c (r.zeroed axes) ls).2)

/-- Every line is one of C71, in the state in which it is executed; homing comes when the feed is not
below the minimum and less than 30 m have been extruded. -/
def TameJob (c : Cfg) (r : Ref) : List JobLine → Prop
  | [] => True
  | .line l :: ls => Tame c r l ∧ TameJob c ((r.step c l).getD r) ls
  | .home axes :: ls =>
    (c.minVel ≤ r.feed ∧ |r.extruded| ≤ 3 * 10 ^ 4) ∧ TameJob c (r.zeroed axes) ls

/-- No line of the program asks for an extrusion of more than `m` millimetres, forward or back. -/
def ExtrudesJob (c : Cfg) (m : ℚ) (r : Ref) : List JobLine → Prop
  | [] => True
  | .line l :: ls => (∀ w, l.stmt = .move w → (|r.go c w .e| : ℝ) ≤ m * c.ppm.e) ∧
    ExtrudesJob c m ((r.step c l).getD r) ls
  | .home axes :: ls => ExtrudesJob c m (r.zeroed axes) ls

end PyCNC.Spec
