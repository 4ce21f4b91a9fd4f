import Verif.Spec.Interp
import Verif.Model.Binary64

/-!
# The reference interpreter and the machine that computes in binary64

The interpreter is that of `Verif/Spec/Interp.lean`: it computes with real numbers.
-/

namespace PyCNC.Spec

open PyCNC

/-- A configuration in the range of the theorems about programs in binary64. -/
structure FloatMachine (c : Cfg) : Prop where
  plain : PlainMachine c
  fast : ∀ ax, c.maxVel.get ax ≤ 60000
  slow : c.minVel ≤ 10 ^ 5 ∧ DecimalQ c.minVel
  ppm : ∀ ax, 1 ≤ c.ppm.get ax
  /-- No number of steps of the extruder is close to the middle of two ten-decimal numbers. -/
  stepE : ∀ n : ℤ, ∃ k : ℤ, |(n : ℝ) / c.ppm.e * 10 ^ 10 - k| ≤ 2 / 5

/-- A number that a line can have: nine digits after the point, not above 20 m. -/
def SmallWord (r : Ref) (q : ℚ) : Prop := NineDigits q ∧ |(q : ℝ) * r.unit| ≤ 2 * 10 ^ 4

/-- The distance that a coordinate word asks for. -/
noncomputable def Ref.dist (c : Cfg) (r : Ref) (w : Axis → Option ℚ) (ax : Axis) : ℝ :=
  match w ax with
  | none => 0
  | some q => if r.relative then (q : ℝ) * r.unit else r.origin ax + q * r.unit - r.at c ax

variable [PyRound]

/-- The numbers of the line are small, it does not ask for a point within a millionth of a step of
the middle between two steps, nor for more than 9999 mm of extrusion, and less than 30 m have been
extruded up to now. -/
structure Tame (c : Cfg) (r : Ref) (l : Line) : Prop where
  feed : ∀ q, l.feed = some q → NineDigits q
  move : ∀ w, l.stmt = .move w → ∀ ax, (∀ q, w ax = some q → SmallWord r q) ∧
    |r.dist c w ax * c.ppm.get ax - r.go c w ax| ≤ 1 / 2 - 1 / 10 ^ 6
  amount : ∀ w, l.stmt = .move w → (|r.go c w .e| : ℝ) ≤ 9999 * c.ppm.e
  origin : ∀ w, l.stmt = .origin w → ∀ ax q, w ax = some q → SmallWord r q
  extruded : |r.extruded| ≤ 3 * 10 ^ 4

/-- Every line of the program is such a line, in the state in which it is executed. -/
def TameRun (c : Cfg) (r : Ref) : List Line → Prop
  | [] => True
  | l :: ls => Tame c r l ∧ TameRun c ((r.step c l).getD r) ls

/-- The machine and the motors are in the state of the reference interpreter: every number of the
machine is the binary64 number nearest to that of the interpreter, and the steps are equal. -/
structure Matches64 (c : Cfg) (s : MState F64) (r : Ref) : Prop where
  pos : ∀ ax, s.pos.get ax = F64.of (r.at c ax)
  motors : ∃ evs, Sends c s.trace evs ∧ ∀ ax, netSteps c ax evs = r.steps ax
  loc : ∀ ax, s.loc.get ax = F64.of (r.origin ax)
  conv : s.conv = F64.of r.unit
  mode : s.absMode = !r.relative
  vel : s.vel = F64.of r.feed

end PyCNC.Spec
