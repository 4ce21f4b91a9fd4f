import Verif.Spec.Head
import Verif.Spec.Jobs
import Verif.Model.Main

/-!
# A reference interpreter for straight moves

It knows where the head is, as whole numbers of steps, where the origin is, the unit, the mode and
the feed, and nothing of how the program computes: no velocities, no pulses.  Lengths are decimal
numbers with ten digits after the point.  The step of the extruder (1/150 mm in the default
configuration) need not be one, which is why its position in millimetres is kept beside the steps.
-/

namespace PyCNC.Spec

open PyCNC

/-- What a line says. -/
inductive Stmt where
  /-- `G0`, `G1` or only coordinates: a straight move to, or by, the given values. -/
  | move (w : Axis → Option ℚ)
  /-- `G90` -/
  | absolute
  /-- `G91` -/
  | relative
  /-- `G20` -/
  | inch
  /-- `G21` -/
  | mm
  /-- `G92`: the head is at the given values from now on. -/
  | origin (w : Axis → Option ℚ)
  /-- `G53` -/
  | machineOrigin
  /-- A line without coordinates and command, or `G17`, `G18`, `G19`: nothing that matters to a
  straight move. -/
  | other

/-- A line: what it says and the value of its `F` word. -/
structure Line where
  stmt : Stmt
  feed : Option ℚ

/-- The coordinate words of a line. -/
def Words (g : GCode) (w : Axis → Option ℚ) : Prop :=
  ∀ ax, WordIs g (axisWord ax) (w ax)

/-- The line `g` says `l`. -/
def Says (g : GCode) (l : Line) : Prop :=
  NumbersOk g ∧ WordIs g 'F' l.feed ∧
  match l.stmt with
  | .move w => IsLinearMove g ∧ Words g w
  | .absolute => Is g 'G' "90"
  | .relative => Is g 'G' "91"
  | .inch => Is g 'G' "20"
  | .mm => Is g 'G' "21"
  | .origin w => Is g 'G' "92" ∧ Words g w
  | .machineOrigin => Is g 'G' "53"
  | .other => IsOneOf g [('G', "17"), ('G', "18"), ('G', "19")] ∨ (NoCommand g ∧ ¬ NamesCoordinate g)

/-- The state of the reference interpreter. -/
structure Ref where
  /-- position of the head, in steps -/
  steps : Axis → ℤ
  /-- position of the extruder, in mm -/
  extruded : ℝ
  /-- where the logical coordinates are zero, in mm -/
  origin : Axis → ℝ
  /-- length of the unit in mm -/
  unit : ℝ
  relative : Bool
  feed : ℝ

variable [PyRound]

/-- To ten decimals. -/
noncomputable def dec (x : ℝ) : ℝ := PyRound.rnd (x * 10 ^ 10) / 10 ^ 10

/-- Where an axis is, in mm. -/
noncomputable def Ref.at (c : Cfg) (r : Ref) : Axis → ℝ
  | .e => r.extruded
  | ax => r.steps ax / c.ppm.get ax

/-- Where a move takes an axis: the programmed distance from where the axis is, in whole steps. -/
noncomputable def Ref.target (c : Cfg) (r : Ref) (w : Axis → Option ℚ) (ax : Axis) : ℤ :=
  match w ax with
  | none => r.steps ax
  | some q => r.steps ax + PyRound.rnd (
      (if r.relative then dec (q * r.unit)
       else r.origin ax + dec (q * r.unit) - r.at c ax) * c.ppm.get ax)

/-- The steps that a move makes. -/
noncomputable def Ref.go (c : Cfg) (r : Ref) (w : Axis → Option ℚ) (ax : Axis) : ℤ :=
  r.target c w ax - r.steps ax

/-- The point is on the table. -/
def StepsOnTable (c : Cfg) (p : Axis → ℤ) : Prop :=
  ∀ ax, ax ≠ .e → 0 ≤ p ax ∧ (p ax : ℝ) ≤ tableSize c ax * c.ppm.get ax

open Classical in
/-- The origin that makes the named coordinates of the head equal to the given values, or all of
them zero if none is named. -/
noncomputable def Ref.newOrigin (c : Cfg) (r : Ref) (w : Axis → Option ℚ) (ax : Axis) : ℝ :=
  match w ax with
  | some q => r.at c ax - dec (q * r.unit)
  | none => if ∀ ax', w ax' = none then r.at c ax else r.origin ax

open Classical in
/-- What a line does, feed aside; nothing if it is refused. -/
noncomputable def Ref.exec (c : Cfg) (r : Ref) : Stmt → Option Ref
  | .move w =>
    if StepsOnTable c (r.target c w) then
      some { r with
        steps := r.target c w
        extruded := r.extruded + dec (r.go c w .e / c.ppm.e) }
    else none
  | .absolute => some { r with relative := false }
  | .relative => some { r with relative := true }
  | .inch => some { r with unit := 25.4 }
  | .mm => some { r with unit := 1 }
  | .origin w => some { r with origin := r.newOrigin c w }
  | .machineOrigin => some { r with origin := fun _ => 0 }
  | .other => some r

open Classical in
/-- One line. A feed below the minimum is refused. -/
noncomputable def Ref.step (c : Cfg) (r : Ref) (l : Line) : Option Ref :=
  let feed : ℝ := match l.feed with
    | none => r.feed
    | some q => (q : ℝ)
  if feed < c.minVel then none
  else (r.exec c l.stmt).map fun r' => { r' with feed := feed }

/-- At most nine digits after the decimal point. -/
def NineDigits (q : ℚ) : Prop := ∃ k : ℤ, q * 10 ^ 9 = k

/-- A program: which lines were accepted, and the state at the end. -/
noncomputable def Ref.run (c : Cfg) (r : Ref) : List Line → List Bool × Ref
  | [] => ([], r)
  | l :: ls =>
    match r.step c l with
    | none => (false :: (run c r ls).1, (run c r ls).2)
    | some r' => (true :: (run c r' ls).1, (run c r' ls).2)

/-- No line of the program asks for an extrusion of more than `m` millimetres, forward or back. -/
def Extrudes (c : Cfg) (m : ℚ) (r : Ref) : List Line → Prop
  | [] => True
  | l :: ls =>
    (∀ w, l.stmt = .move w → (|r.go c w .e| : ℝ) ≤ m * c.ppm.e) ∧
    Extrudes c m ((r.step c l).getD r) ls

/-- The state at the beginning: the feed is that of the slowest axis. -/
noncomputable def Ref.init (c : Cfg) : Ref where
  steps := fun _ => 0
  extruded := 0
  origin := fun _ => 0
  unit := 1
  relative := false
  feed := min (min (c.maxVel.x : ℝ) c.maxVel.y) (min (c.maxVel.z : ℝ) c.maxVel.e)

/-- The program itself: `do_line` for one line after the other.  Which lines were accepted, and the
state at the end; nothing if an exception escapes. -/
def machineRun {F : Type} [PyNum F] [PyText] (c : Cfg) (env : Env F) (s : MState F) :
    List (List Char) → Option (List Bool × MState F)
  | [] => some ([], s)
  | t :: ts =>
    match doLine c env t s with
    | (.error _, _) => none
    | (.ok (.ok _), s') => (machineRun c env s' ts).map fun p => (true :: p.1, p.2)
    | (.ok (.error _), s') => (machineRun c env s' ts).map fun p => (false :: p.1, p.2)

/-- A configuration in the range of the theorems about moves, with decimal steps of X, Y and Z, and
with `AUTO_VELOCITY_ADJUSTMENT` switched on. -/
structure PlainMachine (c : Cfg) : Prop where
  sane : SaneMachine c
  step : ∀ ax, ax ≠ .e → DecimalStep c ax
  limits : DecimalLimits c
  auto : c.autoVel = true

/-- The machine and the motors are in the state of the reference interpreter. -/
structure Matches (c : Cfg) (s : MState ℝ) (r : Ref) : Prop where
  pos : ∀ ax, s.pos.get ax = r.at c ax
  motors : ∃ evs, Sends c s.trace evs ∧ ∀ ax, netSteps c ax evs = r.steps ax
  loc : ∀ ax, s.loc.get ax = r.origin ax
  conv : s.conv = r.unit
  mode : s.absMode = !r.relative
  vel : s.vel = r.feed

end PyCNC.Spec
