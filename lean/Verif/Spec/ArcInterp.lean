import Verif.Spec.Interp

/-!
# A reference interpreter for straight moves and arcs

The reference interpreter of `Verif/Spec/Interp.lean` with the planes `G17`, `G18`, `G19` and the
arcs `G2`, `G3`.  An arc takes the head to its target, like a straight move does; the vector to its
centre is rounded to whole steps.
-/

namespace PyCNC.Spec

open PyCNC

/-- What a line says. -/
inductive ArcStmt where
  /-- anything the interpreter of straight moves knows, but a plane -/
  | plain (st : Stmt)
  /-- `G17`, `G18` or `G19` -/
  | plane (p : Plane)
  /-- `G2` or `G3`: an arc to, or by, the values `w`, around the point that is away by `k`. -/
  | arc (rot : Rot) (w k : Axis → Option ℚ)

/-- A line: what it says and the value of its `F` word. -/
structure ArcLine where
  stmt : ArcStmt
  feed : Option ℚ

/-- The words `I`, `J` and `K`. -/
def CentreWords (g : GCode) (k : Axis → Option ℚ) : Prop :=
  WordIs g 'I' (k .x) ∧ WordIs g 'J' (k .y) ∧ WordIs g 'K' (k .z)

def planeWord : Plane → String
  | .xy => "17"
  | .zx => "18"
  | .yz => "19"

def rotWord : Rot → String
  | .cw => "2"
  | .ccw => "3"

/-- The line `g` says `l`. -/
def ArcSays (g : GCode) (l : ArcLine) : Prop :=
  match l.stmt with
  | .plain st => Says g ⟨st, l.feed⟩ ∧ ¬ IsOneOf g [('G', "17"), ('G', "18"), ('G', "19")]
  | .plane p => NumbersOk g ∧ WordIs g 'F' l.feed ∧ Is g 'G' (planeWord p)
  | .arc rot w k => NumbersOk g ∧ WordIs g 'F' l.feed ∧ Is g 'G' (rotWord rot) ∧ Words g w ∧
      CentreWords g k

/-- The state: that of the interpreter of straight moves, and the plane of the arcs. -/
structure ArcRef where
  base : Ref
  plane : Plane

variable [PyRound]

/-- The steps from the start of an arc to its centre. -/
noncomputable def Ref.centre (c : Cfg) (r : Ref) (k : Axis → Option ℚ) (ax : Axis) : ℤ :=
  match k ax with
  | none => 0
  | some q => PyRound.rnd (dec (q * r.unit) * c.ppm.get ax)

/-- The vectors from the start of an arc to its centre and to its end, in mm. -/
noncomputable def Ref.toCentre (c : Cfg) (r : Ref) (k : Axis → Option ℚ) : V4 ℝ :=
  ⟨r.centre c k .x / c.ppm.x, r.centre c k .y / c.ppm.y, r.centre c k .z / c.ppm.z, 0⟩
noncomputable def Ref.toEnd (c : Cfg) (r : Ref) (w : Axis → Option ℚ) : V4 ℝ :=
  ⟨r.go c w .x / c.ppm.x, r.go c w .y / c.ppm.y, r.go c w .z / c.ppm.z, dec (r.go c w .e / c.ppm.e)⟩

/-- An arc has a centre away from its start. -/
def HasCentre (c : Cfg) (r : Ref) (plane : Plane) (k : Axis → Option ℚ) : Prop :=
  r.centre c k (axisA plane) ≠ 0 ∨ r.centre c k (axisB plane) ≠ 0

/-- The feed of a line. -/
noncomputable def ArcRef.feedOf (r : ArcRef) (l : ArcLine) : ℝ :=
  match l.feed with
  | none => r.base.feed
  | some q => (q : ℝ)

open Classical in
/-- One line. An arc is refused when its end is not on the table or its centre is its start, and, like
every line, when the feed is below the minimum. -/
noncomputable def ArcRef.step (c : Cfg) (r : ArcRef) (l : ArcLine) : Option ArcRef :=
  match l.stmt with
  | .plain st => (r.base.step c ⟨st, l.feed⟩).map fun b => { r with base := b }
  | .plane p => if r.feedOf l < c.minVel then none
      else some { base := { r.base with feed := r.feedOf l }, plane := p }
  | .arc _ w k =>
    if ¬ r.feedOf l < c.minVel ∧ StepsOnTable c (r.base.target c w) ∧ HasCentre c r.base r.plane k then
      some { r with base := { r.base with steps := r.base.target c w, feed := r.feedOf l } }
    else none

/-- A program: which lines were accepted, and the state at the end. -/
noncomputable def ArcRef.run (c : Cfg) (r : ArcRef) : List ArcLine → List Bool × ArcRef
  | [] => ([], r)
  | l :: ls =>
    match r.step c l with
    | none => (false :: (run c r ls).1, (run c r ls).2)
    | some r' => (true :: (run c r' ls).1, (run c r' ls).2)

/-- The state at the beginning. -/
noncomputable def ArcRef.init (c : Cfg) : ArcRef := ⟨Ref.init c, .xy⟩

/-- The arcs for which the program is right.  The end is on the circle, on a horizontal, vertical or
diagonal line through its centre, or it is the start; it is not, in the sense of clockwise motion,
before the start in the same quarter; the whole circle is on the table, with a radius of up to 1 m;
the two axes have equal steps, or the radius is a whole number of steps of both; the extruder does
not move; if the third axis moves, the arc is a full circle or its ends are two steps apart, and it
is long enough to reach its speed. -/
structure RightArc (c : Cfg) (r : Ref) (plane : Plane) (rot : Rot) (w k : Axis → Option ℚ) (v : ℝ) :
    Prop where
  circle : endDist plane (r.toEnd c w) (r.toCentre c k) = startDist plane (r.toCentre c k)
  place : endA plane (r.toEnd c w) (r.toCentre c k) = 0 ∨
    endB plane (r.toEnd c w) (r.toCentre c k) = 0 ∨
    |endA plane (r.toEnd c w) (r.toCentre c k)| = |endB plane (r.toEnd c w) (r.toCentre c k)| ∨
    (r.go c w (axisA plane) = 0 ∧ r.go c w (axisB plane) = 0)
  ahead : ¬ BackInQuarter plane (r.toEnd c w) (r.toCentre c k)
  table : ∀ ax, ax = axisA plane ∨ ax = axisB plane →
    startDist plane (r.toCentre c k) ≤ r.at c ax + (r.toCentre c k).get ax ∧
    r.at c ax + (r.toCentre c k).get ax + startDist plane (r.toCentre c k) ≤ tableSize c ax
  size : startDist plane (r.toCentre c k) ≤ 1000
  fit : c.ppm.get (axisA plane) = c.ppm.get (axisB plane) ∨
    (∃ n : ℤ, startDist plane (r.toCentre c k) * c.ppm.get (axisA plane) = n) ∧
    (∃ n : ℤ, startDist plane (r.toCentre c k) * c.ppm.get (axisB plane) = n)
  extruder : r.go c w .e = 0
  third : r.go c w (axis3 plane) = 0 ∨
    ((r.go c w (axisA plane) = 0 ∧ r.go c w (axisB plane) = 0) ∨
      (2 / (c.ppm.get (axisA plane) : ℝ)) ^ 2 ≤
        (r.toEnd c w).get (axisA plane) ^ 2 + (r.toEnd c w).get (axisB plane) ^ 2) ∧
    |(r.toEnd c w).get (axis3 plane)| ≤ 1000 ∧
    ∃ T, Sweep plane (r.toEnd c w) (r.toCentre c k) rot T ∧ (v / 60 + 1 / 10 ^ 10) ^ 2 ≤
      c.accel * (T * (startDist plane (r.toCentre c k) - 1 / 2 / coarse c plane))

/-- Every arc that the interpreter accepts is one for which the program is right, and no line asks
for more than `m` millimetres of extrusion. -/
def RightArcs (c : Cfg) (m : ℚ) (r : ArcRef) : List ArcLine → Prop
  | [] => True
  | l :: ls =>
    (∀ w, l.stmt = .plain (.move w) → (|r.base.go c w .e| : ℝ) ≤ m * c.ppm.e) ∧
    (∀ rot w k, l.stmt = .arc rot w k → r.step c l ≠ none →
      RightArc c r.base r.plane rot w k (r.feedOf l)) ∧
    RightArcs c m ((r.step c l).getD r) ls

/-- The machine and the motors are in the state of the reference interpreter. -/
structure ArcMatches (c : Cfg) (s : MState ℝ) (r : ArcRef) : Prop where
  base : Matches c s r.base
  plane : s.plane = r.plane

end PyCNC.Spec
