import Verif.Spec.Machine
import Verif.Spec.Moves
import Verif.Spec.ArcPath

/-!
# Vocabulary for statements about where the motors are
-/

namespace PyCNC.Spec

variable [PyRound]

/-- The calls in the trace (newest first) send the pulses `evs` (oldest first): those of the moves,
one move after the other.  The pulses of `hal.calibrate` are not counted: they end at the end
stops. -/
inductive Sends {F : Type} [PyNum F] (c : Cfg) : List (HalCall F) → List (Event F) → Prop
  | nil : Sends c [] []
  | move {g tr evs evs'} : Emits c g evs' → Sends c tr evs → Sends c (.move g :: tr) (evs ++ evs')
  | other {call tr evs} : (∀ g, call ≠ .move g) → Sends c tr evs → Sends c (call :: tr) evs

/-- The circular move `g`, made after the calls `earlier`, is one of an arc on steps with the vector
`radius` from its start to its centre, in the plane `plane`, and it is not an arc that ends, in the
sense of clockwise motion, before its start in the same quarter. -/
def ArcOf (c : Cfg) (g : CircGen ℝ) (radius : V4 ℝ) (plane : Plane) : Prop :=
  ∃ rot v, CircGen.new c g.delta radius plane rot v = .ok g ∧ GridArc c g.delta radius plane ∧
    ¬ BackInQuarter plane g.delta radius

/-- The end of a circular move lies, in the sense of clockwise motion, before its start in the same
quarter, seen from the centre: the start of the move is known to the generator, in steps. -/
def EndsBefore (c : Cfg) (g : CircGen ℝ) : Prop :=
  arcQuarter g.startAP g.startBP =
    arcQuarter (g.startAP + g.delta.get (axisA g.plane) * c.ppm.get (axisA g.plane))
      (g.startBP + g.delta.get (axisB g.plane) * c.ppm.get (axisB g.plane)) ∧
  (g.startAP + g.delta.get (axisA g.plane) * c.ppm.get (axisA g.plane)) * g.startBP <
    g.startAP * (g.startBP + g.delta.get (axisB g.plane) * c.ppm.get (axisB g.plane))

/-- Size of the table in the direction of an axis. -/
def tableSize (c : Cfg) : Axis → Rat
  | .x => c.tableX
  | .y => c.tableY
  | .z => c.tableZ
  | .e => 0

/-- The whole circle with the vector `radius` from its start to its centre lies on the table, if it
starts where the motors are after the calls `earlier`. -/
def CircleInside (c : Cfg) (earlier : List (HalCall ℝ)) (radius : V4 ℝ) (plane : Plane) : Prop :=
  ∀ evs, Sends c earlier evs → ∀ ax, ax = axisA plane ∨ ax = axisB plane →
    startDist plane radius ≤ netSteps c ax evs / (c.ppm.get ax : ℝ) + radius.get ax ∧
    netSteps c ax evs / (c.ppm.get ax : ℝ) + radius.get ax + startDist plane radius ≤ tableSize c ax

/-- The arc of the circular move `g`, from its start to its end in the sense of the move, lies on the
table, if it starts where the motors are after the calls `earlier`. -/
def ArcInside (c : Cfg) (earlier : List (HalCall ℝ)) (g : CircGen ℝ) (radius : V4 ℝ) (plane : Plane) :
    Prop :=
  ∀ evs T, Sends c earlier evs → Sweep plane g.delta radius g.rot T →
    ∀ ax, ax = axisA plane ∨ ax = axisB plane →
      (0 ≤ netSteps c ax evs / (c.ppm.get ax : ℝ) + g.delta.get ax ∧
        netSteps c ax evs / (c.ppm.get ax : ℝ) + g.delta.get ax ≤ tableSize c ax) ∧
      ∀ θ, 0 ≤ θ → θ ≤ T →
        0 ≤ netSteps c ax evs / (c.ppm.get ax : ℝ) + radius.get ax + turnedOn plane radius g.rot θ ax ∧
        netSteps c ax evs / (c.ppm.get ax : ℝ) + radius.get ax + turnedOn plane radius g.rot θ ax ≤
          tableSize c ax

/-- The end of the circular move `g`, and of the outermost points of the circle on its way the last
one, lie on the table (all of them, if it is a full turn), if it starts where the motors are after the
calls `earlier`. -/
def LastInside (c : Cfg) (earlier : List (HalCall ℝ)) (g : CircGen ℝ) (radius : V4 ℝ) (plane : Plane) :
    Prop :=
  ∀ evs T, Sends c earlier evs → Sweep plane g.delta radius g.rot T →
    ∀ ax, ax = axisA plane ∨ ax = axisB plane →
      (0 ≤ netSteps c ax evs / (c.ppm.get ax : ℝ) + g.delta.get ax ∧
        netSteps c ax evs / (c.ppm.get ax : ℝ) + g.delta.get ax ≤ tableSize c ax) ∧
      ∀ θ, 0 < θ → θ < T → OutermostOn plane radius g.rot θ ax →
        (T < 2 * Real.pi → ∀ θ', θ < θ' → θ' < T → ¬ Outermost plane radius g.rot θ') →
        0 ≤ netSteps c ax evs / (c.ppm.get ax : ℝ) + radius.get ax + turnedOn plane radius g.rot θ ax ∧
        netSteps c ax evs / (c.ppm.get ax : ℝ) + radius.get ax + turnedOn plane radius g.rot θ ax ≤
          tableSize c ax

/-- After the angle `θ` an arc that starts at `pos` is on the table, as far as the axis `ax` goes. -/
def TurnedOnTable (c : Cfg) (pos radius : V4 ℝ) (plane : Plane) (rot : Rot) (θ : ℝ) (ax : Axis) : Prop :=
  0 ≤ pos.get ax + radius.get ax + turnedOn plane radius rot θ ax ∧
    pos.get ax + radius.get ax + turnedOn plane radius rot θ ax ≤ tableSize c ax

/-- The steps of X, Y and Z are decimal numbers, and so is the size of the table, which is a whole
number of steps. -/
structure StepTable (c : Cfg) : Prop where
  step : ∀ ax, ax ≠ .e → DecimalStep c ax ∧ 0 < c.ppm.get ax
  table : TableOk c
  whole : ∀ ax, ax ≠ .e → ∃ n : ℤ, tableSize c ax * c.ppm.get ax = n

/-- Number of moves in a trace. -/
def moveCount {F : Type} : List (HalCall F) → ℕ
  | [] => 0
  | .move _ :: tr => moveCount tr + 1
  | _ :: tr => moveCount tr

end PyCNC.Spec
