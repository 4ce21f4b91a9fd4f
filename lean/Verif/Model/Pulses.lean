import Verif.Model.Config
import Verif.Model.Coordinates

/-!
# `cnc/pulses.py`: pulse generators
-/

namespace PyCNC

/-- `PLANE_XY`, `PLANE_ZX`, `PLANE_YZ`, `enums.py:33-35`. -/
inductive Plane where
  | xy | zx | yz
  deriving DecidableEq, Repr

/-- `CW`, `CCW`, `enums.py:43-44`. -/
inductive Rot where
  | cw | ccw
  deriving DecidableEq, Repr

variable {F : Type} [PyNum F]

/-- `SECONDS_IN_MINUTE`, `pulses.py:8`. -/
def secInMin : F := PyNum.ofRat 60

/-- One axis of `_adjust_velocity`, e.g. `pulses.py:60-62`. -/
def adjustAxis (k v : F) (maxVel : Rat) : Except PyErr F :=
  if PyNum.ofRat maxVel <ₚ v *ₚ secInMin then do
    let q ← pdiv (PyNum.ofRat maxVel) v
    return pmin k (q /ₚ secInMin)
  else return k

/-- `_adjust_velocity`, `pulses.py:51-74`. -/
def adjustVelocity (c : Cfg) (v : V4 F) : Except PyErr (V4 F) :=
  if !c.autoVel then return v
  else do
    let k ← adjustAxis (PyNum.ofRat 1) v.x c.maxVel.x
    let k ← adjustAxis k v.y c.maxVel.y
    let k ← adjustAxis k v.z c.maxVel.z
    let k ← adjustAxis k v.e c.maxVel.e
    return Coord.smul v k

/-! ## Linear interpolation -/

/-- The attributes of a `PulseGeneratorLinear`, `pulses.py:250-291`. -/
structure LinearGen (F : Type) where
  /-- `_delta` -/
  delta : V4 F
  /-- `max_velocity_mm_per_sec` -/
  maxV : V4 F
  /-- `acceleration_time_s` -/
  accT : F
  /-- `linear_time_s` -/
  linT : F
  /-- `_total_pulses_*` -/
  total : V4 Int
  /-- `_direction` -/
  dir : V4 Int

/-- `PulseGeneratorLinear.__init__`, `pulses.py:251-291`. -/
def LinearGen.new (c : Cfg) (delta : V4 F) (velocity : F) : Except PyErr (LinearGen F) := do
  let distance := Coord.abs delta
  let distTotal := Coord.length distance
  let perSec ← pdiv (velocity /ₚ secInMin) distTotal
  let maxV ← adjustVelocity c (Coord.smul distance perSec)
  let a : F := PyNum.ofRat c.accel
  let accT := Coord.findMax maxV /ₚ a
  let total : V4 Int :=
    ⟨PyNum.roundI (distance.x *ₚ PyNum.ofRat c.ppm.x),
     PyNum.roundI (distance.y *ₚ PyNum.ofRat c.ppm.y),
     PyNum.roundI (distance.z *ₚ PyNum.ofRat c.ppm.z),
     PyNum.roundI (distance.e *ₚ PyNum.ofRat c.ppm.e)⟩
  let dir : V4 Int := ⟨sign1 delta.x, sign1 delta.y, sign1 delta.z, sign1 delta.e⟩
  if distTotal <ₚ a *ₚ (accT *ₚ accT) then do
    let accT' := PyNum.sqrt (distTotal /ₚ a)
    let maxV' ← Coord.sdiv distance accT'
    return ⟨delta, maxV', accT', zeroF, total, dir⟩
  else do
    let linDist := distTotal -ₚ accT *ₚ accT *ₚ a
    let linT ← pdiv linDist (Coord.length maxV)
    return ⟨delta, maxV, accT, linT, total, dir⟩

/-- `PulseGeneratorLinear.__linear`, `pulses.py:300-308`. -/
def linearTime (i : Nat) (ppm : Rat) (total : Int) (v : F) : Except PyErr (Option F) :=
  if total = 0 ∨ (i : Int) ≥ total then return none
  else do
    let t ← pdiv (ofInt i /ₚ PyNum.ofRat ppm) v
    return some t

/-- `PulseGeneratorLinear._interpolation_function`, `pulses.py:310-322`. -/
def LinearGen.interp (c : Cfg) (g : LinearGen F) (it : V4 Nat) :
    Except PyErr (V4 Int × V4 (Option F)) := do
  let tx ← linearTime it.x c.ppm.x g.total.x g.maxV.x
  let ty ← linearTime it.y c.ppm.y g.total.y g.maxV.y
  let tz ← linearTime it.z c.ppm.z g.total.z g.maxV.z
  let te ← linearTime it.e c.ppm.e g.total.e g.maxV.e
  return (g.dir, ⟨tx, ty, tz, te⟩)

/-! ## Circular interpolation -/

/-- The attributes of a `PulseGeneratorCircular`, `pulses.py:325-565`. -/
structure CircGen (F : Type) where
  delta : V4 F
  plane : Plane
  rot : Rot
  radiusA2 : F
  radiusB2 : F
  radiusAP : Int
  radiusBP : Int
  startAP : Int
  startBP : Int
  dirA : Int
  dirB : Int
  sideA : Bool
  sideB : Bool
  startAngle : F
  deltaAngle : F
  itA : Int
  itB : Int
  it3 : F
  itE : F
  vel3 : F
  velE : F
  rDivV : F
  dir3 : Int
  dirE : Int
  maxV : V4 F
  accT : F
  linT : F

/-- `__angle`, `pulses.py:567-573`. -/
def angle (a b : F) : Except PyErr F := do
  let q ← pdiv b (PyNum.sqrt (a *ₚ a +ₚ b *ₚ b))
  let ang ← pacos q
  return if a <ₚ zeroF then PyNum.ofRat 2 *ₚ PyNum.pi -ₚ ang else ang

/-- `dir_a` and `dir_b`, `pulses.py:398-415`. -/
def startDirs (rot : Rot) (startAngle : F) : Int × Int :=
  let pi : F := PyNum.pi
  let two : F := PyNum.ofRat 2
  let three : F := PyNum.ofRat 3
  match rot with
  | .cw =>
    (if pi /ₚ two ≤ₚ startAngle && startAngle <ₚ three *ₚ pi /ₚ two then -1 else 1,
     if pi ≤ₚ startAngle then 1 else -1)
  | .ccw =>
    (if startAngle ≤ₚ pi /ₚ two || three *ₚ pi /ₚ two <ₚ startAngle then -1 else 1,
     if zeroF <ₚ startAngle && startAngle ≤ₚ pi then 1 else -1)

/-- Body of the loop over the quarters, `pulses.py:446-474`.  `ra`, `rb`, `saP`, ... are
`round(radius * apm)`, `round(radius * bpm)`, `round(abs(sa) * apm)`, ... -/
def quarterStep (qs qe : Int) (ra rb saP sbP eaP ebP : Int) (acc : Int × Int) (r : Int) :
    Int × Int :=
  let i := if r ≥ 4 then r - 4 else r
  if r = qs then
    (acc.1 + (if i = 0 ∨ i = 2 then ra - saP else saP),
     acc.2 + (if i = 1 ∨ i = 3 then rb - sbP else sbP))
  else if r = qe then
    (acc.1 + (if i = 0 ∨ i = 2 then eaP else ra - eaP),
     acc.2 + (if i = 1 ∨ i = 3 then ebP else rb - ebP))
  else (acc.1 + ra, acc.2 + rb)

/-- `range(a, b)` of Python on integers. -/
def pyRange (a b : Int) : List Int := (List.range (b - a).toNat).map (fun (k : Nat) => a + k)

/-- `_iterations_a`, `_iterations_b`, `pulses.py:430-479`. -/
def arcIterations (rot : Rot) (startAngle endAngle : F)
    (ra rb saP sbP eaP ebP diffA diffB : Int) : Int × Int :=
  let endM := if endAngle ≤ₚ startAngle then endAngle +ₚ PyNum.ofRat 2 *ₚ PyNum.pi else endAngle
  let half : F := PyNum.pi /ₚ PyNum.ofRat 2
  let qs := PyNum.truncI (startAngle /ₚ half)
  let qe := PyNum.truncI (endM /ₚ half)
  if qe - qs ≥ 4 then (4 * ra, 4 * rb)
  else
    let it :=
      if qs = qe then (diffA, diffB)
      else (pyRange qs (qe + 1)).foldl (quarterStep qs qe ra rb saP sbP eaP ebP) (0, 0)
    match rot with
    | .ccw => (4 * ra - it.1, 4 * rb - it.2)
    | .cw => it

/-- The components of a vector in the axes (a, b, third) of a plane, `pulses.py:353-373`
and `pulses.py:483-506`. -/
def planeAxes (p : Plane) {α : Type} (v : V4 α) : α × α × α :=
  match p with
  | .xy => (v.x, v.y, v.z)
  | .yz => (v.y, v.z, v.x)
  | .zx => (v.z, v.x, v.y)

/-- `Coordinates(...)` of the velocities, `pulses.py:518-520, 525-527, 532-534`. -/
def planeVel (p : Plane) (circ v3 ve : F) : V4 F :=
  match p with
  | .xy => Coord.new circ circ v3 ve
  | .yz => Coord.new v3 circ circ ve
  | .zx => Coord.new circ v3 circ ve

/-- `PulseGeneratorCircular.__init__`, `pulses.py:326-565`.  Divisions by
`STEPPER_PULSES_PER_MM_*` and by the acceleration are plain divisions (constants).  The
branch "Unknown plane" cannot occur because `Plane` has three values. -/
def CircGen.new (c : Cfg) (delta radius : V4 F) (plane : Plane) (rot : Rot) (velocity : F) :
    Except PyErr (CircGen F) := do
  let velocity := velocity /ₚ secInMin
  let (rx, ry, _) := planeAxes plane radius
  let (da, db, d3) := planeAxes plane delta
  let (apm, bpm, ppm3) := planeAxes plane c.ppm
  let sa := PyNum.neg rx
  let sb := PyNum.neg ry
  let ea := sa +ₚ da
  let eb := sb +ₚ db
  let apmF : F := PyNum.ofRat apm
  let bpmF : F := PyNum.ofRat bpm
  let mpmF : F := PyNum.ofRat (if bpm < apm then bpm else apm)
  let r0 := PyNum.sqrt (sa *ₚ sa +ₚ sb *ₚ sb)
  let rad := ofInt (PyNum.roundI (r0 *ₚ mpmF)) /ₚ mpmF
  let radA := ofInt (PyNum.roundI (r0 *ₚ apmF)) /ₚ apmF
  let radB := ofInt (PyNum.roundI (r0 *ₚ bpmF)) /ₚ bpmF
  let radiusAP := PyNum.truncI (rad *ₚ apmF)
  let radiusBP := PyNum.truncI (rad *ₚ bpmF)
  let startAP := PyNum.truncI (sa *ₚ apmF)
  let startBP := PyNum.truncI (sb *ₚ bpmF)
  if !(ofInt (PyNum.roundI (PyNum.sqrt (ea *ₚ ea +ₚ eb *ₚ eb) *ₚ mpmF)) /ₚ mpmF =ₚ rad) then
    throw (.assertion "Wrong end point")
  let startAngle ← angle sa sb
  let endAngle ← angle ea eb
  let twoPi : F := PyNum.ofRat 2 *ₚ PyNum.pi
  let dAngle := endAngle -ₚ startAngle
  let dAngle := if dAngle <ₚ zeroF || (dAngle =ₚ zeroF && rot = .cw) then dAngle +ₚ twoPi
    else dAngle
  let dAngle := if rot = .ccw then dAngle -ₚ twoPi else dAngle
  let (dirA, dirB) := startDirs rot startAngle
  let sideA := decide (startBP < 0) || (decide (startBP = 0) && decide (dirB < 0))
  let sideB := decide (startAP < 0) || (decide (startAP = 0) && decide (dirA < 0))
  let deltaAngle := PyNum.abs dAngle
  let (itA, itB) := arcIterations rot startAngle endAngle
    (PyNum.roundI (rad *ₚ apmF)) (PyNum.roundI (rad *ₚ bpmF))
    (PyNum.roundI (PyNum.abs sa *ₚ apmF)) (PyNum.roundI (PyNum.abs sb *ₚ bpmF))
    (PyNum.roundI (PyNum.abs ea *ₚ apmF)) (PyNum.roundI (PyNum.abs eb *ₚ bpmF))
    (PyNum.roundI (PyNum.abs (sa -ₚ ea) *ₚ apmF)) (PyNum.roundI (PyNum.abs (sb -ₚ eb) *ₚ bpmF))
  let arc := deltaAngle *ₚ rad
  let e2 := delta.e *ₚ delta.e
  let it3 := PyNum.abs d3 *ₚ PyNum.ofRat ppm3
  let fullLength := PyNum.sqrt (arc *ₚ arc +ₚ d3 *ₚ d3 +ₚ e2)
  let isNull := fullLength =ₚ zeroF
  let vel3 := if isNull then velocity else PyNum.abs d3 /ₚ fullLength *ₚ velocity
  let dir3 := sign1 d3
  let itE := PyNum.abs delta.e *ₚ PyNum.ofRat c.ppm.e
  let circV := if isNull then velocity else arc /ₚ fullLength *ₚ velocity
  let velE := if isNull then velocity else PyNum.abs delta.e /ₚ fullLength *ₚ velocity
  let maxV ← adjustVelocity c (planeVel plane circV vel3 velE)
  let (mva, mvb, mv3) := planeAxes plane maxV
  let circV := pmin mva mvb
  let vel3 := mv3
  let velE := maxV.e
  let rDivV ← pdiv rad circV
  let dirE := sign1 delta.e
  let a : F := PyNum.ofRat c.accel
  let accT := Coord.findMax maxV /ₚ a
  let mk (maxV : V4 F) (accT linT : F) : CircGen F :=
    { delta, plane, rot, radiusA2 := radA *ₚ radA, radiusB2 := radB *ₚ radB, radiusAP, radiusBP,
      startAP, startBP, dirA, dirB, sideA, sideB, startAngle, deltaAngle, itA, itB, it3, itE,
      vel3, velE, rDivV, dir3, dirE, maxV, accT, linT }
  if isNull then return mk Coord.zero accT zeroF
  else if fullLength <ₚ a *ₚ (accT *ₚ accT) then do
    let accT' := PyNum.sqrt (fullLength /ₚ a)
    let v ← pdiv fullLength accT'
    return mk (maxV.map fun w => if zeroF <ₚ w then v else w) accT' zeroF
  else do
    let linDist := fullLength -ₚ accT *ₚ accT *ₚ a
    let linT ← pdiv linDist (PyNum.sqrt (circV *ₚ circV +ₚ vel3 *ₚ vel3 +ₚ velE *ₚ velE))
    return mk maxV accT linT

/-- `__circular_helper`, `pulses.py:582-597`. -/
def circularHelper (start i radius : Int) (side : Bool) (dir : Int) : Int × Int × Bool :=
  let np := start + dir * i
  let (np, dir, side) :=
    if np > radius then (np - 2 * (np - radius), -dir, !side) else (np, dir, side)
  let (np, dir, side) :=
    if np < -radius then (np - 2 * (np + radius), -dir, !side) else (np, dir, side)
  if np > radius then (np - 2 * (np - radius), -dir, !side) else (np, dir, side)

/-- `__circular_find_time`, `pulses.py:599-607`. -/
def CircGen.findTime (g : CircGen F) (a b : F) : Except PyErr F := do
  let ang ← angle a b
  let d := match g.rot with
    | .cw => ang -ₚ g.startAngle
    | .ccw => g.startAngle -ₚ ang
  let d := if d ≤ₚ zeroF then d +ₚ PyNum.ofRat 2 *ₚ PyNum.pi else d
  return g.rDivV *ₚ d

/-- `__circular_a`, `pulses.py:609-623`. -/
def CircGen.circularA (g : CircGen F) (i : Nat) (ppm : Rat) : Except PyErr (Int × Option F) :=
  if (i : Int) ≥ g.itA then return (g.dirA, none)
  else
    let (ap, dir, side) := circularHelper g.startAP (i + 1) g.radiusAP g.sideA g.dirA
    let a := ofInt ap /ₚ PyNum.ofRat ppm
    if (i : Int) + 1 = g.itA then return (dir, some (g.rDivV *ₚ g.deltaAngle))
    else do
      let b ← psqrt (g.radiusA2 -ₚ a *ₚ a)
      let t ← g.findTime a (if side then PyNum.neg b else b)
      return (dir, some t)

/-- `__circular_b`, `pulses.py:625-639`. -/
def CircGen.circularB (g : CircGen F) (i : Nat) (ppm : Rat) : Except PyErr (Int × Option F) :=
  if (i : Int) ≥ g.itB then return (g.dirB, none)
  else
    let (bp, dir, side) := circularHelper g.startBP (i + 1) g.radiusBP g.sideB g.dirB
    let b := ofInt bp /ₚ PyNum.ofRat ppm
    if (i : Int) + 1 = g.itB then return (dir, some (g.rDivV *ₚ g.deltaAngle))
    else do
      let a ← psqrt (g.radiusB2 -ₚ b *ₚ b)
      let t ← g.findTime (if side then PyNum.neg a else a) b
      return (dir, some t)

/-- `PulseGeneratorCircular.__linear`, `pulses.py:641-645`. -/
def circLinear (i : Nat) (total : F) (ppm : Rat) (v : F) : Except PyErr (Option F) :=
  if total ≤ₚ ofInt i then return none
  else do
    let t ← pdiv (ofInt i /ₚ PyNum.ofRat ppm) v
    return some t

/-- `PulseGeneratorCircular._interpolation_function`, `pulses.py:647-671`. -/
def CircGen.interp (c : Cfg) (g : CircGen F) (it : V4 Nat) :
    Except PyErr (V4 Int × V4 (Option F)) :=
  match g.plane with
  | .xy => do
    let (dx, tx) ← g.circularA it.x c.ppm.x
    let (dy, ty) ← g.circularB it.y c.ppm.y
    let tz ← circLinear it.z g.it3 c.ppm.z g.vel3
    let te ← circLinear it.e g.itE c.ppm.e g.velE
    return (⟨dx, dy, g.dir3, g.dirE⟩, ⟨tx, ty, tz, te⟩)
  | .yz => do
    let (dy, ty) ← g.circularA it.y c.ppm.y
    let (dz, tz) ← g.circularB it.z c.ppm.z
    let tx ← circLinear it.x g.it3 c.ppm.x g.vel3
    let te ← circLinear it.e g.itE c.ppm.e g.velE
    return (⟨g.dir3, dy, dz, g.dirE⟩, ⟨tx, ty, tz, te⟩)
  | .zx => do
    let (dz, tz) ← g.circularA it.z c.ppm.z
    let (dx, tx) ← g.circularB it.x c.ppm.x
    let ty ← circLinear it.y g.it3 c.ppm.y g.vel3
    let te ← circLinear it.e g.itE c.ppm.e g.velE
    return (⟨dx, g.dir3, dz, g.dirE⟩, ⟨tx, ty, tz, te⟩)

/-! ## The iterator -/

/-- A pulse generator object. -/
inductive Gen (F : Type) where
  | linear (g : LinearGen F)
  | circular (g : CircGen F)

namespace Gen

/-- `_interpolation_function` of the object's class. -/
def interp (c : Cfg) : Gen F → V4 Nat → Except PyErr (V4 Int × V4 (Option F))
  | .linear g => g.interp c
  | .circular g => g.interp c

/-- `_get_movement_parameters`, first value. -/
def accT : Gen F → F
  | .linear g => g.accT
  | .circular g => g.accT

/-- `_get_movement_parameters`, second value. -/
def linT : Gen F → F
  | .linear g => g.linT
  | .circular g => g.linT

/-- `_get_movement_parameters`, third value, `pulses.py:293-298, 575-580`. -/
def maxVSec : Gen F → V4 F
  | .linear g => g.maxV
  | .circular g => g.maxV

/-- `delta()`, `pulses.py:236-240`. -/
def delta : Gen F → V4 F
  | .linear g => g.delta
  | .circular g => g.delta

/-- `max_velocity()`, `pulses.py:242-247`. -/
def maxVelocity (g : Gen F) : V4 F := Coord.smul g.maxVSec secInMin

/-- `total_time_s()`, `pulses.py:229-234`. -/
def totalTime (g : Gen F) : F := g.accT *ₚ PyNum.ofRat 2 +ₚ g.linT

/-- `_2Vmax_per_a` as set by `__iter__`, `pulses.py:115-116`. -/
def twoVmaxPerA (c : Cfg) (g : Gen F) : F :=
  PyNum.ofRat 2 *ₚ Coord.findMax g.maxVSec /ₚ PyNum.ofRat c.accel

/-- `_to_accelerated_time`, `pulses.py:125-155`. -/
def toAccelerated (c : Cfg) (g : Gen F) (pt : F) : Except PyErr F := do
  let k := g.twoVmaxPerA c
  let t ← psqrt (pt *ₚ k)
  if t ≤ₚ g.accT then return t
  else do
    let q ← pdiv (g.accT *ₚ g.accT) k
    let t := g.accT +ₚ pt -ₚ q
    let bt := t -ₚ g.accT -ₚ g.linT
    if bt ≤ₚ zeroF then return t
    else
      let d := g.accT *ₚ g.accT -ₚ k *ₚ bt
      let d := if zeroF <ₚ d then PyNum.sqrt d else zeroF
      return PyNum.ofRat 2 *ₚ g.accT +ₚ g.linT -ₚ d

end Gen

/-- Iterator state: `_iteration_x` ... and `_iteration_direction`, `pulses.py:117-121`. -/
structure GenState where
  it : V4 Nat
  dir : Option (V4 Int)
  deriving DecidableEq, Repr

/-- State after `__iter__`, `pulses.py:108-123`. -/
def GenState.init : GenState := ⟨⟨0, 0, 0, 0⟩, none⟩

/-- A value returned by `next`, `pulses.py:163-171`. -/
inductive Event (F : Type) where
  /-- `(True, dir_x, dir_y, dir_z, dir_e)` -/
  | dir (d : V4 Int)
  /-- `(False, tx, ty, tz, te)` -/
  | pulse (t : V4 (Option F))

/-- Direction after the inversion of inverted axes, `pulses.py:181-190`. -/
def invertDirs (c : Cfg) (d : V4 Int) : V4 Int :=
  ⟨if c.inverted.x then -d.x else d.x, if c.inverted.y then -d.y else d.y,
   if c.inverted.z then -d.z else d.z, if c.inverted.e then -d.e else d.e⟩

/-- The search for the minimum, `pulses.py:196-199`. -/
def minTime (t : V4 (Option F)) : Option F :=
  [t.x, t.y, t.z, t.e].foldl (fun m i =>
    match i, m with
    | none, _ => m
    | some i, none => some i
    | some i, some m => if i <ₚ m then some i else some m) none

/-- One axis of "sort pulses in time", e.g. `pulses.py:202-207`: the reported time and the
new iteration number. -/
def fireAxis (t : Option F) (m am : F) (i : Nat) : Option F × Nat :=
  match t with
  | none => (none, i)
  | some t => if m <ₚ t then (none, i) else (some am, i + 1)

/-- `next`, `pulses.py:161-227`.  `none` is `StopIteration`. -/
def Gen.next (c : Cfg) (g : Gen F) (s : GenState) :
    Except PyErr (Option (Event F × GenState)) := do
  let (d, t) ← g.interp c s.it
  if some d ≠ s.dir then
    return some (.dir (invertDirs c d), { s with dir := some d })
  else
    match minTime t with
    | none => return none
    | some m => do
      let am ← g.toAccelerated c m
      let (tx, ix) := fireAxis t.x m am s.it.x
      let (ty, iy) := fireAxis t.y m am s.it.y
      let (tz, iz) := fireAxis t.z m am s.it.z
      let (te, ie) := fireAxis t.e m am s.it.e
      return some (.pulse ⟨tx, ty, tz, te⟩, { s with it := ⟨ix, iy, iz, ie⟩ })

/-- How an iteration ended. -/
inductive RunEnd where
  /-- `StopIteration` -/
  | done
  /-- an exception -/
  | raised (e : PyErr)
  /-- the given number of calls was not enough -/
  | unfinished
  deriving DecidableEq, Repr

/-- The events of at most `n` calls of `next`, as seen by `for ... in generator`. -/
def Gen.run (c : Cfg) (g : Gen F) : Nat → GenState → List (Event F) × RunEnd
  | 0, _ => ([], .unfinished)
  | n + 1, s =>
    match g.next c s with
    | .error e => ([], .raised e)
    | .ok none => ([], .done)
    | .ok (some (ev, s')) =>
      let r := g.run c n s'
      (ev :: r.1, r.2)

end PyCNC
