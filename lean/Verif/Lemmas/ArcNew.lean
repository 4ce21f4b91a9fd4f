import Verif.Lemmas.ArcAngle
import Verif.Lemmas.ArcCount

/-!
# The constructor of circular generators
-/

set_option linter.unusedSectionVars false

namespace PyCNC

open Spec

section Any

variable {F : Type} [PyNum F]

/-- The start of an arc relative to its centre: first axis of the plane. -/
def arcSA (plane : Plane) (radius : V4 F) : F := PyNum.neg (planeAxes plane radius).1
/-- The start of an arc relative to its centre: second axis of the plane. -/
def arcSB (plane : Plane) (radius : V4 F) : F := PyNum.neg (planeAxes plane radius).2.1
/-- The end of an arc relative to its centre: first axis. -/
def arcEA (plane : Plane) (delta radius : V4 F) : F :=
  arcSA plane radius +ₚ (planeAxes plane delta).1
/-- The end of an arc relative to its centre: second axis. -/
def arcEB (plane : Plane) (delta radius : V4 F) : F :=
  arcSB plane radius +ₚ (planeAxes plane delta).2.1
/-- `min(apm, bpm)`. -/
def arcMpm (c : Cfg) (plane : Plane) : Rat :=
  if (planeAxes plane c.ppm).2.1 < (planeAxes plane c.ppm).1 then (planeAxes plane c.ppm).2.1
  else (planeAxes plane c.ppm).1
/-- The radius fitted to a number of pulses per mm. -/
def arcRad (q : Rat) (plane : Plane) (radius : V4 F) : F :=
  ofInt (PyNum.roundI (PyNum.sqrt (arcSA plane radius *ₚ arcSA plane radius +ₚ
    arcSB plane radius *ₚ arcSB plane radius) *ₚ PyNum.ofRat q)) /ₚ PyNum.ofRat q

/-- What the constructor puts into the attributes that decide about the pulses. -/
structure NewFacts (c : Cfg) (delta radius : V4 F) (plane : Plane) (rot : Rot) (g : CircGen F)
    (φs φe : F) : Prop where
  plane_eq : g.plane = plane
  rot_eq : g.rot = rot
  delta_eq : g.delta = delta
  angS : angle (arcSA plane radius) (arcSB plane radius) = .ok φs
  angE : angle (arcEA plane delta radius) (arcEB plane delta radius) = .ok φe
  endOk : (ofInt (PyNum.roundI (PyNum.sqrt (arcEA plane delta radius *ₚ arcEA plane delta radius +ₚ
    arcEB plane delta radius *ₚ arcEB plane delta radius) *ₚ PyNum.ofRat (arcMpm c plane))) /ₚ
    PyNum.ofRat (arcMpm c plane) =ₚ arcRad (arcMpm c plane) plane radius) = true
  startA : g.startAP = PyNum.truncI (arcSA plane radius *ₚ PyNum.ofRat (planeAxes plane c.ppm).1)
  startB : g.startBP = PyNum.truncI (arcSB plane radius *ₚ PyNum.ofRat (planeAxes plane c.ppm).2.1)
  radA : g.radiusAP = PyNum.truncI (arcRad (arcMpm c plane) plane radius *ₚ
    PyNum.ofRat (planeAxes plane c.ppm).1)
  radB : g.radiusBP = PyNum.truncI (arcRad (arcMpm c plane) plane radius *ₚ
    PyNum.ofRat (planeAxes plane c.ppm).2.1)
  rad2A : g.radiusA2 = arcRad (planeAxes plane c.ppm).1 plane radius *ₚ
    arcRad (planeAxes plane c.ppm).1 plane radius
  rad2B : g.radiusB2 = arcRad (planeAxes plane c.ppm).2.1 plane radius *ₚ
    arcRad (planeAxes plane c.ppm).2.1 plane radius
  dirs : (g.dirA, g.dirB) = startDirs rot φs
  sideA : g.sideA = (decide (g.startBP < 0) || (decide (g.startBP = 0) && decide (g.dirB < 0)))
  sideB : g.sideB = (decide (g.startAP < 0) || (decide (g.startAP = 0) && decide (g.dirA < 0)))
  angStart : g.startAngle = φs
  its : (g.itA, g.itB) = arcIterations rot φs φe
    (PyNum.roundI (arcRad (arcMpm c plane) plane radius *ₚ PyNum.ofRat (planeAxes plane c.ppm).1))
    (PyNum.roundI (arcRad (arcMpm c plane) plane radius *ₚ PyNum.ofRat (planeAxes plane c.ppm).2.1))
    (PyNum.roundI (PyNum.abs (arcSA plane radius) *ₚ PyNum.ofRat (planeAxes plane c.ppm).1))
    (PyNum.roundI (PyNum.abs (arcSB plane radius) *ₚ PyNum.ofRat (planeAxes plane c.ppm).2.1))
    (PyNum.roundI (PyNum.abs (arcEA plane delta radius) *ₚ PyNum.ofRat (planeAxes plane c.ppm).1))
    (PyNum.roundI (PyNum.abs (arcEB plane delta radius) *ₚ PyNum.ofRat (planeAxes plane c.ppm).2.1))
    (PyNum.roundI (PyNum.abs (arcSA plane radius -ₚ arcEA plane delta radius) *ₚ
      PyNum.ofRat (planeAxes plane c.ppm).1))
    (PyNum.roundI (PyNum.abs (arcSB plane radius -ₚ arcEB plane delta radius) *ₚ
      PyNum.ofRat (planeAxes plane c.ppm).2.1))
  it3 : g.it3 = PyNum.abs (planeAxes plane delta).2.2 *ₚ PyNum.ofRat (planeAxes plane c.ppm).2.2
  itE : g.itE = PyNum.abs delta.e *ₚ PyNum.ofRat c.ppm.e
  dir3 : g.dir3 = sign1 (planeAxes plane delta).2.2
  dirE : g.dirE = sign1 delta.e

/-- `delta_angle` before `abs`. -/
def arcTurn (rot : Rot) (φs φe : F) : F :=
  let d := if φe -ₚ φs <ₚ zeroF || (φe -ₚ φs =ₚ zeroF && rot = .cw) then
      φe -ₚ φs +ₚ PyNum.ofRat 2 *ₚ PyNum.pi else φe -ₚ φs
  if rot = .ccw then d -ₚ PyNum.ofRat 2 *ₚ PyNum.pi else d

/-- `arc`. -/
def arcArc (c : Cfg) (radius : V4 F) (plane : Plane) (rot : Rot) (φs φe : F) : F :=
  PyNum.abs (arcTurn rot φs φe) *ₚ arcRad (arcMpm c plane) plane radius

/-- `full_length`. -/
def arcFull (c : Cfg) (delta radius : V4 F) (plane : Plane) (rot : Rot) (φs φe : F) : F :=
  PyNum.sqrt (arcArc c radius plane rot φs φe *ₚ arcArc c radius plane rot φs φe +ₚ
    (planeAxes plane delta).2.2 *ₚ (planeAxes plane delta).2.2 +ₚ delta.e *ₚ delta.e)

/-- The generator for given velocities. -/
def arcMk (c : Cfg) (delta radius : V4 F) (plane : Plane) (rot : Rot) (φs φe vel3 velE rDivV : F)
    (maxV : V4 F) (accT linT : F) : CircGen F :=
  let apm := (planeAxes plane c.ppm).1
  let bpm := (planeAxes plane c.ppm).2.1
  let sa := arcSA plane radius
  let sb := arcSB plane radius
  let ea := arcEA plane delta radius
  let eb := arcEB plane delta radius
  let rad := arcRad (arcMpm c plane) plane radius
  let dirs := startDirs rot φs
  let startAP := PyNum.truncI (sa *ₚ PyNum.ofRat apm)
  let startBP := PyNum.truncI (sb *ₚ PyNum.ofRat bpm)
  let its := arcIterations rot φs φe
    (PyNum.roundI (rad *ₚ PyNum.ofRat apm)) (PyNum.roundI (rad *ₚ PyNum.ofRat bpm))
    (PyNum.roundI (PyNum.abs sa *ₚ PyNum.ofRat apm)) (PyNum.roundI (PyNum.abs sb *ₚ PyNum.ofRat bpm))
    (PyNum.roundI (PyNum.abs ea *ₚ PyNum.ofRat apm)) (PyNum.roundI (PyNum.abs eb *ₚ PyNum.ofRat bpm))
    (PyNum.roundI (PyNum.abs (sa -ₚ ea) *ₚ PyNum.ofRat apm))
    (PyNum.roundI (PyNum.abs (sb -ₚ eb) *ₚ PyNum.ofRat bpm))
  { delta, plane, rot, radiusA2 := arcRad apm plane radius *ₚ arcRad apm plane radius,
    radiusB2 := arcRad bpm plane radius *ₚ arcRad bpm plane radius,
    radiusAP := PyNum.truncI (rad *ₚ PyNum.ofRat apm), radiusBP := PyNum.truncI (rad *ₚ PyNum.ofRat bpm),
    startAP, startBP, dirA := dirs.1, dirB := dirs.2,
    sideA := decide (startBP < 0) || (decide (startBP = 0) && decide (dirs.2 < 0)),
    sideB := decide (startAP < 0) || (decide (startAP = 0) && decide (dirs.1 < 0)),
    startAngle := φs, deltaAngle := PyNum.abs (arcTurn rot φs φe), itA := its.1, itB := its.2,
    it3 := PyNum.abs (planeAxes plane delta).2.2 *ₚ PyNum.ofRat (planeAxes plane c.ppm).2.2,
    itE := PyNum.abs delta.e *ₚ PyNum.ofRat c.ppm.e,
    vel3, velE, rDivV, dir3 := sign1 (planeAxes plane delta).2.2, dirE := sign1 delta.e,
    maxV, accT, linT }

/-- The velocities handed to `_adjust_velocity`. -/
def arcVel (c : Cfg) (delta radius : V4 F) (plane : Plane) (rot : Rot) (v φs φe : F) : V4 F :=
  let full := arcFull c delta radius plane rot φs φe
  let v := v /ₚ secInMin
  planeVel plane
    (if full =ₚ zeroF then v else arcArc c radius plane rot φs φe /ₚ full *ₚ v)
    (if full =ₚ zeroF then v else PyNum.abs (planeAxes plane delta).2.2 /ₚ full *ₚ v)
    (if full =ₚ zeroF then v else PyNum.abs delta.e /ₚ full *ₚ v)

/-- `circular_velocity` after the adjustment. -/
def arcCirc (plane : Plane) (maxV : V4 F) : F :=
  pmin (planeAxes plane maxV).1 (planeAxes plane maxV).2.1

/-- The end of the constructor: times. -/
def arcTimes (c : Cfg) (delta radius : V4 F) (plane : Plane) (rot : Rot) (φs φe : F) (maxV : V4 F)
    (rDivV : F) : Except PyErr (CircGen F) :=
  let full := arcFull c delta radius plane rot φs φe
  let a : F := PyNum.ofRat c.accel
  let accT := Coord.findMax maxV /ₚ a
  let mk := arcMk c delta radius plane rot φs φe (planeAxes plane maxV).2.2 maxV.e rDivV
  if full =ₚ zeroF then .ok (mk Coord.zero accT zeroF)
  else if full <ₚ a *ₚ (accT *ₚ accT) then do
    let v ← pdiv full (PyNum.sqrt (full /ₚ a))
    return mk (maxV.map fun w => if zeroF <ₚ w then v else w) (PyNum.sqrt (full /ₚ a)) zeroF
  else do
    let linT ← pdiv (full -ₚ accT *ₚ accT *ₚ a) (PyNum.sqrt (arcCirc plane maxV *ₚ arcCirc plane maxV +ₚ
      (planeAxes plane maxV).2.2 *ₚ (planeAxes plane maxV).2.2 +ₚ maxV.e *ₚ maxV.e))
    return mk maxV accT linT

/-- The check of the end point. -/
def arcEndOk (c : Cfg) (delta radius : V4 F) (plane : Plane) : Bool :=
  ofInt (PyNum.roundI (PyNum.sqrt (arcEA plane delta radius *ₚ arcEA plane delta radius +ₚ
    arcEB plane delta radius *ₚ arcEB plane delta radius) *ₚ PyNum.ofRat (arcMpm c plane))) /ₚ
    PyNum.ofRat (arcMpm c plane) =ₚ arcRad (arcMpm c plane) plane radius

/-- The constructor in pieces. -/
theorem new_eq (c : Cfg) (delta radius : V4 F) (plane : Plane) (rot : Rot) (v : F) :
    CircGen.new c delta radius plane rot v =
      if !arcEndOk c delta radius plane then .error (.assertion "Wrong end point")
      else (angle (arcSA plane radius) (arcSB plane radius)).bind fun φs =>
        (angle (arcEA plane delta radius) (arcEB plane delta radius)).bind fun φe =>
        (adjustVelocity c (arcVel c delta radius plane rot v φs φe)).bind fun maxV =>
        (pdiv (arcRad (arcMpm c plane) plane radius) (arcCirc plane maxV)).bind fun rDivV =>
        arcTimes c delta radius plane rot φs φe maxV rDivV := by
  rfl

/-- The four results of the pieces of a successful constructor. -/
theorem new_ok {c : Cfg} {delta radius : V4 F} {plane : Plane} {rot : Rot} {v : F}
    {g : CircGen F} (h : CircGen.new c delta radius plane rot v = .ok g) :
    arcEndOk c delta radius plane = true ∧ ∃ φs φe maxV rDivV,
      angle (arcSA plane radius) (arcSB plane radius) = .ok φs ∧
      angle (arcEA plane delta radius) (arcEB plane delta radius) = .ok φe ∧
      adjustVelocity c (arcVel c delta radius plane rot v φs φe) = .ok maxV ∧
      pdiv (arcRad (arcMpm c plane) plane radius) (arcCirc plane maxV) = .ok rDivV ∧
      arcTimes c delta radius plane rot φs φe maxV rDivV = .ok g := by
  rw [new_eq] at h
  split at h
  · cases h
  · next he =>
    refine ⟨by simpa using he, ?_⟩
    rcases h1 : angle (arcSA plane radius) (arcSB plane radius) with e | φs
    · rw [h1] at h; cases h
    rcases h2 : angle (arcEA plane delta radius) (arcEB plane delta radius) with e | φe
    · rw [h1, h2] at h; cases h
    rcases h3 : adjustVelocity c (arcVel c delta radius plane rot v φs φe) with e | maxV
    · rw [h1, h2] at h; simp only [Except.bind, h3] at h; cases h
    rcases h4 : pdiv (arcRad (arcMpm c plane) plane radius) (arcCirc plane maxV) with e | q
    · rw [h1, h2] at h; simp only [Except.bind, h3, h4] at h; cases h
    rw [h1, h2] at h
    simp only [Except.bind, h3, h4] at h
    exact ⟨φs, φe, maxV, q, rfl, rfl, h3, h4, h⟩

/-- The times only affect the last attributes. -/
theorem times_mk {c : Cfg} {delta radius : V4 F} {plane : Plane} {rot : Rot} {φs φe : F}
    {maxV : V4 F} {rDivV : F} {g : CircGen F}
    (h : arcTimes c delta radius plane rot φs φe maxV rDivV = .ok g) :
    ∃ mV aT lT, g = arcMk c delta radius plane rot φs φe (planeAxes plane maxV).2.2 maxV.e rDivV
      mV aT lT := by
  unfold arcTimes at h
  simp only at h
  split at h
  · cases h; exact ⟨_, _, _, rfl⟩
  split at h
  · rcases hq : pdiv (arcFull c delta radius plane rot φs φe)
        (PyNum.sqrt (arcFull c delta radius plane rot φs φe /ₚ PyNum.ofRat c.accel)) with e | q
    · rw [hq] at h; cases h
    · rw [hq] at h; cases h; exact ⟨_, _, _, rfl⟩
  · generalize pdiv (F := F) _ _ = r at h
    rcases r with e | q
    · cases h
    · cases h; exact ⟨_, _, _, rfl⟩

theorem new_facts {c : Cfg} {delta radius : V4 F} {plane : Plane} {rot : Rot} {v : F}
    {g : CircGen F} (h : CircGen.new c delta radius plane rot v = .ok g) :
    ∃ φs φe, NewFacts c delta radius plane rot g φs φe := by
  obtain ⟨he, φs, φe, maxV, q, h1, h2, _, _, h5⟩ := new_ok h
  obtain ⟨mV, aT, lT, rfl⟩ := times_mk h5
  exact ⟨φs, φe, rfl, rfl, rfl, h1, h2, he, rfl, rfl, rfl, rfl, rfl, rfl, rfl, rfl, rfl, rfl, rfl,
    rfl, rfl, rfl, rfl⟩

end Any

end PyCNC
