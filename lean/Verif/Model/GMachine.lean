import Verif.Model.Pulses

/-!
# `cnc/gmachine.py`: the G-code machine

The machine is a state monad with exceptions in which the state changes made before an
exception persist.  Calls of the HAL are recorded in `MState.trace` (newest first); what
the HAL returns is decided by an environment that sees the whole trace.
-/

namespace PyCNC

/-- `HEATER_EXTRUDER`, `HEATER_BED`, `enums.py:52-53`. -/
inductive HeaterId where
  | extruder | bed
  deriving DecidableEq, Repr

/-- Calls into `cnc.hal`, `cnc.heater` and the operating system made by
`cnc/gmachine.py`. -/
inductive HalCall (F : Type) where
  /-- `hal.init()` -/
  | init
  /-- `hal.deinit()` -/
  | deinit
  /-- `hal.join()` -/
  | join
  /-- `hal.spindle_control(percent)` -/
  | spindle (percent : F)
  /-- `hal.fan_control(on)` -/
  | fan (on : Bool)
  /-- `hal.move(generator)` -/
  | move (g : Gen F)
  /-- `hal.calibrate(x, y, z)` -/
  | calibrate (x y z : Bool)
  /-- `hal.disable_steppers()` -/
  | disableSteppers
  /-- `hal.get_extruder_temperature()` / `hal.get_bed_temperature()` -/
  | measure (h : HeaterId)
  /-- the worker thread of a new `Heater` is started, `heater.py:32` -/
  | heaterStart (h : HeaterId) (target : F)
  /-- `Heater.stop()`, `heater.py:74-82` -/
  | heaterStop (h : HeaterId)
  /-- `Heater.wait()`, `heater.py:84-94` -/
  | heaterWait (h : HeaterId)
  /-- `time.sleep(seconds)` -/
  | sleep (seconds : F)
  /-- `logging_config.debug_enable()` -/
  | debugEnable
  /-- creation of the `HardwareWatchdog` thread, `gmachine.py:39` -/
  | watchdog

/-- What the outside world answers; every answer may depend on all calls so far
(including the call that is being answered, at the head of the list). -/
structure Env (F : Type) where
  /-- a temperature, or `none` for `IOError`/`OSError` -/
  measure : List (HalCall F) → Option F
  /-- an exception that escapes from `hal.move`, or `none` -/
  move : List (HalCall F) → Option PyErr
  /-- result of `hal.calibrate` -/
  calibrate : List (HalCall F) → Bool
  /-- an exception that escapes from `Heater.wait` (its `measure()` call), or `none`.
  Simplification: a `wait()` or `stop()` that never returns is not represented. -/
  wait : List (HalCall F) → Option PyErr

/-- The attributes of `GMachine`, `gmachine.py:24-39`, and the trace of HAL calls. -/
structure MState (F : Type) where
  /-- `_position` -/
  pos : V4 F
  /-- `_velocity` -/
  vel : F
  /-- `_spindle_rpm` -/
  spindle : F
  /-- `_local` -/
  loc : V4 F
  /-- `_convertCoordinates` -/
  conv : F
  /-- `_absoluteCoordinates` -/
  absMode : Bool
  /-- `_plane` -/
  plane : Plane
  /-- `_fan_state` -/
  fan : Bool
  /-- `_heaters[HEATER_EXTRUDER]`: target temperature of the registered heater -/
  heatE : Option F
  /-- `_heaters[HEATER_BED]` -/
  heatB : Option F
  /-- HAL calls so far, newest first -/
  trace : List (HalCall F)

/-- State and exception monad; the state survives an exception. -/
def M (F : Type) (α : Type) : Type := MState F → Except PyErr α × MState F

namespace M

variable {F α β : Type}

/-- Return a value. -/
def pure (a : α) : M F α := fun s => (.ok a, s)

/-- Sequence. -/
def bind (m : M F α) (f : α → M F β) : M F β := fun s =>
  match m s with
  | (.ok a, s') => f a s'
  | (.error e, s') => (.error e, s')

instance : Monad (M F) where
  pure := pure
  bind := bind

/-- Read the state. -/
def get : M F (MState F) := fun s => (.ok s, s)

/-- Change the state. -/
def modify (f : MState F → MState F) : M F Unit := fun s => (.ok (), f s)

/-- `raise`. -/
def throw (e : PyErr) : M F α := fun s => (.error e, s)

/-- Run a computation without state. -/
def lift (x : Except PyErr α) : M F α := fun s => (x, s)

/-- Record a HAL call. -/
def emit (call : HalCall F) : M F Unit := modify fun s => { s with trace := call :: s.trace }

end M

/-- The commands that `do_command` distinguishes, `gmachine.py:337-474`. -/
inductive Cmd where
  | g0 | g1 | g2 | g3 | g4 | g17 | g18 | g19 | g20 | g21 | g28 | g53 | g90 | g91 | g92
  | m3 | m5
  /-- `M2` or `M30` -/
  | finish
  | m84
  /-- `M104`, `M109`, `M140`, `M190` -/
  | heat (h : HeaterId) (wait : Bool)
  | m105 | m106 | m107 | m111 | m114
  /-- no command in the line -/
  | nothing
  | m82 | m83
  | unknown
  deriving DecidableEq, Repr

/-- The chain of string comparisons `c == 'G0'`, ... of `gmachine.py:337-474`. -/
def Cmd.decode : Option (List Char) → Cmd
  | none => .nothing
  | some c =>
    if c = ['G', '0'] then .g0
    else if c = ['G', '1'] then .g1
    else if c = ['G', '2'] then .g2
    else if c = ['G', '3'] then .g3
    else if c = ['G', '4'] then .g4
    else if c = ['G', '1', '7'] then .g17
    else if c = ['G', '1', '8'] then .g18
    else if c = ['G', '1', '9'] then .g19
    else if c = ['G', '2', '0'] then .g20
    else if c = ['G', '2', '1'] then .g21
    else if c = ['G', '2', '8'] then .g28
    else if c = ['G', '5', '3'] then .g53
    else if c = ['G', '9', '0'] then .g90
    else if c = ['G', '9', '1'] then .g91
    else if c = ['G', '9', '2'] then .g92
    else if c = ['M', '3'] then .m3
    else if c = ['M', '5'] then .m5
    else if c = ['M', '2'] ∨ c = ['M', '3', '0'] then .finish
    else if c = ['M', '8', '4'] then .m84
    else if c = ['M', '1', '0', '4'] then .heat .extruder false
    else if c = ['M', '1', '0', '9'] then .heat .extruder true
    else if c = ['M', '1', '4', '0'] then .heat .bed false
    else if c = ['M', '1', '9', '0'] then .heat .bed true
    else if c = ['M', '1', '0', '5'] then .m105
    else if c = ['M', '1', '0', '6'] then .m106
    else if c = ['M', '1', '0', '7'] then .m107
    else if c = ['M', '1', '1', '1'] then .m111
    else if c = ['M', '1', '1', '4'] then .m114
    else if c = ['M', '8', '2'] then .m82
    else if c = ['M', '8', '3'] then .m83
    else .unknown

/-- The answer strings of `M105` and `M114`, `gmachine.py:450, 463`, before formatting. -/
inductive Answer (F : Type) where
  /-- `"E:{} B:{}"` -/
  | temps (extruder bed : Option F)
  /-- `"X:{} Y:{} Z:{} E:{}"` -/
  | position (p : V4 F)

section machine

variable {F : Type} [PyNum F] (c : Cfg) (env : Env F)

/-- `min` of the four maximum velocities, `gmachine.py:53-56`. -/
def minMaxVel : F :=
  pmin (pmin (pmin (PyNum.ofRat c.maxVel.x) (PyNum.ofRat c.maxVel.y)) (PyNum.ofRat c.maxVel.z))
    (PyNum.ofRat c.maxVel.e)

/-- `max` of the four maximum velocities, `gmachine.py:338-341`. -/
def maxMaxVel : F :=
  pmax (pmax (pmax (PyNum.ofRat c.maxVel.x) (PyNum.ofRat c.maxVel.y)) (PyNum.ofRat c.maxVel.z))
    (PyNum.ofRat c.maxVel.e)

/-- `reset`, `gmachine.py:50-61`. -/
def reset : M F Unit := M.modify fun s =>
  { s with vel := minMaxVel c, spindle := PyNum.ofRat 1000, loc := Coord.zero,
           conv := PyNum.ofRat 1, absMode := true, plane := .xy }

/-- State after `GMachine()`, `gmachine.py:24-39`. -/
def MState.init : MState F where
  pos := Coord.zero
  vel := minMaxVel c
  spindle := PyNum.ofRat 1000
  loc := Coord.zero
  conv := PyNum.ofRat 1
  absMode := true
  plane := .xy
  fan := false
  heatE := none
  heatB := none
  trace := [.watchdog, .init]

/-- `_spindle`, `gmachine.py:64-66`. -/
def spindle (rpm : F) : M F Unit := do
  M.emit .join
  M.emit (.spindle (PyNum.ofRat 100 *ₚ rpm /ₚ PyNum.ofRat c.spindleMax))

/-- `_fan`, `gmachine.py:68-70`. -/
def fan (on : Bool) : M F Unit := do
  M.emit (.fan on)
  M.modify fun s => { s with fan := on }

/-- `heater in self._heaters`. -/
def MState.heater (s : MState F) : HeaterId → Option F
  | .extruder => s.heatE
  | .bed => s.heatB

/-- `self._heaters[h] = ...` or `del self._heaters[h]`. -/
def MState.setHeater (s : MState F) (h : HeaterId) (t : Option F) : MState F :=
  match h with
  | .extruder => { s with heatE := t }
  | .bed => { s with heatB := t }

/-- `measure()`: a HAL temperature call that may raise. -/
def measure (h : HeaterId) : M F (Option F) := do
  M.emit (.measure h)
  let s ← M.get
  return env.measure s.trace

/-- Construction of a `Heater`, `heater.py:12-34`: the thread is started, then the log
message measures the temperature, which can raise. -/
def newHeater (h : HeaterId) (t : F) : M F Unit := do
  M.emit (.heaterStart h t)
  let m ← measure env h
  match m with
  | none => M.throw .io
  | some _ => return

/-- `_heat`, `gmachine.py:72-97`. -/
def heat (h : HeaterId) (t : F) (wait : Bool) : M F Unit := do
  let m ← measure env h
  if m.isNone then M.throw (.gmachine "can not measure temperature")
  let s ← M.get
  if (s.heater h).isSome then
    M.emit (.heaterStop h)
    M.modify fun s => s.setHeater h none
  if !(t =ₚ zeroF) then
    if h = .extruder && c.autoFan then fan true
    newHeater env h t
    M.modify fun s => s.setHeater h (some t)
    if wait then
      M.emit (.heaterWait h)
      let s ← M.get
      match env.wait s.trace with
      | some e => M.throw e
      | none => return

/-- `release`, `gmachine.py:41-48`. -/
def release : M F Unit := do
  spindle c zeroF
  let s ← M.get
  if s.heatE.isSome then M.emit (.heaterStop .extruder)
  if s.heatB.isSome then M.emit (.heaterStop .bed)
  fan false
  M.emit .deinit

/-- `__check_delta`, `gmachine.py:99-104`. -/
def checkDelta (pos delta : V4 F) : Except PyErr Unit :=
  if Coord.isInAabb (Coord.add pos delta) Coord.zero
      (Coord.new (PyNum.ofRat c.tableX) (PyNum.ofRat c.tableY) (PyNum.ofRat c.tableZ) zeroF) then
    .ok ()
  else .error (.gmachine "out of effective area")

/-- `__check_velocity`, `gmachine.py:107-112`. -/
def checkVelocity (v : V4 F) : Except PyErr Unit :=
  if PyNum.ofRat c.maxVel.x <ₚ v.x || PyNum.ofRat c.maxVel.y <ₚ v.y
      || PyNum.ofRat c.maxVel.z <ₚ v.z || PyNum.ofRat c.maxVel.e <ₚ v.e then
    .error (.gmachine "out of maximum speed")
  else .ok ()

/-- `delta.round(1.0 / STEPPER_PULSES_PER_MM_X, ...)`, e.g. `gmachine.py:115-118`. -/
def roundToSteps (v : V4 F) : V4 F :=
  Coord.round v (PyNum.ofRat 1 /ₚ PyNum.ofRat c.ppm.x) (PyNum.ofRat 1 /ₚ PyNum.ofRat c.ppm.y)
    (PyNum.ofRat 1 /ₚ PyNum.ofRat c.ppm.z) (PyNum.ofRat 1 /ₚ PyNum.ofRat c.ppm.e)

/-- `hal.move(gen)`. -/
def halMove (g : Gen F) : M F Unit := do
  M.emit (.move g)
  let s ← M.get
  match env.move s.trace with
  | some e => M.throw e
  | none => return

/-- `_move_linear`, `gmachine.py:114-128`. -/
def moveLinear (delta : V4 F) (velocity : F) : M F Unit := do
  let delta := roundToSteps c delta
  if Coord.isZero delta then return
  else do
    let s ← M.get
    M.lift (checkDelta c s.pos delta)
    let g ← M.lift (LinearGen.new c delta velocity)
    M.lift (checkVelocity c (Gen.linear g).maxVelocity)
    halMove env (.linear g)
    M.modify fun s => { s with pos := Coord.add s.pos delta }

/-- `__quarter`, `gmachine.py:130-139`. -/
def quarter (pa pb : F) : Int :=
  if zeroF ≤ₚ pa && zeroF ≤ₚ pb then 1
  else if pa <ₚ zeroF && zeroF ≤ₚ pb then 2
  else if pa <ₚ zeroF && pb <ₚ zeroF then 3
  else 4

/-- The loop over the quarters, `gmachine.py:160-185`; `n` is the number of iterations
left. -/
def fitLoop (rot : Rot) (eq : Int) (pa pb ra rb r ma mb : F) : Nat → Int → Int → Except PyErr Unit
  | 0, _, _ => .ok ()
  | n + 1, q, pq =>
    let q := match rot with
      | .cw => q - 1
      | .ccw => q + 1
    let q := if q ≤ 0 then 4 else if q ≥ 5 then 1 else q
    if q = eq then .ok ()
    else
      let isRaise :=
        if (pq = 1 ∧ q = 4) ∨ (pq = 4 ∧ q = 1) then ma <ₚ pa +ₚ ra +ₚ r
        else if (pq = 1 ∧ q = 2) ∨ (pq = 2 ∧ q = 1) then mb <ₚ pb +ₚ rb +ₚ r
        else if (pq = 2 ∧ q = 3) ∨ (pq = 3 ∧ q = 2) then pa +ₚ ra -ₚ r <ₚ zeroF
        else if (pq = 3 ∧ q = 4) ∨ (pq = 4 ∧ q = 3) then pb +ₚ rb -ₚ r <ₚ zeroF
        else false
      if isRaise then .error (.gmachine "out of effective area")
      else fitLoop rot eq pa pb ra rb r ma mb n q q

/-- `__adjust_circle`, `gmachine.py:141-186`. -/
def adjustCircle (da db ra rb : F) (rot : Rot) (pa pb ma mb : F) : Except PyErr (F × F) := do
  let r := PyNum.sqrt (ra *ₚ ra +ₚ rb *ₚ rb)
  if r =ₚ zeroF then throw (.gmachine "circle radius is zero")
  let sq := quarter (PyNum.neg ra) (PyNum.neg rb)
  let (ea, eb, eq) ←
    if da =ₚ zeroF && db =ₚ zeroF then pure (da, db, (5 : Int))
    else do
      let ea ←
        if da -ₚ ra =ₚ zeroF then pure zeroF
        else do
          let b ← pdiv (db -ₚ rb) (da -ₚ ra)
          pure (copysign (PyNum.sqrt (r *ₚ r /ₚ (PyNum.ofRat 1 +ₚ PyNum.abs b))) (da -ₚ ra))
      let root ← psqrt (r *ₚ r -ₚ ea *ₚ ea)
      let eb := copysign root (db -ₚ rb)
      pure (ea +ₚ ra, eb +ₚ rb, quarter ea eb)
  fitLoop rot eq pa pb ra rb r ma mb 4 sq sq
  return (ea, eb)

/-- The point of the plane put on the circle, before rounding, `gmachine.py:198-221`. -/
def circleEnd (plane : Plane) (delta radius pos : V4 F) (rot : Rot) : Except PyErr (V4 F) :=
  let tx : F := PyNum.ofRat c.tableX
  let ty : F := PyNum.ofRat c.tableY
  let tz : F := PyNum.ofRat c.tableZ
  match plane with
  | .xy => do
    let (a, b) ← adjustCircle delta.x delta.y radius.x radius.y rot pos.x pos.y tx ty
    return ⟨a, b, delta.z, delta.e⟩
  | .yz => do
    let (a, b) ← adjustCircle delta.y delta.z radius.y radius.z rot pos.y pos.z ty tz
    return ⟨delta.x, a, b, delta.e⟩
  | .zx => do
    let (a, b) ← adjustCircle delta.z delta.x radius.z radius.x rot pos.z pos.x tz tx
    return ⟨b, delta.y, a, delta.e⟩

/-- The additional straight move of `_move_circular`, `gmachine.py:232-239`. -/
def extraLinear (linDelta : V4 F) (velocity : F) : Except PyErr (Option (LinearGen F)) :=
  if !Coord.isZero linDelta then do
    let g ← LinearGen.new c linDelta velocity
    checkVelocity c (Gen.linear g).maxVelocity
    return some g
  else return none

/-- `_move_circular`, `gmachine.py:188-245`. -/
def moveCircular (delta radius : V4 F) (velocity : F) (rot : Rot) : M F Unit := do
  let delta := roundToSteps c delta
  let radius := roundToSteps c radius
  let s ← M.get
  M.lift (checkDelta c s.pos delta)
  let ce ← M.lift (circleEnd c s.plane delta radius s.pos rot)
  let ce := roundToSteps c ce
  let g ← M.lift (CircGen.new c ce radius s.plane rot velocity)
  M.lift (checkVelocity c (Gen.circular g).maxVelocity)
  let linDelta := Coord.sub delta ce
  let lg ← M.lift (extraLinear c linDelta velocity)
  halMove env (.circular g)
  match lg with
  | some lg => halMove env (.linear lg)
  | none => pure ()
  M.modify fun s => { s with pos := Coord.add (Coord.add s.pos ce) linDelta }

/-- `safe_zero`, `gmachine.py:247-265`. -/
def safeZero (x y z : Bool) : M F Unit := do
  let s ← M.get
  if x && !y then
    moveLinear c env (Coord.new (PyNum.neg s.pos.x) zeroF zeroF zeroF) (PyNum.ofRat c.maxVel.x)
  else if y && !x then
    moveLinear c env (Coord.new zeroF (PyNum.neg s.pos.y) zeroF zeroF) (PyNum.ofRat c.maxVel.x)
  else if x && y then
    moveLinear c env (Coord.new (PyNum.neg s.pos.x) (PyNum.neg s.pos.y) zeroF zeroF)
      (pmin (PyNum.ofRat c.maxVel.x) (PyNum.ofRat c.maxVel.y))
  if z then
    let s ← M.get
    moveLinear c env (Coord.new zeroF zeroF (PyNum.neg s.pos.z) zeroF) (PyNum.ofRat c.maxVel.z)

/-- One axis of the velocity of a rapid move, e.g. `gmachine.py:345-348`. -/
def rapidAxis (vl proportion : F) (maxVel : Rat) : F :=
  if zeroF <ₚ proportion then
    let v : F := ofInt (PyNum.truncI (PyNum.ofRat maxVel /ₚ proportion))
    if v <ₚ vl then v else vl
  else vl

/-- Velocity of a rapid move, `gmachine.py:338-360`. -/
def rapidVelocity (delta : V4 F) : Except PyErr F := do
  let vl : F := maxMaxVel c
  let l := Coord.length delta
  if zeroF <ₚ l then do
    let p ← Coord.sdiv (Coord.abs delta) l
    let vl := rapidAxis vl p.x c.maxVel.x
    let vl := rapidAxis vl p.y c.maxVel.y
    let vl := rapidAxis vl p.z c.maxVel.z
    return rapidAxis vl p.e c.maxVel.e
  else return vl

/-- `delta` as read from the line, `gmachine.py:320-329`. -/
def readDelta (s : MState F) (g : GCode) : Except PyErr (V4 F) :=
  if s.absMode then do
    let coord ← g.coordinates (Coord.sub s.pos s.loc) s.conv
    let coord := Coord.add coord s.loc
    return Coord.sub coord s.pos
  else g.coordinates Coord.zero s.conv

/-- `G28`, `gmachine.py:386-393`. -/
def home (g : GCode) : M F Unit := do
  let (x, y, z) :=
    if !g.has 'X' && !g.has 'Y' && !g.has 'Z' then (true, true, true)
    else (g.has 'X', g.has 'Y', g.has 'Z')
  safeZero c env x y z
  M.emit .join
  M.emit (.calibrate x y z)
  let s ← M.get
  if env.calibrate s.trace then return
  else M.throw (.gmachine "failed to calibrate")

/-- `G92`, `gmachine.py:400-409`. -/
def setLocal (g : GCode) : M F Unit := do
  let s ← M.get
  if g.hasCoordinates then
    let v ← M.lift (g.coordinates (Coord.new (s.pos.x -ₚ s.loc.x) (s.pos.y -ₚ s.loc.y)
      (s.pos.z -ₚ s.loc.z) (s.pos.e -ₚ s.loc.e)) s.conv)
    M.modify fun s => { s with loc := Coord.sub s.pos v }
  else M.modify fun s => { s with loc := s.pos }

/-- Maximum temperature of a heater, `gmachine.py:434-435`. -/
def heaterMax : HeaterId → Rat
  | .extruder => c.extruderMaxT
  | .bed => c.bedMaxT

/-- `M104`, `M109`, `M140`, `M190`, `gmachine.py:423-438`. -/
def heatCommand (g : GCode) (h : HeaterId) (wait : Bool) : M F Unit := do
  if !g.has 'S' then M.throw (.gmachine "temperature is not specified")
  let t ← M.lift (g.get 'S' zeroF (PyNum.ofRat 1))
  if (PyNum.ofRat (heaterMax c h) <ₚ t || t <ₚ PyNum.ofRat c.minT) && !(t =ₚ zeroF) then
    M.throw (.gmachine "bad temperature")
  heat c env h t wait

/-- The branches of `do_command`, `gmachine.py:337-474`. -/
def execCmd (cmd : Cmd) (g : GCode) (delta radius : V4 F) (velocity : F) :
    M F (Option (Answer F)) :=
  match cmd with
  | .g0 => do
    let vl ← M.lift (rapidVelocity c delta)
    moveLinear c env delta vl
    return none
  | .g1 => do
    moveLinear c env delta velocity
    return none
  | .g2 => do
    moveCircular c env delta radius velocity .cw
    return none
  | .g3 => do
    moveCircular c env delta radius velocity .ccw
    return none
  | .g4 => do
    if !g.has 'P' then M.throw (.gmachine "P is not specified")
    let pause ← M.lift (g.get 'P' zeroF (PyNum.ofRat 1))
    if pause <ₚ zeroF then M.throw (.gmachine "bad delay")
    M.emit .join
    M.emit (.sleep pause)
    return none
  | .g17 => do
    M.modify fun s => { s with plane := .xy }
    return none
  | .g18 => do
    M.modify fun s => { s with plane := .zx }
    return none
  | .g19 => do
    M.modify fun s => { s with plane := .yz }
    return none
  | .g20 => do
    M.modify fun s => { s with conv := PyNum.ofRat 25.4 }
    return none
  | .g21 => do
    M.modify fun s => { s with conv := PyNum.ofRat 1 }
    return none
  | .g28 => do
    home c env g
    return none
  | .g53 => do
    M.modify fun s => { s with loc := Coord.zero }
    return none
  | .g90 => do
    M.modify fun s => { s with absMode := true }
    return none
  | .g91 => do
    M.modify fun s => { s with absMode := false }
    return none
  | .g92 => do
    setLocal g
    return none
  | .m3 => do
    let s ← M.get
    let rpm ← M.lift (g.get 'S' s.spindle (PyNum.ofRat 1))
    if rpm <ₚ zeroF || PyNum.ofRat c.spindleMax <ₚ rpm then
      M.throw (.gmachine "bad spindle speed")
    spindle c rpm
    M.modify fun s => { s with spindle := rpm }
    return none
  | .m5 => do
    spindle c zeroF
    return none
  | .finish => do
    reset c
    return none
  | .m84 => do
    M.emit .disableSteppers
    return none
  | .heat h wait => do
    heatCommand c env g h wait
    return none
  | .m105 => do
    let et ← measure env .extruder
    let bt ← measure env .bed
    if et.isNone && bt.isNone then M.throw (.gmachine "can not measure temperature")
    return some (.temps et bt)
  | .m106 => do
    let v : F ← M.lift (g.get 'S' (PyNum.ofRat 1) (PyNum.ofRat 1))
    if !(v =ₚ zeroF) then fan true else fan false
    return none
  | .m107 => do
    fan false
    return none
  | .m111 => do
    M.emit .debugEnable
    return none
  | .m114 => do
    M.emit .join
    M.emit .join
    let s ← M.get
    return some (.position s.pos)
  | .nothing => return none
  | .m82 => do
    let s ← M.get
    if !s.absMode then M.throw (.gmachine "Not supported, use G90/G91")
    return none
  | .m83 => do
    let s ← M.get
    if s.absMode then M.throw (.gmachine "Not supported, use G90/G91")
    return none
  | .unknown => M.throw (.gmachine "unknown command")

/-- The command of a line: `G1` when only coordinates are given, `gmachine.py:316-319`. -/
def lineCmd (g : GCode) : Cmd :=
  match g.command with
  | none => if g.hasCoordinates then .g1 else .nothing
  | some s => Cmd.decode (some s)

/-- `do_command`, `gmachine.py:307-478`. -/
def doCommand : Option GCode → M F (Option (Answer F))
  | none => return none
  | some g => do
    let s ← M.get
    let delta ← M.lift (readDelta s g)
    let velocity ← M.lift (g.get 'F' s.vel (PyNum.ofRat 1))
    let radius ← M.lift (g.radius Coord.zero s.conv)
    if velocity <ₚ PyNum.ofRat c.minVel then M.throw (.gmachine "feed speed too low")
    let ans ← execCmd c env (lineCmd g) g delta radius velocity
    M.modify fun s => { s with vel := velocity }
    return ans

/-- `position()`, `gmachine.py:267-275`. -/
def position : M F (V4 F) := do
  M.emit .join
  let s ← M.get
  return s.pos

/-- A call of the public interface of `GMachine`. -/
inductive Op where
  /-- `do_command(gcode)` -/
  | cmd (g : Option GCode)
  /-- `reset()` -/
  | reset
  /-- `safe_zero(x, y, z)` -/
  | safeZero (x y z : Bool)
  /-- `position()` -/
  | position
  /-- `release()` -/
  | release

/-- One call of the public interface: the exception, if any, and the new state. -/
def Op.exec (op : Op) (s : MState F) : Option PyErr × MState F :=
  let fin {α : Type} (r : Except PyErr α × MState F) : Option PyErr × MState F :=
    (match r.1 with
      | .ok _ => none
      | .error e => some e, r.2)
  match op with
  | .cmd g => fin (doCommand c env g s)
  | .reset => fin (PyCNC.reset c s)
  | .safeZero x y z => fin (PyCNC.safeZero c env x y z s)
  | .position => fin (PyCNC.position s)
  | .release => fin (PyCNC.release c s)

/-- The states after any history of calls, successful or not. -/
inductive Reachable : MState F → Prop
  | init : Reachable (MState.init c)
  | step {s : MState F} (op : Op) : Reachable s → Reachable (op.exec c env s).2

end machine

end PyCNC
