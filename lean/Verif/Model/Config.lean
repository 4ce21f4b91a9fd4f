import Verif.Model.Num

/-!
# `cnc/config.py`
-/

namespace PyCNC

/-- PID coefficients, `cnc/config.py:45-50`. -/
structure PidCoef where
  p : Rat
  i : Rat
  d : Rat
  deriving DecidableEq, Repr

/-- The configuration constants of `cnc/config.py:5-94`.  They are a record here so
that theorems can quantify over configurations.  Per-axis constants are tuples; table
sizes use the x, y, z components (the code passes 0 for e, `gmachine.py:101-103`). -/
structure Cfg where
  /-- `MAX_VELOCITY_MM_PER_MIN_*`, lines 5-8 -/
  maxVel : V4 Rat
  /-- `MIN_VELOCITY_MM_PER_MIN`, line 9 -/
  minVel : Rat
  /-- `STEPPER_PULSES_PER_MM_*`, lines 14-17 -/
  ppm : V4 Rat
  /-- `STEPPER_INVERTED_*`, lines 21-24 -/
  inverted : V4 Bool
  /-- `TABLE_SIZE_*_MM`, lines 34-36 -/
  tableX : Rat
  tableY : Rat
  tableZ : Rat
  /-- `STEPPER_PULSE_LENGTH_US`, line 39 -/
  pulseLenUs : Nat
  /-- `STEPPER_MAX_ACCELERATION_MM_PER_S2`, line 40 -/
  accel : Rat
  /-- `SPINDLE_MAX_RPM`, line 41 -/
  spindleMax : Rat
  /-- `EXTRUDER_MAX_TEMPERATURE`, line 42 -/
  extruderMaxT : Rat
  /-- `BED_MAX_TEMPERATURE`, line 43 -/
  bedMaxT : Rat
  /-- `MIN_TEMPERATURE`, line 44 -/
  minT : Rat
  /-- `EXTRUDER_PID`, lines 45-47 -/
  extruderPid : PidCoef
  /-- `BED_PID`, lines 48-50 -/
  bedPid : PidCoef
  /-- `INSTANT_RUN`, line 85 -/
  instantRun : Bool
  /-- `AUTO_VELOCITY_ADJUSTMENT`, line 91 -/
  autoVel : Bool
  /-- `AUTO_FAN_ON`, line 94 -/
  autoFan : Bool
  deriving Repr

/-- The values written in `cnc/config.py`. -/
def Cfg.default : Cfg where
  maxVel := ⟨24000, 12000, 600, 1500⟩
  minVel := 1
  ppm := ⟨100, 100, 400, 150⟩
  inverted := ⟨true, false, false, true⟩
  tableX := 200
  tableY := 200
  tableZ := 220
  pulseLenUs := 2
  accel := 3000
  spindleMax := 10000
  extruderMaxT := 250
  bedMaxT := 100
  minT := 40
  extruderPid := ⟨0.059161177519, 0.00206217171374, 0.206217171374⟩
  bedPid := ⟨0.226740848076, 0.00323956215053, 0.323956215053⟩
  instantRun := true
  autoVel := true
  autoFan := true

end PyCNC
