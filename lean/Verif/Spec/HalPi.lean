import Verif.Model.HalPi
import Verif.Spec.Pwm
import Verif.Spec.Machine
import Verif.Spec.Gpio

/-!
# Vocabulary for statements about the pins of the machine
-/

namespace PyCNC

namespace Spec

/-- What is driven by pulse width modulation. -/
inductive Act where
  | spindle | extruder | bed
  deriving DecidableEq

/-- Its pin. -/
def Act.pin (p : Pins) : Act → Nat
  | .spindle => p.spindle
  | .extruder => p.extruder
  | .bed => p.bed

/-- The pins of the motors: step and direction. -/
def motorPins (p : Pins) : List Nat :=
  [p.step.x, p.step.y, p.step.z, p.step.e, p.dir.x, p.dir.y, p.dir.z, p.dir.e]

/-- The pins that switch something on. -/
def powerPins (p : Pins) : List Nat := [p.spindle, p.fan, p.extruder, p.bed]

/-- The pins of the end stops. -/
def stopPins (p : Pins) : List Nat := [p.stopX, p.stopY, p.stopZ]

/-- All pins of the machine. -/
def allPins (p : Pins) : List Nat := motorPins p ++ stopPins p ++ powerPins p ++ [p.enable]

/-- Every pin has one purpose, and all are in the first bank. -/
structure Wired (p : Pins) : Prop where
  once : (allPins p).Nodup
  bank : ∀ q ∈ allPins p, q < 32

/-- A call that changes what a pin shows. -/
inductive PiCall where
  /-- `spindle_control`, `extruder_heater_control`, `bed_heater_control` -/
  | power (a : Act) (percent : ℝ)
  /-- `fan_control` -/
  | fan (on : Bool)
  /-- `disable_steppers` (`false`); the begin of `move` and `calibrate` (`true`) -/
  | steppers (on : Bool)

/-- The power last asked for, in percent; nothing is on in the beginning. -/
noncomputable def lastPower (a : Act) : List PiCall → ℝ
  | [] => 0
  | .power a' x :: h => if a' = a then x else lastPower a h
  | _ :: h => lastPower a h

/-- Whether the fan was last switched on. -/
def fanOn : List PiCall → Bool
  | [] => false
  | .fan on :: _ => on
  | _ :: h => fanOn h

/-- Whether the steppers were last enabled; they are in the beginning. -/
def steppersOn : List PiCall → Bool
  | [] => true
  | .steppers on :: _ => on
  | _ :: h => steppersOn h

/-- The slots of 256 in which the output should be on: as many as the power allows. -/
noncomputable def share (a : Act) (h : List PiCall) : Int := ⌊lastPower a h * 256 / 100⌋

/-- The pin drives its load: it is an output and high. -/
def Drives (g : GpioHw) (q : Nat) : Prop := HasFunc g q 1 ∧ g.latch q = true

/-- The calls a history of the machine (newest first) makes to spindle and fan are those of `h`, and
a heater without a running controller was last told to be off (C40: `stop()` ends with
`control(0)`, and the thread makes no further call). -/
structure Carries (tr : List (HalCall ℝ)) (h : List PiCall) : Prop where
  spindle : lastPower .spindle h = (lastSpindle tr).getD 0
  fan : fanOn h = lastFan tr
  extruder : running .extruder tr = 0 → lastPower .extruder h ≤ 0
  bed : running .bed tr = 0 → lastPower .bed h ≤ 0

variable [PyRound]

/-- The control function of each output. -/
noncomputable def powerControl (p : Pins) : Act → ℝ → Except PyErr Pwm.Pc
  | .spindle, x => Pi.spindleControl p x
  | .extruder, x => Pi.extruderHeaterControl p x
  | .bed, x => Pi.bedHeaterControl p x

/-- The machine in use after `hal.init()`: completed calls (newest first), the control function in
progress, the state and where the call is.  The control functions of spindle and heaters are
called one at a time.  At any moment the PWM engine may execute a block, the fan may be switched,
the motors be enabled or disabled, and the engine of the motors (or `calibrate`) may write step and
direction pins. -/
inductive PiUse (p : Pins) (b : Buf) (w : World) :
    List PiCall → Option (Act × ℝ) → PwmSt → Pwm.Pc → Prop
  | boot {s : PwmSt} (h0 : Pwm.init b w = .ok s) (dog : Bool) :
      PiUse p b w [] none (Pi.init p ⟨s, dog⟩).pwm .idle
  | start {h : List PiCall} {s : PwmSt} {a : Act} {x : ℝ} {pc : Pwm.Pc}
      (hu : PiUse p b w h none s .idle) (hc : powerControl p a x = .ok pc) :
      PiUse p b w h (some (a, x)) s pc
  | step {h : List PiCall} {s : PwmSt} {c : Act × ℝ} {pc : Pwm.Pc}
      (hu : PiUse p b w h (some c) s pc) (hn : (Pwm.step b pc s).2 ≠ .idle) :
      PiUse p b w h (some c) (Pwm.step b pc s).1 (Pwm.step b pc s).2
  | finish {h : List PiCall} {s : PwmSt} {c : Act × ℝ} {pc : Pwm.Pc}
      (hu : PiUse p b w h (some c) s pc) (hn : (Pwm.step b pc s).2 = .idle) :
      PiUse p b w (.power c.1 c.2 :: h) none (Pwm.step b pc s).1 .idle
  | engine {h : List PiCall} {c : Option (Act × ℝ)} {s : PwmSt} {pc : Pwm.Pc}
      (hu : PiUse p b w h c s pc) : PiUse p b w h c (Pwm.engine b s) pc
  | fan {h : List PiCall} {c : Option (Act × ℝ)} {s : PwmSt} {pc : Pwm.Pc}
      (hu : PiUse p b w h c s pc) (on : Bool) :
      PiUse p b w (.fan on :: h) c (Pi.onGpio (Pi.fanControl p on) s) pc
  | enable {h : List PiCall} {c : Option (Act × ℝ)} {s : PwmSt} {pc : Pwm.Pc}
      (hu : PiUse p b w h c s pc) :
      PiUse p b w (.steppers true :: h) c (Pi.onGpio (Pi.enableSteppers p) s) pc
  | disable {h : List PiCall} {c : Option (Act × ℝ)} {s : PwmSt} {pc : Pwm.Pc}
      (hu : PiUse p b w h c s pc) :
      PiUse p b w (.steppers false :: h) c (Pi.onGpio (Pi.disableSteppers p) s) pc
  | motor {h : List PiCall} {c : Option (Act × ℝ)} {s : PwmSt} {pc : Pwm.Pc}
      (hu : PiUse p b w h c s pc) (off : Nat) (m : Word) (ho : off = 0x1C ∨ off = 0x28)
      (hm : ∀ q, m.getLsbD q = true → q ∈ motorPins p) :
      PiUse p b w h c (Pi.onGpio (fun g => g.write off m) s) pc

end Spec

end PyCNC
