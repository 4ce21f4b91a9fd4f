import Verif.Model.Pwm
import Verif.Model.HalMove

/-!
# The rest of the Raspberry Pi back end: `hal_raspberry/hal.py:21-110, 314-339`

`init`, the control functions of spindle, fan and heaters, `disable_steppers` and `deinit`, on the
models of the objects `gpio` (`Model/Gpio`), `pwm` (`Model/Pwm`) and `watchdog` (`Model/Watchdog`).
`get_extruder_temperature` and `get_bed_temperature` (lines 92-103) are calls of
`thermistor.get_temperature` (`Model/Sensors`), `watchdog_feed` (lines 336-339) is `Wd.feed`.
-/

namespace PyCNC

/-- The objects `gpio` and `pwm` (they share the GPIO registers) and whether the channel of the
object `watchdog` was started. -/
structure PiSt where
  pwm : PwmSt
  dog : Bool

namespace Pi

variable {F : Type} [PyNum F]

/-- A call of the object `gpio`. -/
def onGpio (f : GpioHw → GpioHw) (s : PwmSt) : PwmSt := { s with w := { s.w with gpio := f s.w.gpio } }

/-- The calls of the object `gpio` in `init`, in their order, `hal.py:24-44`. -/
def initCalls (p : Pins) : List (GpioHw → GpioHw) :=
  [Gpio.init p.step.x .output, Gpio.init p.step.y .output, Gpio.init p.step.z .output,
   Gpio.init p.step.e .output,
   Gpio.init p.dir.x .output, Gpio.init p.dir.y .output, Gpio.init p.dir.z .output,
   Gpio.init p.dir.e .output,
   Gpio.init p.stopX .pullup, Gpio.init p.stopY .pullup, Gpio.init p.stopZ .pullup,
   Gpio.init p.spindle .output, Gpio.init p.fan .output, Gpio.init p.extruder .output,
   Gpio.init p.bed .output, Gpio.init p.enable .output,
   Gpio.clear p.spindle, Gpio.clear p.fan, Gpio.clear p.extruder, Gpio.clear p.bed,
   Gpio.clear p.enable]

/-- A sequence of calls of the object `gpio`. -/
def runCalls (fs : List (GpioHw → GpioHw)) (g : GpioHw) : GpioHw := fs.foldl (fun g f => f g) g

/-- `init`, `hal.py:21-45`.  Simplification: of `watchdog.start()` only that it was called; what it
does is in `Model/Watchdog`. -/
def init (p : Pins) (s : PiSt) : PiSt := ⟨onGpio (runCalls (initCalls p)) s.pwm, true⟩

/-- `spindle_control`, `hal.py:48-56`: the call of the object `pwm` that is started. -/
def spindleControl (p : Pins) (percent : F) : Except PyErr Pwm.Pc :=
  if PyNum.ofRat 0 <ₚ percent then Pwm.startAdd p.spindle percent else Pwm.startRemove p.spindle

/-- `fan_control`, `hal.py:59-69`. -/
def fanControl (p : Pins) (on : Bool) (g : GpioHw) : GpioHw :=
  if on then Gpio.set p.fan g else Gpio.clear p.fan g

/-- `extruder_heater_control`, `hal.py:72-79`. -/
def extruderHeaterControl (p : Pins) (percent : F) : Except PyErr Pwm.Pc :=
  if PyNum.ofRat 0 <ₚ percent then Pwm.startAdd p.extruder percent else Pwm.startRemove p.extruder

/-- `bed_heater_control`, `hal.py:82-89`. -/
def bedHeaterControl (p : Pins) (percent : F) : Except PyErr Pwm.Pc :=
  if PyNum.ofRat 0 <ₚ percent then Pwm.startAdd p.bed percent else Pwm.startRemove p.bed

/-- `disable_steppers`, `hal.py:106-110`. -/
def disableSteppers (p : Pins) (g : GpioHw) : GpioHw := Gpio.set p.enable g

/-- The first statement of `move` and of `calibrate`, `hal.py:205, 223`. -/
def enableSteppers (p : Pins) (g : GpioHw) : GpioHw := Gpio.clear p.enable g

/-- The calls of the object `gpio` at the end of `deinit`, `hal.py:329-332`. -/
def deinitCalls (p : Pins) : List (GpioHw → GpioHw) :=
  [Gpio.clear p.spindle, Gpio.clear p.fan, Gpio.clear p.extruder, Gpio.clear p.bed]

/-- `deinit`, `hal.py:323-333`; an exception of `remove_all` leaves it.  Simplifications: `join`
(lines 314-320) only waits, it has returned; `remove_all` is not interrupted. -/
def deinit (py3 : Bool) (b : Buf) (p : Pins) (s : PiSt) : PiSt × Option PyErr :=
  let s1 := onGpio (disableSteppers p) s.pwm
  match Pwm.removeAll py3 b s1 with
  | (s2, some e) => (⟨s2, s.dog⟩, some e)
  | (s2, none) => (⟨onGpio (runCalls (deinitCalls p)) s2, false⟩, none)

end Pi

end PyCNC
