import Mathlib.Analysis.SpecialFunctions.Log.Basic
import Verif.Model.Num

/-!
# `cnc/sensors/ads111x.py` and `cnc/sensors/thermistor.py`

The thermistor formula needs `exp` and `log`; it is modelled over the real numbers only.
-/

namespace PyCNC

/-! ### `ads111x.measure` -/

/-- What a call of `measure` ends in. -/
inductive AdcResult where
  /-- the voltage code, a signed 16 bit number; the voltage is `code / 8000.0` -/
  | code (v : Int)
  /-- `ValueError("Wrong channel")` -/
  | badChannel
  /-- `OSError` raised by an operation on the bus -/
  | ioError
  /-- the call is still running: it polls the conversion status -/
  | polling
  /-- the call waits in `lock.acquire()` for a lock that is not free -/
  | blocked
  deriving DecidableEq, Repr

/-- An operation on the bus: `i2c.write(data)` or `i2c.read(n)`, `ads111x.py:29-33`. -/
inductive I2cOp where
  | write (data : List (BitVec 8))
  | read (n : Nat)
  deriving DecidableEq, Repr

/-- The state of the module: the lock of `ads111x.py:38`, and the operations on the bus that have
ended so far, the latest first. -/
structure Adc where
  locked : Bool
  log : List I2cOp := []
  deriving DecidableEq, Repr

/-- One more operation on the bus has ended. -/
def Adc.op (a : Adc) (o : I2cOp) : Adc := { a with log := o :: a.log }

/-- How an operation on the bus ends: `none` for `OSError`, otherwise the 16 bits that a `read(2)`
returned, the first byte is the upper one (irrelevant for a write). -/
abbrev I2cReply := Option (BitVec 16)

/-- `ads111x.py:67-69`: select the conversion register, read it and release the lock. -/
def Adc.readResult (a : Adc) : List I2cReply → AdcResult × Adc
  | [] => (.polling, a)
  | none :: _ => (.ioError, a.op (.write [0x00]))
  | [some _] => (.polling, a.op (.write [0x00]))
  | some _ :: none :: _ => (.ioError, (a.op (.write [0x00])).op (.read 2))
  | some _ :: some v :: _ =>
    (.code v.toInt, { (a.op (.write [0x00])).op (.read 2) with locked := false })

/-- The loop `ads111x.py:61-65` and the rest; the list has the replies of the bus to the coming
operations, when it ends the call is still running. -/
def Adc.poll (a : Adc) : List I2cReply → AdcResult × Adc
  | [] => (.polling, a)
  | none :: _ => (.ioError, a.op (.write [0x01]))
  | [some _] => (.polling, a.op (.write [0x01]))
  | some _ :: none :: _ => (.ioError, (a.op (.write [0x01])).op (.read 2))
  | some _ :: some v :: rest =>
    if v &&& 0x8000#16 ≠ 0#16 then ((a.op (.write [0x01])).op (.read 2)).readResult rest
    else ((a.op (.write [0x01])).op (.read 2)).poll rest

/-- `ads111x.py:57`: the word for the configuration register,
`((0b100 | channel) << 12) | 0x8380`. -/
def Adc.config (channel : Int) : BitVec 16 :=
  ((0b100#16 ||| BitVec.ofInt 16 channel) <<< 12) ||| 0x8380#16

/-- `ads111x.py:54-58`, `struct.pack(">BH", 0x01, config)`. -/
def Adc.configBytes (channel : Int) : List (BitVec 8) :=
  [0x01, (Adc.config channel).extractLsb' 8 8, (Adc.config channel).extractLsb' 0 8]

/-- `measure(channel)`, `ads111x.py:41-70`, when it is not called by two threads at the same
time. -/
def Adc.measure (a : Adc) (channel : Int) (io : List I2cReply) : AdcResult × Adc :=
  if channel < 0 ∨ channel > 3 then (.badChannel, a)
  else if a.locked then (.blocked, a)
  else
    match io with
    | [] => (.polling, { a with locked := true })
    | none :: _ => (.ioError, Adc.op { a with locked := true } (.write (Adc.configBytes channel)))
    | some _ :: rest =>
      (Adc.op { a with locked := true } (.write (Adc.configBytes channel))).poll rest

/-! ### `thermistor.get_temperature` -/

/-- `Vcc`, `thermistor.py:44`. -/
noncomputable def thVcc : ℝ := 3.3

/-- `R0`, `thermistor.py:45`. -/
noncomputable def thR0 : ℝ := 100000

/-- `T0`, `thermistor.py:46`. -/
noncomputable def thT0 : ℝ := 25

/-- `BETA`, `thermistor.py:47`. -/
noncomputable def thBeta : ℝ := 4092

/-- `R1`, `thermistor.py:48`. -/
noncomputable def thR1 : ℝ := 4700

/-- `CELSIUS_TO_KELVIN`, `thermistor.py:39`. -/
noncomputable def celsiusToKelvin : ℝ := 273.15

/-- `Rinf`, `thermistor.py:50`. -/
noncomputable def thRinf : ℝ := thR0 * Real.exp (-thBeta / (thT0 + celsiusToKelvin))

open Classical in
/-- `get_temperature`, `thermistor.py:60-68`, as a function of the measured voltage;
`math.log` can raise `ValueError`, the division `ZeroDivisionError`. -/
noncomputable def thermistor (v : ℝ) : Except PyErr ℝ :=
  if v ≥ thVcc then .error .io
  else if v ≤ 0 then .error .io
  else
    let r := v * thR1 / (thVcc - v)
    if r / thRinf ≤ 0 then .error .value
    else
      let l := Real.log (r / thRinf)
      if l = 0 then .error .zeroDiv
      else .ok (thBeta / l - celsiusToKelvin)

/-- The voltage of a code, `ads111x.py:70`. -/
noncomputable def adcVoltage (code : Int) : ℝ := code / 8000

end PyCNC
