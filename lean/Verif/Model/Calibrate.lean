import Verif.Model.HalMove

/-!
# Endstop calibration: `hal_raspberry/hal.py:113-209`

The DMA engine works concurrently with the CPU: before every action of the CPU it completes some
number of control blocks, chosen by the environment.
-/

namespace PyCNC

/-- One value for each of the axes that have an endstop. -/
structure XYZ (α : Type) where
  x : α
  y : α
  z : α
  deriving DecidableEq, Repr

/-- The constants of `config.py` that only calibration uses. -/
structure CalCfg where
  /-- `CALIBRATION_VELOCITY_MM_PER_MIN`, line 11 -/
  vel : Rat
  /-- `ENDSTOP_INVERTED_*`, lines 29-31 -/
  stopInv : XYZ Bool

/-- The values written in `config.py`. -/
def CalCfg.default : CalCfg where
  vel := 300
  stopInv := ⟨true, true, false⟩

/-- What happens at the hardware. -/
inductive CalOp where
  /-- a GPIO register (byte offset) is written, by the CPU or by the engine -/
  | write (off : Nat) (v : Word)
  /-- the CPU reads the level of an input pin -/
  | read (pin : Nat) (lvl : Bool)
  /-- `dma.stop()` -/
  | stop
  /-- `dma.run(False)` -/
  | run
  deriving DecidableEq

/-- The surroundings, as functions of the number of actions of the CPU. -/
structure CalEnv (F : Type) where
  /-- `time.time()` -/
  clock : Nat → F
  /-- level of the input pins -/
  level : Nat → Nat → Bool
  /-- number of control blocks the engine completes before the action -/
  blocks : Nat → Nat

/-- The hardware. -/
structure CalSt where
  w : World
  /-- bus address of the control block the engine is at, 0 when it is stopped -/
  cb : Nat
  /-- `DMAGPIO.__current_address` -/
  addr : Nat
  /-- number of actions of the CPU -/
  k : Nat
  /-- ghost: what has happened, newest first -/
  ops : List CalOp

/-- How a calibration stands. -/
inductive CalEnd where
  | ret (r : Bool)
  | raised (e : PyErr)
  /-- out of fuel -/
  | running
  deriving DecidableEq

/-- What one pass of the loop leads to. -/
inductive CalNext where
  | stop (r : CalEnd)
  | again (pins : Nat) (last : Int)

namespace Cal

variable {F : Type} [PyNum F]

/-- The engine completes some control blocks, then it is the turn of the CPU. -/
def sync (b : Buf) (env : CalEnv F) (s : CalSt) : CalSt :=
  let r := Dma.run b (env.blocks s.k) s.cb { s.w with log := [] }
  { s with
    w := r.1
    cb := r.2
    k := s.k + 1
    ops := r.1.log.map (fun e => CalOp.write e.2.1 e.2.2) ++ s.ops }

/-- `gpio.set(pin)`. -/
def setPin (b : Buf) (env : CalEnv F) (pin : Nat) (s : CalSt) : CalSt :=
  let s := sync b env s
  { s with
    w := { s.w with gpio := Gpio.set pin s.w.gpio }
    ops := .write (4 * (pin / 32) + gpioSet) (Gpio.bit (pin % 32)) :: s.ops }

/-- `gpio.clear(pin)`. -/
def clearPin (b : Buf) (env : CalEnv F) (pin : Nat) (s : CalSt) : CalSt :=
  let s := sync b env s
  { s with
    w := { s.w with gpio := Gpio.clear pin s.w.gpio }
    ops := .write (4 * (pin / 32) + gpioClear) (Gpio.bit (pin % 32)) :: s.ops }

/-- `*_endstop = *_endstop and ((gpio.read(pin) == 1) == inverted)`, e.g. lines 164-165. -/
def look (b : Buf) (env : CalEnv F) (pin : Nat) (inv : Bool) (r : Bool × CalSt) : Bool × CalSt :=
  if r.1 then
    let s := sync b env r.2
    let v := env.level s.k pin
    (v == inv, { s with ops := .read pin v :: s.ops })
  else (false, r.2)

/-- The body of the loop over `range(0, 3)`, lines 163-169. -/
def lookAll (p : Pins) (b : Buf) (env : CalEnv F) (inv : XYZ Bool) (r : XYZ Bool × CalSt) :
    XYZ Bool × CalSt :=
  let rx := look b env p.stopX inv.x (r.1.x, r.2)
  let ry := look b env p.stopY inv.y (r.1.y, rx.2)
  let rz := look b env p.stopZ inv.z (r.1.z, ry.2)
  (⟨rx.1, ry.1, rz.1⟩, rz.2)

/-- `pins &= ~mask`, lines 170-175. -/
def without (pins mask : Nat) : Nat := pins ^^^ (pins &&& mask)

/-- An `add_*` call. -/
def add (b : Buf) (env : CalEnv F) (f : DmaSt → Except PyErr DmaSt) (s : CalSt) :
    Except (CalSt × PyErr) CalSt :=
  let s := sync b env s
  match f ⟨s.w.mem, s.addr⟩ with
  | .ok d => .ok { s with w := { s.w with mem := d.mem }, addr := d.addr }
  | .error e => .error (s, e)

/-- `dma.add_delay(delay)`; a negative delay does not fit into the control block. -/
def addDelay (b : Buf) (delay : Int) (s : DmaSt) : Except PyErr DmaSt :=
  if delay < 0 ∧ s.addr + cbSize ≤ b.size then .error .struct
  else DmaGpio.addDelay b delay.toNat s

/-- The loop `while generate > 0`, lines 186-189.  The first argument bounds the number of passes;
`1000000 + b.size` of them suffice, because each either lowers `generate` or needs memory. -/
def fill (c : Cfg) (b : Buf) (env : CalEnv F) (delay : Int) (pins : Nat) :
    Nat → Int → CalSt → Except (CalSt × PyErr) CalSt
  | 0, _, s => .error (s, .memory)
  | n + 1, generate, s =>
    if generate > 0 then
      match add b env (DmaGpio.addPulse b pins c.pulseLenUs) s with
      | .error e => .error e
      | .ok s =>
        match add b env (addDelay b delay) s with
        | .error e => .error e
        | .ok s => fill c b env delay pins n (generate - (delay + c.pulseLenUs)) s
    else .ok s

/-- `dma.stop()`. -/
def stop (b : Buf) (env : CalEnv F) (s : CalSt) : CalSt :=
  let s := sync b env s
  { s with cb := 0, ops := .stop :: s.ops }

/-- `finalize_stream()`. -/
def finalize (b : Buf) (env : CalEnv F) (s : CalSt) : CalSt :=
  let s := sync b env s
  { s with w := { s.w with mem := (DmaGpio.finalize ⟨s.w.mem, s.addr⟩).mem } }

/-- `if not dma.is_active(): dma.run(False)`, lines 191-192. -/
def runIfIdle (b : Buf) (env : CalEnv F) (s : CalSt) : Except (CalSt × PyErr) CalSt :=
  let s := sync b env s
  if s.cb = 0 then
    if s.addr = 0 then .error (s, .runtime)
    else
      let s := finalize b env s
      let s := sync b env s
      .ok { s with cb := b.base, ops := .run :: s.ops }
  else .ok s

/-- One pass of the loop, lines 157-192. -/
def pass (c : Cfg) (p : Pins) (b : Buf) (env : CalEnv F) (inv : XYZ Bool) (endTime : F)
    (delay : Int) (pins : Nat) (last : Int) (s : CalSt) : CalSt × CalNext :=
  let s := sync b env s
  if env.clock s.k <ₚ endTime then
    let e : XYZ Bool :=
      ⟨2 ^ p.step.x &&& pins != 0, 2 ^ p.step.y &&& pins != 0, 2 ^ p.step.z &&& pins != 0⟩
    let r := lookAll p b env inv (lookAll p b env inv (lookAll p b env inv (e, s)))
    let pins := if r.1.x then without pins (2 ^ p.step.x) else pins
    let pins := if r.1.y then without pins (2 ^ p.step.y) else pins
    let pins := if r.1.z then without pins (2 ^ p.step.z) else pins
    if (pins : Int) ≠ last then
      let s := stop b env r.2
      if pins = 0 then (s, .stop (.ret true))
      else
        let s := { s with addr := 0 }
        match fill c b env delay pins (1000000 + b.size) 1000000 s with
        | .error (s, e) => (s, .stop (.raised e))
        | .ok s =>
          match runIfIdle b env (finalize b env s) with
          | .error (s, e) => (s, .stop (.raised e))
          | .ok s => (s, .again pins pins)
    else
      match runIfIdle b env r.2 with
      | .error (s, e) => (s, .stop (.raised e))
      | .ok s => (s, .again pins last)
  else (s, .stop (.ret false))

/-- The loop, lines 157-193. -/
def loop (c : Cfg) (p : Pins) (b : Buf) (env : CalEnv F) (inv : XYZ Bool) (endTime : F)
    (delay : Int) : Nat → Nat → Int → CalSt → CalSt × CalEnd
  | 0, _, _, s => (s, .running)
  | n + 1, pins, last, s =>
    match pass c p b env inv endTime delay pins last s with
    | (s, .stop r) => (s, r)
    | (s, .again pins last) => loop c p b env inv endTime delay n pins last s

/-- Direction of one motor, e.g. lines 128-131. -/
def direct (b : Buf) (env : CalEnv F) (pin : Nat) (inverted : Bool) (s : CalSt) : CalSt :=
  if inverted then clearPin b env pin s else setPin b env pin s

/-- `max(max_size, TABLE_SIZE_*_MM * STEPPER_PULSES_PER_MM_*)`, lines 142-150. -/
def maxSize (c : Cfg) (req : XYZ Bool) : F :=
  let m := PyNum.ofRat 0
  let m := if req.x then pmax m (PyNum.ofRat c.tableX *ₚ PyNum.ofRat c.ppm.x) else m
  let m := if req.y then pmax m (PyNum.ofRat c.tableY *ₚ PyNum.ofRat c.ppm.y) else m
  let m := if req.z then pmax m (PyNum.ofRat c.tableZ *ₚ PyNum.ofRat c.ppm.z) else m
  m

/-- `pins`, lines 140-149. -/
def pinsOf (p : Pins) (req : XYZ Bool) : Nat :=
  let m := 0
  let m := if req.x then m ||| 2 ^ p.step.x else m
  let m := if req.y then m ||| 2 ^ p.step.y else m
  let m := if req.z then m ||| 2 ^ p.step.z else m
  m

/-- `pulses_per_sec`, lines 151-153. -/
def pulsesPerSec (c : Cfg) (cc : CalCfg) : F :=
  PyNum.ofRat cc.vel /ₚ PyNum.ofRat 60 *ₚ
    ((PyNum.ofRat c.ppm.x +ₚ PyNum.ofRat c.ppm.y +ₚ PyNum.ofRat c.ppm.z) /ₚ PyNum.ofRat 3)

/-- `__calibrate_private`, lines 113-193.  `dma.clear()` of line 184 is in `pass`. -/
def phase (c : Cfg) (cc : CalCfg) (p : Pins) (b : Buf) (env : CalEnv F) (fuel : Nat)
    (req : XYZ Bool) (invert : Bool) (s : CalSt) : CalSt × CalEnd :=
  let inv : XYZ Bool :=
    ⟨cc.stopInv.x ^^ invert, cc.stopInv.y ^^ invert, cc.stopInv.z ^^ invert⟩
  let s := direct b env p.dir.x (c.inverted.x ^^ invert) s
  let s := direct b env p.dir.y (c.inverted.y ^^ invert) s
  let s := direct b env p.dir.z (c.inverted.z ^^ invert) s
  let pins := pinsOf p req
  let pps : F := pulsesPerSec c cc
  let s := sync b env s
  match pdiv (PyNum.ofRat (12 / 10) *ₚ maxSize c req) pps, pdiv (PyNum.ofRat 1000000) pps with
  | .ok t, .ok d =>
    loop c p b env inv (env.clock s.k +ₚ t) (PyNum.truncI d) fuel pins (-(pins : Int) - 1) s
  | _, _ => (s, .raised .zeroDiv)

/-- `calibrate`, lines 196-209. -/
def calibrate (c : Cfg) (cc : CalCfg) (p : Pins) (b : Buf) (env : CalEnv F) (fuel : Nat)
    (req : XYZ Bool) (s : CalSt) : CalSt × CalEnd :=
  let s := clearPin b env p.enable s
  match phase c cc p b env fuel req true s with
  | (s, .ret true) => phase c cc p b env fuel req false s
  | r => r

end Cal

end PyCNC
