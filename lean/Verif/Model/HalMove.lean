import Verif.Model.Pulses
import Verif.Model.Dma

/-!
# `move` of the Raspberry Pi back end: `hal_raspberry/hal.py:212-311`
-/

namespace PyCNC

/-- Pin numbers, `config.py:56-76`. -/
structure Pins where
  /-- `STEPPER_STEP_PIN_*`, lines 57-60 -/
  step : V4 Nat
  /-- `STEPPER_DIR_PIN_*`, lines 62-65 -/
  dir : V4 Nat
  /-- `STEPPERS_ENABLE_PIN`, line 56 -/
  enable : Nat
  /-- `SPINDLE_PWM_PIN`, line 67 -/
  spindle : Nat
  /-- `FAN_PIN`, line 68 -/
  fan : Nat
  /-- `EXTRUDER_HEATER_PIN`, line 69 -/
  extruder : Nat
  /-- `BED_HEATER_PIN`, line 70 -/
  bed : Nat
  /-- `ENDSTOP_PIN_*`, lines 74-76 -/
  stopX : Nat
  stopY : Nat
  stopZ : Nat
  deriving DecidableEq, Repr

/-- The values written in `config.py`. -/
def Pins.default : Pins where
  step := ⟨21, 16, 12, 8⟩
  dir := ⟨20, 19, 13, 7⟩
  enable := 26
  spindle := 4
  fan := 27
  extruder := 18
  bed := 22
  stopX := 23
  stopY := 10
  stopZ := 25

/-- What `move` does to the hardware, newest first. -/
inductive HalOp where
  /-- `gpio.clear(STEPPERS_ENABLE_PIN)`, line 223 -/
  | enable
  /-- `time.sleep(0.001)` and `dma.current_control_block()`, lines 238-239 -/
  | poll
  /-- control blocks written to the bytes `[addr, addr + len)` of the buffer -/
  | write (addr len : Nat)
  /-- `dma.run_stream()`, line 297 -/
  | runStream
  /-- `while dma.is_active()` has ended, lines 303-304 -/
  | waitIdle
  /-- the `next` field of the last control block is written -/
  | finalize (addr : Nat)
  /-- `dma.run(False)` starts the engine, line 305 -/
  | run
  deriving DecidableEq, Repr

/-- The hardware and the clock as `move` sees them. -/
structure MoveEnv where
  /-- offset of the control block being executed, `none` when the engine is stopped -/
  cb : List HalOp → Option Int
  /-- `nt > ng`, lines 289-291: preparing took longer than the prepared part lasts -/
  slow : List HalOp → Bool

/-- Local variables of `move`, the buffer and the trace. -/
structure MoveSt where
  dma : DmaSt
  prev : Int
  isRan : Bool
  instant : Bool
  cur : Option Int
  k : Int
  k0 : Int
  trace : List HalOp
  /-- ghost: the states of the buffer since this call started the engine, newest first -/
  live : List DmaSt

/-- How `move` stands. -/
inductive MoveEnd where
  | running
  | done
  | raised (e : PyErr)
  /-- still in a waiting loop when the fuel ran out, or the generator did not end -/
  | waiting
  deriving DecidableEq, Repr

namespace Hal

variable {F : Type} [PyNum F]

/-- State before the loop, lines 222-234.  `dma.clear()` resets the address only. -/
def moveInit (c : Cfg) (mem : Nat → Word) : MoveSt where
  dma := ⟨mem, 0⟩
  prev := 0
  isRan := false
  instant := c.instantRun
  cur := some 0
  k := 0
  k0 := 0
  trace := [.enable]
  live := []

/-- The waiting loop, lines 236-243; `none`: out of fuel. -/
def moveWait (env : MoveEnv) : Nat → MoveSt → Option MoveSt
  | 0, s =>
    match s.cur with
    | none => some s
    | some cb => if (s.dma.addr : Int) + 4 * cbSize ≥ cb then none else some s
  | n + 1, s =>
    match s.cur with
    | none => some s
    | some cb =>
      if (s.dma.addr : Int) + 4 * cbSize ≥ cb then
        let s := { s with trace := .poll :: s.trace }
        let cur := env.cb s.trace
        let s := { s with cur := cur }
        match cur with
        | none => some { s with k0 := s.k }
        | some _ => moveWait env n s
      else some s

/-- One axis of the direction masks, e.g. lines 247-250. -/
def dirAxis (d : Int) (pin : Nat) (m : Nat × Nat) : Nat × Nat :=
  if d > 0 then (m.1, m.2 ||| 2 ^ pin)
  else if d < 0 then (m.1 ||| 2 ^ pin, m.2)
  else m

/-- `pins_to_set` and `pins_to_clear`, lines 245-262. -/
def dirMasks (p : Pins) (d : V4 Int) : Nat × Nat :=
  dirAxis d.e p.dir.e (dirAxis d.z p.dir.z (dirAxis d.y p.dir.y (dirAxis d.x p.dir.x (0, 0))))

/-- `pins`, lines 265, 271-278. -/
def stepMask (p : Pins) (t : V4 (Option F)) : Nat :=
  let m := 0
  let m := if t.x.isSome then m ||| 2 ^ p.step.x else m
  let m := if t.y.isSome then m ||| 2 ^ p.step.y else m
  let m := if t.z.isSome then m ||| 2 ^ p.step.z else m
  let m := if t.e.isSome then m ||| 2 ^ p.step.e else m
  m

/-- `add_*` call inside `move`: the trace records the written range. -/
def moveAdd (f : DmaSt → Except PyErr DmaSt) (s : MoveSt) : Except PyErr MoveSt := do
  let d ← f s.dma
  return { s with
    dma := d
    trace := .write s.dma.addr (d.addr - s.dma.addr) :: s.trace
    live := if s.isRan then d :: s.live else [] }

/-- The body of the loop after the waiting loop, lines 244-298. -/
def moveBody (c : Cfg) (p : Pins) (b : Buf) (env : MoveEnv) (ev : Event F) (s : MoveSt) :
    Except PyErr MoveSt :=
  match ev with
  | .dir d => moveAdd (DmaGpio.addSetClear b (dirMasks p d).1 (dirMasks p d).2) s
  | .pulse t =>
    match minTime t with
    | none => .error .type
    | some m => do
      let k := PyNum.roundI (m *ₚ PyNum.ofRat 1000000)
      let s := { s with k := k }
      let s ← if k - s.prev > 0 then moveAdd (DmaGpio.addDelay b (k - s.prev).toNat) s else pure s
      let s ← moveAdd (DmaGpio.addPulse b (stepMask p t) c.pulseLenUs) s
      let s := { s with prev := k + c.pulseLenUs }
      if !s.isRan && s.instant && s.cur.isNone && decide (k - s.k0 > 100000) then
        if env.slow s.trace then return { s with instant := false }
        else return { s with trace := .runStream :: s.trace, isRan := true, live := [s.dma] }
      else return s

/-- The loop, lines 235-298. -/
def moveLoop (c : Cfg) (p : Pins) (b : Buf) (env : MoveEnv) (fuel : Nat) :
    List (Event F) → MoveSt → MoveSt × MoveEnd
  | [], s => (s, .running)
  | ev :: evs, s =>
    match moveWait env fuel s with
    | none => (s, .waiting)
    | some s =>
      match moveBody c p b env ev s with
      | .error e => (s, .raised e)
      | .ok s => moveLoop c p b env fuel evs s

/-- After the loop, lines 299-308. -/
def moveFinish (s : MoveSt) : MoveSt × MoveEnd :=
  if s.isRan then
    ({ s with
        dma := DmaGpio.finalize s.dma
        trace := .finalize (s.dma.addr + 20 - cbSize) :: s.trace
        live := DmaGpio.finalize s.dma :: s.live }, .done)
  else
    let s := { s with trace := .waitIdle :: s.trace }
    if s.dma.addr = 0 then (s, .raised .runtime)
    else
      ({ s with
          dma := DmaGpio.finalize s.dma
          trace := .run :: .finalize (s.dma.addr + 20 - cbSize) :: s.trace
          live := [DmaGpio.finalize s.dma] }, .done)

/-- `move`, lines 212-311, for a generator that yields `evs` and then ends as `e` says.
Simplification: an error inside one iteration leaves the state of its beginning (only the
contents of the buffer beyond the last complete call differ). -/
def move (c : Cfg) (p : Pins) (b : Buf) (env : MoveEnv) (fuel : Nat) (evs : List (Event F))
    (e : RunEnd) (mem : Nat → Word) : MoveSt × MoveEnd :=
  match moveLoop c p b env fuel evs (moveInit c mem) with
  | (s, .running) =>
    match e with
    | .done => moveFinish s
    | .raised err => (s, .raised err)
    | .unfinished => (s, .waiting)
  | r => r

end Hal

end PyCNC
