import Verif.Model.Dma

/-!
# `DMAPWM`: `hal_raspberry/rpgpio.py:259-359`

`add_pin` and `remove_pin` are modelled as sequences of steps, one for each access to the state
shared with the other threads and with the DMA engine, so that the steps of several threads and
the blocks executed by the engine can be interleaved.
-/

namespace PyCNC

/-- `_TOTAL_NUMBER_OF_BLOCKS`, `rpgpio.py:262`. -/
abbrev pwmBlocks : Nat := 256
/-- `_DMA_DATA_OFFSET`, `rpgpio.py:261`. -/
abbrev pwmData : Nat := 24
/-- Information word, `rpgpio.py:296-297`. -/
abbrev pwmInfo : Nat := 2 ^ 26 + 2 ^ 3 + 2 ^ 4 + 2 ^ 8

/-- A `DMAPWM` object with the hardware it drives. -/
structure PwmSt where
  /-- buffer and GPIO registers -/
  w : World
  /-- `_clear_pins`, in the order of insertion -/
  clear : List (Nat × Nat)
  /-- the engine is running -/
  active : Bool
  /-- bus address of the control block the engine executes next -/
  pos : Nat

namespace Pwm

variable {F : Type} [PyNum F]

/-- `__add_control_block`, `rpgpio.py:293-306`. -/
def addControlBlock (b : Buf) (address offset : Nat) (mem : Nat → Word) :
    Except PyErr (Nat → Word) :=
  let ba := b.base + address
  packInto mem address [pwmInfo, ba + pwmData, gpioBus + offset, 4, 0, ba + cbSize, 0, 0]

/-- The loop over the control blocks, `rpgpio.py:284-286`; the first argument is the number of
iterations left, the second the loop variable. -/
def fill (b : Buf) : Nat → Nat → (Nat → Word) → Except PyErr (Nat → Word)
  | 0, _, mem => .ok mem
  | n + 1, i, mem => do
    let mem ← addControlBlock b (i * cbSize) gpioClear mem
    fill b n (i + 1) mem

/-- `__init__`, `rpgpio.py:265-291`. -/
def init (b : Buf) (w : World) : Except PyErr PwmSt := do
  let mem ← addControlBlock b 0 gpioSet w.mem
  let mem ← fill b (pwmBlocks - 1) 1 mem
  let mem := writeInt mem ((pwmBlocks - 1) * cbSize + 20) b.base
  return ⟨{ w with mem := mem }, [], false, 0⟩

/-- `int(duty_cycle * 256 / 100.0)`, `rpgpio.py:315-316`. -/
def blockNumber (duty : F) : Int :=
  PyNum.truncI ((duty *ₚ PyNum.ofRat 256) /ₚ PyNum.ofRat 100)

/-- `read_int`, `rpgpio_private.py:144-145`. -/
def readInt (s : PwmSt) (addr : Nat) : Word := s.w.mem (addr / 4)

/-- `write_int` to the buffer, `rpgpio_private.py:138-139`. -/
def store (s : PwmSt) (addr : Nat) (v : Word) : PwmSt :=
  { s with w := { s.w with mem := fun i => if i = addr / 4 then v else s.w.mem i } }

/-- `self._gpio.write_int`. -/
def gpioWrite (s : PwmSt) (off : Nat) (v : Word) : PwmSt :=
  { s with w := { s.w with gpio := s.w.gpio.write off v } }

/-- Dictionary lookup. -/
def lookup (d : List (Nat × Nat)) (pin : Nat) : Option Nat := (d.find? (·.1 == pin)).map (·.2)

/-- `self._clear_pins[pin] = address`. -/
def insert (d : List (Nat × Nat)) (pin addr : Nat) : List (Nat × Nat) :=
  if (lookup d pin).isSome then d.map fun x => if x.1 == pin then (pin, addr) else x
  else d ++ [(pin, addr)]

/-- `del self._clear_pins[pin]`. -/
def delete (d : List (Nat × Nat)) (pin : Nat) : List (Nat × Nat) := d.filter (·.1 != pin)

/-- Where a thread is in `add_pin` or `remove_pin`, with its local variables.  `after` is the
block number when `remove_pin` was called by `add_pin`. -/
inductive Pc where
  /-- no call in progress -/
  | idle
  /-- line 340 -/
  | remStart (pin : Nat) (after : Option Nat)
  /-- line 342 -/
  | remRead1 (pin : Nat) (after : Option Nat) (addr : Nat)
  /-- lines 343-344 -/
  | remWrite1 (pin : Nat) (after : Option Nat) (addr : Nat) (value : Word)
  /-- line 345 -/
  | remRead2 (pin : Nat) (after : Option Nat)
  /-- lines 346-347 -/
  | remWrite2 (pin : Nat) (after : Option Nat) (value : Word)
  /-- line 348 -/
  | remDel (pin : Nat) (after : Option Nat)
  /-- line 349 -/
  | remClr (pin : Nat) (after : Option Nat)
  /-- line 350 -/
  | remCheck (pin : Nat) (after : Option Nat)
  /-- line 351 -/
  | remStop (pin : Nat) (after : Option Nat)
  /-- lines 318 and 320 -/
  | addGpio (pin : Nat) (n : Nat)
  /-- line 321 -/
  | addFull (pin : Nat)
  /-- line 323 -/
  | addRead1 (pin : Nat) (n : Nat)
  /-- lines 324-325 -/
  | addWrite1 (pin : Nat) (n : Nat) (value : Word)
  /-- line 328 -/
  | addRead2 (pin : Nat) (n : Nat)
  /-- lines 329-330 -/
  | addWrite2 (pin : Nat) (n : Nat) (value : Word)
  /-- line 331 -/
  | addReg (pin : Nat) (n : Nat)
  /-- line 332 -/
  | addCheck (pin : Nat)
  /-- line 333 -/
  | addRun (pin : Nat)
  deriving DecidableEq

/-- A call of `remove_pin`: the assertion of line 339. -/
def startRemove (pin : Int) : Except PyErr Pc :=
  if 0 ≤ pin ∧ pin < 32 then .ok (.remStart pin.toNat none) else .error (.assertion "")

/-- A call of `add_pin`: the assertions of lines 313 and 339.  Simplification: the block number
(line 315) is computed here, it depends on the argument only. -/
def startAdd (pin : Int) (duty : F) : Except PyErr Pc :=
  if (PyNum.ofRat 0 ≤ₚ duty) && (duty ≤ₚ PyNum.ofRat 100) then
    if 0 ≤ pin ∧ pin < 32 then .ok (.remStart pin.toNat (some (blockNumber duty).toNat))
    else .error (.assertion "")
  else .error (.assertion "")

/-- What follows `remove_pin`: its end, or the branches of `add_pin`, lines 317-322. -/
def afterRemove (pin : Nat) : Option Nat → Pc
  | none => .idle
  | some n => if n = 0 ∨ n = pwmBlocks then .addGpio pin n else .addRead1 pin n

/-- One step of a thread. -/
def step (b : Buf) : Pc → PwmSt → PwmSt × Pc
  | .idle, s => (s, .idle)
  | .remStart pin after, s =>
    match lookup s.clear pin with
    | some addr => (s, .remRead1 pin after addr)
    | none => (s, .remCheck pin after)
  | .remRead1 pin after addr, s => (s, .remWrite1 pin after addr (readInt s addr))
  | .remWrite1 pin after addr v, s => (store s addr (v &&& ~~~Gpio.bit pin), .remRead2 pin after)
  | .remRead2 pin after, s => (s, .remWrite2 pin after (readInt s pwmData))
  | .remWrite2 pin after v, s => (store s pwmData (v &&& ~~~Gpio.bit pin), .remDel pin after)
  | .remDel pin after, s => ({ s with clear := delete s.clear pin }, .remClr pin after)
  | .remClr pin after, s => (gpioWrite s gpioClear (Gpio.bit pin), .remCheck pin after)
  | .remCheck pin after, s =>
    if s.clear.isEmpty && s.active then (s, .remStop pin after) else (s, afterRemove pin after)
  | .remStop pin after, s => ({ s with active := false }, afterRemove pin after)
  | .addGpio pin n, s =>
    if n = 0 then (gpioWrite s gpioClear (Gpio.bit pin), .idle)
    else (gpioWrite s gpioSet (Gpio.bit pin), .addFull pin)
  | .addFull pin, s => ({ s with clear := insert s.clear pin pwmData }, .idle)
  | .addRead1 pin n, s => (s, .addWrite1 pin n (readInt s pwmData))
  | .addWrite1 pin n v, s => (store s pwmData (v ||| Gpio.bit pin), .addRead2 pin n)
  | .addRead2 pin n, s => (s, .addWrite2 pin n (readInt s (n * cbSize + pwmData)))
  | .addWrite2 pin n v, s =>
    (store s (n * cbSize + pwmData) (v ||| Gpio.bit pin), .addReg pin n)
  | .addReg pin n, s =>
    ({ s with clear := insert s.clear pin (n * cbSize + pwmData) }, .addCheck pin)
  | .addCheck pin, s => if s.active then (s, .idle) else (s, .addRun pin)
  | .addRun _, s => ({ s with active := true, pos := b.base }, .idle)

/-- The engine executes one control block.  Simplification: a block is executed at once. -/
def engine (b : Buf) (s : PwmSt) : PwmSt :=
  if s.active then
    let r := Dma.execBlock b s.pos s.w
    { s with w := r.1, pos := r.2 }
  else s

/-- A whole call without interruption (at most 20 steps). -/
def finish (b : Buf) (pc : Pc) (s : PwmSt) : PwmSt :=
  go 20 pc s
where
  go : Nat → Pc → PwmSt → PwmSt
    | 0, _, s => s
    | n + 1, pc, s => if pc = .idle then s else go n (step b pc s).2 (step b pc s).1

/-- The loop of `remove_all` over a live view of the keys (Python 3), `rpgpio.py:356-358`: asked
for the next key, the iterator of the dictionary first compares the size of the dictionary with
the size it had at the beginning (`size`).  `keys` are the keys not yet visited. -/
def iterKeys (b : Buf) (size : Nat) : List Nat → PwmSt → PwmSt × Option PyErr
  | [], s => if s.clear.length = size then (s, none) else (s, some .runtime)
  | p :: ps, s =>
    if s.clear.length = size then iterKeys b size ps (finish b (.remStart p none) s)
    else (s, some .runtime)

/-- The assertion at the end of `remove_all`, `rpgpio.py:359`. -/
def checkEmpty (r : PwmSt × Option PyErr) : PwmSt × Option PyErr :=
  match r.2 with
  | some e => (r.1, some e)
  | none => if r.1.clear.isEmpty then (r.1, none) else (r.1, some (.assertion ""))

/-- `remove_all`, `rpgpio.py:353-359`.  With Python 2 `keys()` is a list; with Python 3 it is a
view.  Simplification: the keys are visited in the order of insertion. -/
def removeAll (py3 : Bool) (b : Buf) (s : PwmSt) : PwmSt × Option PyErr :=
  if py3 then checkEmpty (iterKeys b s.clear.length (s.clear.map (·.1)) s)
  else checkEmpty ((s.clear.map (·.1)).foldl (fun s p => finish b (.remStart p none) s) s, none)

end Pwm

end PyCNC
