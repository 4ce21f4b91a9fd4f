import Verif.Model.Num
import Verif.Model.Gpio

/-!
# The DMA engine and `DMAGPIO`: `hal_raspberry/rpgpio.py:79-256`, `rpgpio_private.py:44-106`

The engine is the DMA controller of the BCM2835 as described in its manual, restricted to the
features the code uses.  `DMAGPIO` fills a buffer with control blocks for it.
-/

namespace PyCNC

/-- The buffer allocated by `CMAPhysicalMemory`, `rpgpio_private.py:151-199`: bus address and
size in bytes. -/
structure Buf where
  base : Nat
  size : Nat
  deriving DecidableEq, Repr

/-- `PHYSICAL_GPIO_BUS`, `rpgpio_private.py:42`. -/
abbrev gpioBus : Nat := 0x7E200000
/-- `PHYSICAL_PWM_BUS + PWM_FIFO`, `rpgpio_private.py:76`, `:81`. -/
abbrev pwmFifo : Nat := 0x7E20C018

/-- What the engine acts on.  The buffer is an array of 32 bit words (index = byte offset / 4;
every access of the code and of the engine is word aligned).  `log` records the writes to GPIO
registers, newest first: time, register offset, value. -/
structure World where
  mem : Nat → Word
  gpio : GpioHw
  log : List (Nat × Nat × Word)
  /-- microseconds since the start of the engine -/
  time : Nat

namespace Dma

/-- A read over the bus.  Simplification: outside the buffer it gives zero (the code never
makes the engine read elsewhere). -/
def busRead (b : Buf) (w : World) (a : Nat) : Word :=
  if b.base ≤ a ∧ a < b.base + b.size then w.mem ((a - b.base) / 4) else 0#32

/-- A write over the bus: GPIO registers, the buffer, anything else has no effect on the
modelled state. -/
def busWrite (b : Buf) (w : World) (a : Nat) (v : Word) : World :=
  if gpioBus ≤ a ∧ a < gpioBus + 0x1000 then
    { w with
      gpio := w.gpio.write (a - gpioBus) v
      log := (w.time, a - gpioBus, v) :: w.log }
  else if b.base ≤ a ∧ a < b.base + b.size then
    { w with mem := fun i => if i = (a - b.base) / 4 then v else w.mem i }
  else w

/-- Copy `n` words.  Bits of the information word: 4 increments the destination, 8 the source,
7 ignores the destination, 11 ignores the source (the manual: "destination writes will zero all
the write strobes", so nothing is written). -/
def xfer (b : Buf) (info : Word) : Nat → Nat → Nat → World → World
  | 0, _, _, w => w
  | n + 1, src, dst, w =>
    let w' :=
      if info.getLsbD 11 = true ∨ info.getLsbD 7 = true then w
      else busWrite b w dst (busRead b w src)
    xfer b info n (if info.getLsbD 8 then src + 4 else src)
      (if info.getLsbD 4 then dst + 4 else dst) w'

/-- The rows of a two dimensional transfer: after each row the strides are added to the start
of the row. -/
def rows (b : Buf) (info : Word) (xwords sstr dstr : Nat) : Nat → Nat → Nat → World → World
  | 0, _, _, w => w
  | n + 1, src, dst, w =>
    rows b info xwords sstr dstr n (src + sstr) (dst + dstr) (xfer b info xwords src dst w)

/-- Execution of the control block at bus address `cb`: the changed world and the address of
the next block.  Bit 1 of the information word selects the two dimensional mode, bit 6 paces
the transfer by the PWM FIFO.  Trusted: a paced transfer takes one microsecond per 16 bytes
(the code's `<< 4`), other transfers take no time. -/
def execBlock (b : Buf) (cb : Nat) (w : World) : World × Nat :=
  let info := busRead b w cb
  let src := (busRead b w (cb + 4)).toNat
  let dst := (busRead b w (cb + 8)).toNat
  let len := (busRead b w (cb + 12)).toNat
  let stride := (busRead b w (cb + 16)).toNat
  let next := (busRead b w (cb + 20)).toNat
  let w1 :=
    if info.getLsbD 1 then
      rows b info ((len % 65536 + 3) / 4) (stride % 65536) (stride / 65536)
        (len / 65536 % 16384) src dst w
    else xfer b info ((len % 2 ^ 30 + 3) / 4) src dst w
  let w2 := if info.getLsbD 6 then { w1 with time := w1.time + len % 2 ^ 30 / 16 } else w1
  (w2, next)

/-- Up to `n` control blocks, starting at `cb`; the engine stops at address zero. -/
def run (b : Buf) : Nat → Nat → World → World × Nat
  | 0, cb, w => (w, cb)
  | n + 1, cb, w =>
    if cb = 0 then (w, 0)
    else
      let r := execBlock b cb w
      run b n r.2 r.1

end Dma

/-! ## `DMAGPIO` -/

/-- `_DMA_CONTROL_BLOCK_SIZE`, `rpgpio.py:84`. -/
abbrev cbSize : Nat := 32

/-- `_delay_info`, `rpgpio.py:106-108`. -/
abbrev delayInfo : Nat := 2 ^ 26 + 2 ^ 11 + 5 * 2 ^ 16 + 2 ^ 6
/-- `_pulse_info`, `rpgpio.py:112-113`. -/
abbrev pulseInfo : Nat := 2 ^ 26 + 2 ^ 1 + 2 ^ 3
/-- `_pulse_destination`, `rpgpio.py:114`. -/
abbrev pulseDst : Nat := gpioBus + gpioSet
/-- `_pulse_length`, `rpgpio.py:116-117`. -/
abbrev pulseLen : Nat := 2 * 2 ^ 16 + 4
/-- `_pulse_stride`, `rpgpio.py:118-119`. -/
abbrev pulseStride : Nat := 12 * 2 ^ 16 + 4

/-- `PhysicalMemory.write`, `rpgpio_private.py:141-142` (`struct.pack_into` with format "nI").
Simplification: when a value does not fit, nothing is written. -/
def packInto (mem : Nat → Word) (addr : Nat) (ws : List Nat) : Except PyErr (Nat → Word) :=
  if ws.all (fun v => decide (v < 2 ^ 32)) then
    .ok fun i =>
      if addr / 4 ≤ i ∧ i < addr / 4 + ws.length then BitVec.ofNat 32 (ws.getD (i - addr / 4) 0)
      else mem i
  else .error .struct

/-- `PhysicalMemory.write_int`, `rpgpio_private.py:138-139`. -/
def writeInt (mem : Nat → Word) (addr v : Nat) : Nat → Word :=
  fun i => if i = addr / 4 then BitVec.ofNat 32 v else mem i

/-- The part of a `DMAGPIO` object that changes: the buffer and `__current_address`. -/
structure DmaSt where
  mem : Nat → Word
  addr : Nat

namespace DmaGpio

/-- `add_pulse`, `rpgpio.py:121-152`. -/
def addPulse (b : Buf) (mask lengthUs : Nat) (s : DmaSt) : Except PyErr DmaSt := do
  let nextCb := s.addr + 3 * cbSize
  if nextCb > b.size then throw .memory
  let next3 := nextCb + b.base
  let next2 := next3 - cbSize
  let next1 := next2 - cbSize
  let source1 := next1 - 8
  let length2 := lengthUs * 2 ^ 4
  let source3 := next3 - 8
  let mem ← packInto s.mem s.addr
    [pulseInfo, source1, pulseDst, pulseLen, pulseStride, next1, mask, 0,
     delayInfo, 0, pwmFifo, length2, 0, next2, 0, 0,
     pulseInfo, source3, pulseDst, pulseLen, pulseStride, next3, 0, mask]
  return ⟨mem, nextCb⟩

/-- `add_delay`, `rpgpio.py:154-169`. -/
def addDelay (b : Buf) (delayUs : Nat) (s : DmaSt) : Except PyErr DmaSt := do
  let nextCb := s.addr + cbSize
  if nextCb > b.size then throw .memory
  let next1 := b.base + nextCb
  let source := next1 - 8
  let length := delayUs * 2 ^ 4
  let mem ← packInto s.mem s.addr [delayInfo, source, pwmFifo, length, 0, next1, 0, 0]
  return ⟨mem, nextCb⟩

/-- `add_set_clear`, `rpgpio.py:171-187`. -/
def addSetClear (b : Buf) (toSet toClear : Nat) (s : DmaSt) : Except PyErr DmaSt := do
  let nextCb := s.addr + cbSize
  if nextCb > b.size then throw .memory
  let next1 := b.base + nextCb
  let source := next1 - 8
  let mem ← packInto s.mem s.addr
    [pulseInfo, source, pulseDst, pulseLen, pulseStride, next1, toSet, toClear]
  return ⟨mem, nextCb⟩

/-- `finalize_stream`, `rpgpio.py:189-195`.  With nothing added (address 0) the code would fail; `run`
checks for that and the stream mode starts after a pulse was added. -/
def finalize (s : DmaSt) : DmaSt := { s with mem := writeInt s.mem (s.addr + 20 - cbSize) 0 }

end DmaGpio

/-- The engine while the CPU goes on writing: under each state of the buffer it executes some
number of control blocks (a choice of the schedule). -/
def Dma.runLive (b : Buf) : List DmaSt → List Nat → Nat → World → World × Nat
  | d :: ds, n :: ns, cb, w =>
    let r := Dma.run b n cb { w with mem := d.mem }
    Dma.runLive b ds ns r.2 r.1
  | _, _, cb, w => (w, cb)

end PyCNC
