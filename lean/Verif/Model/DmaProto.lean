import Verif.Model.Watchdog

/-!
# The registers of the DMA controller and `DMAProto`

`hal_raspberry/rpgpio_private.py:44-106, 202-255`, and the registers of the PWM clock written by
`DMAGPIO.run_stream` and `stop`, `hal_raspberry/rpgpio.py:197-217, 235-239`.

`Model/Dma`, `Model/Pwm` and `Model/Watchdog` describe what an engine does with its control blocks and
take for granted that it can be started, stopped and asked; here is how the code does that.
-/

namespace PyCNC

/-- `DMA_CS`, `rpgpio_private.py:46`. -/
abbrev dmaCs : Nat := 0x00
/-- `DMA_CONBLK_AD`, `rpgpio_private.py:47`. -/
abbrev dmaConblk : Nat := 0x04
/-- `DMA_NEXTCONBK`, `rpgpio_private.py:48`. -/
abbrev dmaNext : Nat := 0x1C
/-- `DMA_CS_RESET`, `rpgpio_private.py:58`. -/
abbrev csReset : Word := 1#32 <<< 31
/-- `DMA_CS_ABORT`, `rpgpio_private.py:59`. -/
abbrev csAbort : Word := 1#32 <<< 30
/-- `DMA_CS_DISDEBUG`, `rpgpio_private.py:60` (in the manual the bit of that name is 29; bit 28 is
WAIT_FOR_OUTSTANDING_WRITES). -/
abbrev csDisdebug : Word := 1#32 <<< 28
/-- `DMA_CS_END`, `rpgpio_private.py:61`. -/
abbrev csEnd : Word := 1#32 <<< 1
/-- `DMA_CS_ACTIVE`, `rpgpio_private.py:62`. -/
abbrev csActive : Word := 1#32 <<< 0
/-- `DMA_CS_PRIORITY`, `rpgpio_private.py:71`. -/
abbrev csPriority (x : Word) : Word := (x &&& 0xf#32) <<< 16
/-- `DMA_CS_PANIC_PRIORITY`, `rpgpio_private.py:72`. -/
abbrev csPanic (x : Word) : Word := (x &&& 0xf#32) <<< 20

/-! ## The hardware -/

/-- One channel of the DMA controller of the BCM2835. -/
structure Chan where
  /-- the control and status register as it reads -/
  cs : Word
  /-- address of the control block being executed, zero when there is none -/
  conblk : Word
  /-- address of the control block to be executed after it -/
  next : Word
  /-- the block at `conblk` has been read -/
  loaded : Bool
  deriving DecidableEq

namespace Chan

/-- The bit ACTIVE. -/
def active (c : Chan) : Bool := c.cs.getLsbD 0

/-- The engine reads the block at `a`; `nextOf` gives the word at offset 20 of the block at an address.
Address zero: it clears ACTIVE and sets END. -/
def load (nextOf : Word → Word) (a : Word) (c : Chan) : Chan :=
  if a = 0#32 then ⟨(c.cs &&& ~~~1#32) ||| 2#32, 0#32, 0#32, false⟩
  else ⟨c.cs, a, nextOf a, true⟩

/-- The engine completes the current block. -/
def tick (nextOf : Word → Word) (c : Chan) : Chan :=
  if c.active then c.load nextOf c.next else c

/-- A write to the control and status register.  Bit 31 resets the channel.  Bit 30 ends the current
block, the engine goes on with the next one.  A one in bit 1 (END) or 2 (INT) clears that bit; bits
0, 16-23, 28 and 29 keep what is written, the others are left as they are.  When
ACTIVE becomes one the block at `conblk` is read, unless the engine was only paused. -/
def writeCs (nextOf : Word → Word) (v : Word) (c : Chan) : Chan :=
  if v.getLsbD 31 then ⟨0#32, 0#32, 0#32, false⟩
  else
    let c := if v.getLsbD 30 then c.tick nextOf else c
    let c' := { c with
      cs := (v &&& 0x30FF0001#32) ||| ((c.cs &&& ~~~0x30FF0001#32) &&& ~~~(v &&& 6#32)) }
    if c'.active && !c'.loaded then c'.load nextOf c'.conblk else c'

/-- A write to the address of the control block; the five low bits are not there.  The manual allows
it only when the channel is not active; otherwise it is without effect here.  A channel that is only
paused would go on with the block it had read. -/
def writeConblk (v : Word) (c : Chan) : Chan :=
  if c.active || c.loaded then c else { c with conblk := v &&& ~~~31#32 }

/-- A write to the address of the next block. -/
def writeNext (v : Word) (c : Chan) : Chan := { c with next := v &&& ~~~31#32 }

end Chan

/-- The registers of all channels. -/
abbrev DmaHw := Nat → Chan

/-- What happens before an access of the CPU: blocks are completed, each in a channel and with the
memory of that moment; and the memory at the time of the access. -/
structure Moment where
  done : List (Nat × (Word → Word))
  nextOf : Word → Word

namespace DmaHw

/-- A change of one channel. -/
def upd (h : DmaHw) (ch : Nat) (f : Chan → Chan) : DmaHw := fun i => if i = ch then f (h i) else h i

/-- The engines go on. -/
def advance (h : DmaHw) (l : List (Nat × (Word → Word))) : DmaHw :=
  l.foldl (fun h e => h.upd e.1 (Chan.tick e.2)) h

/-- A write of the CPU; the channels are `0x100` apart.  Simplification: only three registers of each
channel. -/
def write (nextOf : Word → Word) (off : Nat) (v : Word) (h : DmaHw) : DmaHw :=
  if off % 0x100 = 0x00 then h.upd (off / 0x100) (Chan.writeCs nextOf v)
  else if off % 0x100 = 0x04 then h.upd (off / 0x100) (Chan.writeConblk v)
  else if off % 0x100 = 0x1C then h.upd (off / 0x100) (Chan.writeNext v)
  else h

/-- A read of the CPU. -/
def read (off : Nat) (h : DmaHw) : Word :=
  if off % 0x100 = 0x00 then (h (off / 0x100)).cs
  else if off % 0x100 = 0x04 then (h (off / 0x100)).conblk
  else if off % 0x100 = 0x1C then (h (off / 0x100)).next
  else 0#32

end DmaHw

/-- The registers, and the number of accesses made so far. -/
structure DmaBus where
  hw : DmaHw
  n : Nat

namespace DmaBus

variable (act : Nat → Moment)

/-- `self._dma.write_int`. -/
def write (off : Nat) (v : Word) (s : DmaBus) : DmaBus :=
  ⟨(s.hw.advance (act s.n).done).write (act s.n).nextOf off v, s.n + 1⟩

/-- `self._dma.read_int`: the value, and the state after it. -/
def read (off : Nat) (s : DmaBus) : Word × DmaBus :=
  let hw := s.hw.advance (act s.n).done
  (hw.read off, ⟨hw, s.n + 1⟩)

end DmaBus

/-! ## `DMAProto` -/

/-- `_DMA_CHANNEL` of `DMAGPIO`, `rpgpio.py:85`. -/
abbrev gpioChannel : Nat := 4
/-- `_DMA_CHANNEL` of `DMAPWM`, `rpgpio.py:263`. -/
abbrev pwmChannel : Nat := 14
/-- `_DMA_CHANNEL` of `DMAWatchdog`, `rpgpio.py:364`. -/
abbrev dogChannel : Nat := 13

namespace DmaProto

variable (act : Nat → Moment)

/-- `_DMA_CHANNEL_ADDRESS`, `rpgpio_private.py:207`. -/
def address (ch : Nat) : Nat := 0x100 * ch

/-- `_run_dma`, `rpgpio_private.py:213-222`. -/
def runDma (ch : Nat) (b : Buf) (s : DmaBus) : DmaBus :=
  let s := s.write act (address ch + dmaCs) csEnd
  let s := s.write act (address ch + dmaConblk) (BitVec.ofNat 32 b.base)
  let cs := csPriority 7#32 ||| csPanic 7#32 ||| csDisdebug
  let s := s.write act (address ch + dmaCs) cs
  let cs := cs ||| csActive
  s.write act (address ch + dmaCs) cs

/-- `_stop_dma`, `rpgpio_private.py:224-233`. -/
def stopDma (ch : Nat) (s : DmaBus) : DmaBus :=
  let (cs, s) := s.read act (address ch + dmaCs)
  let cs := cs ||| csAbort
  let s := s.write act (address ch + dmaCs) cs
  let cs := cs &&& ~~~csActive
  let s := s.write act (address ch + dmaCs) cs
  let cs := cs ||| csReset
  s.write act (address ch + dmaCs) cs

/-- `is_active`, `rpgpio_private.py:235-243`. -/
def isActive (ch : Nat) (s : DmaBus) : Bool × DmaBus :=
  let (cs, s) := s.read act (address ch + dmaCs)
  (cs &&& csActive == csActive, s)

/-- `current_control_block`, `rpgpio_private.py:245-253`. -/
def currentControlBlock (ch : Nat) (b : Buf) (s : DmaBus) : Option Int × DmaBus :=
  let (cb, s) := s.read act (address ch + dmaConblk)
  (if cb = 0#32 then none else some ((cb.toNat : Int) - b.base), s)

/-- `DMAWatchdog.feed`, `rpgpio.py:406-410`. -/
def feed (ch : Nat) (b : Buf) (s : DmaBus) : DmaBus :=
  s.write act (address ch + dmaNext) (BitVec.ofNat 32 b.base)

end DmaProto

/-! ## The clock of `DMAGPIO` -/

/-- An access to the registers of the PWM module or of the clock manager, and the start of the
engine. -/
inductive StreamOp where
  /-- `self._pwm.write_int` -/
  | pwm (off : Nat) (v : Word)
  /-- `self._clock.write_int` -/
  | clock (off : Nat) (v : Word)
  /-- `self._clock.read_int(CM_PWM_CNTL)`, with what the bit BUSY was -/
  | busy (answer : Bool)
  /-- `_run_dma()` -/
  | run
  /-- `_stop_dma()` -/
  | stop
  deriving DecidableEq

/-- `PWM_CTL`, `PWM_DMAC`, `PWM_RNG1`, `rpgpio_private.py:77-79`. -/
abbrev pwmCtl : Nat := 0x00
@[inherit_doc pwmCtl] abbrev pwmDmac : Nat := 0x08
@[inherit_doc pwmCtl] abbrev pwmRng1 : Nat := 0x10
/-- `CM_PWM_CNTL`, `CM_PWM_DIV`, `rpgpio_private.py:97-98`. -/
abbrev cmCntl : Nat := 0xA0
@[inherit_doc cmCntl] abbrev cmDiv : Nat := 0xA4
/-- `CM_PASSWORD`, `rpgpio_private.py:99`. -/
abbrev cmPassword : Word := 0x5A#32 <<< 24
/-- `CM_SRC_PLLD`, `rpgpio_private.py:104`. -/
abbrev cmPlld : Word := 6#32
/-- `CM_CNTL_ENABLE`, `rpgpio_private.py:100`. -/
abbrev cmEnable : Word := 1#32 <<< 4

namespace DmaGpio

/-- The loop of `rpgpio.py:205-206`; `busy i` is the bit BUSY when it is read for the `i`-th time;
`none`: the clock never becomes idle. -/
def waitClock (busy : Nat → Bool) : Nat → Nat → Option (List StreamOp)
  | 0, _ => none
  | n + 1, i =>
    if busy i then (waitClock busy n (i + 1)).map (.busy true :: ·) else some [.busy false]

/-- `run_stream`, `rpgpio.py:197-217`: its accesses, oldest first.  What `_run_dma` does is
`DmaProto.runDma`. -/
def runStream (busy : Nat → Bool) (fuel : Nat) : Option (List StreamOp) := do
  let l ← waitClock busy fuel 0
  return [.pwm pwmCtl 0#32, .clock cmCntl (cmPassword ||| cmPlld)] ++ l ++
    [.clock cmDiv (cmPassword ||| 5#32 <<< 12),
     .clock cmCntl (cmPassword ||| cmPlld ||| cmEnable),
     .pwm pwmRng1 100#32,
     .pwm pwmDmac (1#32 <<< 31 ||| 15#32 <<< 8 ||| 15#32),
     .pwm pwmCtl (1#32 <<< 6),
     .pwm pwmCtl (1#32 <<< 5 ||| 1#32 <<< 0),
     .run]

/-- `stop`, `rpgpio.py:234-238`. -/
def stop : List StreamOp := [.pwm pwmCtl 0#32, .stop]

end DmaGpio

end PyCNC
