/-!
# GPIO registers: `hal_raspberry/rpgpio.py:10-77`, `rpgpio_private.py:35-42`
-/

namespace PyCNC

/-- A 32 bit register. -/
abbrev Word := BitVec 32

/-- `GPIO_FSEL_OFFSET`, `rpgpio_private.py:39`. -/
abbrev gpioFsel : Nat := 0x0
/-- `GPIO_SET_OFFSET`, `rpgpio_private.py:37`. -/
abbrev gpioSet : Nat := 0x1C
/-- `GPIO_CLEAR_OFFSET`, `rpgpio_private.py:38`. -/
abbrev gpioClear : Nat := 0x28
/-- `GPIO_INPUT_OFFSET`, `rpgpio_private.py:36`. -/
abbrev gpioInput : Nat := 0x34
/-- `GPIO_PULLUPDN_OFFSET`, `rpgpio_private.py:40`. -/
abbrev gpioPud : Nat := 0x94
/-- `GPIO_PULLUPDNCLK_OFFSET`, `rpgpio_private.py:41`. -/
abbrev gpioPudClk : Nat := 0x98

/-- The GPIO block of the BCM2835 as described in its manual: plain registers (function select,
pull control), the output latches of the pins, their pull resistors and the input level
registers. -/
structure GpioHw where
  /-- registers that keep what is written -/
  reg : Nat → Word
  /-- output latch of each pin -/
  latch : Nat → Bool
  /-- pull resistor of each pin: 0 none, 1 down, 2 up -/
  pull : Nat → BitVec 2
  /-- what the input registers show -/
  input : Nat → Word

/-- A write to a register: a 1 in SET0, SET1 sets the latch, a 1 in CLR0, CLR1 clears it, a 1 in
PUDCLK0, PUDCLK1 assigns the pull resistor selected in the two low bits of PUD; other registers
are plain.  Simplification: the clock pulse of the pull resistors takes effect at once (the
manual asks for a delay of 150 cycles, which the code does not have). -/
def GpioHw.write (g : GpioHw) (off : Nat) (v : Word) : GpioHw :=
  if off = gpioSet ∨ off = gpioSet + 4 then
    { g with latch := fun p =>
        if off = gpioSet + 4 * (p / 32) ∧ v.getLsbD (p % 32) = true then true else g.latch p }
  else if off = gpioClear ∨ off = gpioClear + 4 then
    { g with latch := fun p =>
        if off = gpioClear + 4 * (p / 32) ∧ v.getLsbD (p % 32) = true then false else g.latch p }
  else if off = gpioPudClk ∨ off = gpioPudClk + 4 then
    { g with
      reg := fun o => if o = off then v else g.reg o
      pull := fun p =>
        if off = gpioPudClk + 4 * (p / 32) ∧ v.getLsbD (p % 32) = true then
          (g.reg gpioPud).truncate 2
        else g.pull p }
  else { g with reg := fun o => if o = off then v else g.reg o }

/-- A read of a register. -/
def GpioHw.read (g : GpioHw) (off : Nat) : Word :=
  if off = gpioInput ∨ off = gpioInput + 4 then g.input off else g.reg off

/-- `MODE_*`, `rpgpio.py:11-14`. -/
inductive PinMode where
  | output | nopull | pullup | pulldown
  deriving DecidableEq, Repr

namespace Gpio

/-- `1 << n` written to a 32 bit register. -/
def bit (n : Nat) : Word := 1#32 <<< n

/-- `_pull_up_dn`, `rpgpio.py:23-36`. -/
def pullUpDn (pin : Nat) (mode : PinMode) (g : GpioHw) : GpioHw :=
  let p := g.read gpioPud
  let p := p &&& ~~~3#32
  let p := match mode with
    | .pullup => p ||| 2#32
    | .pulldown => p ||| 1#32
    | _ => p
  let g := g.write gpioPud p
  let address := 4 * (pin / 32) + gpioPudClk
  let g := g.write address (bit (pin % 32))
  let p := g.read gpioPud
  let p := p &&& ~~~3#32
  let g := g.write gpioPud p
  g.write address 0#32

/-- `init`, `rpgpio.py:38-51`. -/
def init (pin : Nat) (mode : PinMode) (g : GpioHw) : GpioHw :=
  let address := 4 * (pin / 10) + gpioFsel
  let v := g.read address
  let v := v &&& ~~~(7#32 <<< (pin % 10 * 3))
  match mode with
  | .output => g.write address (v ||| (1#32 <<< (pin % 10 * 3)))
  | _ => pullUpDn pin mode (g.write address v)

/-- `set`, `rpgpio.py:53-58`. -/
def set (pin : Nat) (g : GpioHw) : GpioHw := g.write (4 * (pin / 32) + gpioSet) (bit (pin % 32))

/-- `clear`, `rpgpio.py:60-65`. -/
def clear (pin : Nat) (g : GpioHw) : GpioHw :=
  g.write (4 * (pin / 32) + gpioClear) (bit (pin % 32))

/-- `read`, `rpgpio.py:67-77`. -/
def read (pin : Nat) (g : GpioHw) : Nat :=
  let v := g.read (4 * (pin / 32) + gpioInput)
  let v := v &&& bit (pin % 32)
  if v = 0#32 then 0 else 1

end Gpio

end PyCNC
