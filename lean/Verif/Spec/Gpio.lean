import Verif.Model.Gpio

/-!
# Vocabulary for statements about GPIO pins
-/

namespace PyCNC

namespace Spec

/-- Bit `b` (0, 1, 2) of the function of a pin: ten pins per register, three bits per pin. -/
def funcBit (g : GpioHw) (pin b : Nat) : Bool := (g.reg (4 * (pin / 10))).getLsbD (3 * (pin % 10) + b)

/-- The function of the pin: 0 for an input, 1 for an output. -/
def HasFunc (g : GpioHw) (pin : Nat) (f : BitVec 3) : Prop := ∀ b < 3, funcBit g pin b = f.getLsbD b

/-- The function that belongs to a mode. -/
def funcOf : PinMode → BitVec 3
  | .output => 1
  | _ => 0

/-- The pull resistor after the initialisation: an output keeps it. -/
def pullOf (old : BitVec 2) : PinMode → BitVec 2
  | .output => old
  | .pullup => 2
  | .pulldown => 1
  | .nopull => 0

end Spec

end PyCNC
