import Verif.Model.GMachine

/-!
# Vocabulary for statements about the machine
-/

namespace PyCNC.Spec

open PyCNC

/-- The command word of the line is `letter num` (parse_line never returns a line with
both a G and an M word). -/
def Is (g : GCode) (letter : Char) (num : String) : Prop :=
  g.params.lookup letter = some num.toList ∧ (letter = 'M' → g.params.lookup 'G' = none)

/-- The line has neither a G nor an M word. -/
def NoCommand (g : GCode) : Prop := g.params.lookup 'G' = none ∧ g.params.lookup 'M' = none

/-- The line has an X, Y, Z or E word. -/
def NamesCoordinate (g : GCode) : Prop :=
  ∃ k ∈ ['X', 'Y', 'Z', 'E'], g.params.lookup k ≠ none

/-- The line is a straight move at feed rate: `G1` or coordinates without a command. -/
def IsFeedMove (g : GCode) : Prop := Is g 'G' "1" ∨ (NoCommand g ∧ NamesCoordinate g)

/-- The commands documented in the README, and `M82`, `M83`, `M111`, which the code accepts
in addition. -/
def knownCommands : List (Char × String) :=
  [('G', "0"), ('G', "1"), ('G', "2"), ('G', "3"), ('G', "4"), ('G', "17"), ('G', "18"),
   ('G', "19"), ('G', "20"), ('G', "21"), ('G', "28"), ('G', "53"), ('G', "90"), ('G', "91"),
   ('G', "92"), ('M', "2"), ('M', "3"), ('M', "5"), ('M', "30"), ('M', "84"), ('M', "104"),
   ('M', "105"), ('M', "106"), ('M', "107"), ('M', "109"), ('M', "114"), ('M', "140"),
   ('M', "190"), ('M', "82"), ('M', "83"), ('M', "111")]

/-- The command word of the line is one of a list. -/
def IsOneOf (g : GCode) (l : List (Char × String)) : Prop := ∃ p ∈ l, Is g p.1 p.2

/-- Every word of the line has a number that `float()` accepts. -/
def NumbersOk (g : GCode) : Prop := ∀ p ∈ g.params, parseFloat p.2 ≠ none

/-- The machine state is the same, apart from the record of HAL calls. -/
def SameState {F : Type} (s s' : MState F) : Prop := { s' with trace := s.trace } = s

/-- A call that reads sensors or waits, but commands nothing. -/
def Passive {F : Type} : HalCall F → Prop
  | .measure _ => True
  | .join => True
  | _ => False

/-- HAL calls done between two states, newest first. -/
def Calls {F : Type} (s s' : MState F) (cs : List (HalCall F)) : Prop := s'.trace = cs ++ s.trace

/-- Every recorded call satisfies `Q call earlier`, where `earlier` are the calls before it. -/
def Always {F : Type} (Q : HalCall F → List (HalCall F) → Prop) : List (HalCall F) → Prop
  | [] => True
  | call :: earlier => Q call earlier ∧ Always Q earlier

/-- The value last passed to `hal.fan_control`, `false` before the first call. -/
def lastFan {F : Type} : List (HalCall F) → Bool
  | [] => false
  | .fan b :: _ => b
  | _ :: rest => lastFan rest

/-- The value last passed to `hal.spindle_control`. -/
def lastSpindle {F : Type} : List (HalCall F) → Option F
  | [] => none
  | .spindle p :: _ => some p
  | _ :: rest => lastSpindle rest

/-- Number of controller threads of a heater that were started and not stopped. -/
def running {F : Type} (h : HeaterId) : List (HalCall F) → Nat
  | [] => 0
  | .heaterStart h' _ :: rest => if h' = h then running h rest + 1 else running h rest
  | .heaterStop h' :: rest => if h' = h then running h rest - 1 else running h rest
  | _ :: rest => running h rest

/-- The line has the word `k` with the number `q`. -/
def HasNum (g : GCode) (k : Char) (q : Rat) : Prop :=
  ∃ t, g.params.lookup k = some t ∧ parseFloat t = some q

/-- The line has the word with this number, or it has not the word. -/
def WordIs (g : GCode) (k : Char) : Option Rat → Prop
  | none => g.params.lookup k = none
  | some q => HasNum g k q

/-- The commands of a heater. -/
def heatWords : HeaterId → List (Char × String)
  | .extruder => [('M', "104"), ('M', "109")]
  | .bed => [('M', "140"), ('M', "190")]

/-- The maximum temperature of a heater. -/
def maxTemp (c : Cfg) : HeaterId → Rat
  | .extruder => c.extruderMaxT
  | .bed => c.bedMaxT

/-- The letter of an axis. -/
def axisWord : Axis → Char
  | .x => 'X'
  | .y => 'Y'
  | .z => 'Z'
  | .e => 'E'

/-- The line is a straight move: `G0`, `G1` or coordinates without a command. -/
def IsLinearMove (g : GCode) : Prop := Is g 'G' "0" ∨ IsFeedMove g

/-- The line is an arc. -/
def IsArc (g : GCode) : Prop := Is g 'G' "2" ∨ Is g 'G' "3"

/-- One step of the axis is a decimal number with at most ten digits (default configuration:
X, Y and Z, but not E with its 150 pulses per mm). -/
def DecimalStep (c : Cfg) (ax : Axis) : Prop := ∃ k : Int, (k : Rat) * c.ppm.get ax = 10 ^ 10

/-- A decimal number with at most ten digits. -/
def DecimalQ (q : Rat) : Prop := ∃ k : Int, q * 10 ^ 10 = k

/-- The table has a size, given as decimal numbers. -/
def TableOk (c : Cfg) : Prop :=
  (0 ≤ c.tableX ∧ DecimalQ c.tableX) ∧ (0 ≤ c.tableY ∧ DecimalQ c.tableY) ∧
  (0 ≤ c.tableZ ∧ DecimalQ c.tableZ)

/-- The axes that a `G28` line homes: those named, or all when none is named. -/
def Homes (g : GCode) (ax : Axis) : Prop :=
  ax ≠ .e ∧ (g.params.lookup (axisWord ax) ≠ none ∨
    ∀ ax', ax' ≠ .e → g.params.lookup (axisWord ax') = none)

end PyCNC.Spec
