import Verif.Model.GCode

/-!
# `cnc/coordinates.py` and the coordinate readers of `cnc/gcode.py`
-/

namespace PyCNC

variable {F : Type} [PyNum F]

/-- The zero vector components `0.0`. -/
def zeroF : F := PyNum.ofRat 0

/-- `Coordinates(x, y, z, e)`, `coordinates.py:9-18`: every value is rounded to ten
decimal digits. -/
def Coord.new (x y z e : F) : V4 F :=
  ⟨PyNum.round10 x, PyNum.round10 y, PyNum.round10 z, PyNum.round10 e⟩

/-- `Coordinates(0.0, 0.0, 0.0, 0.0)`. -/
def Coord.zero : V4 F := Coord.new zeroF zeroF zeroF zeroF

namespace Coord

/-- `is_zero`, `coordinates.py:20-25`. -/
def isZero (v : V4 F) : Bool :=
  v.x =ₚ zeroF && v.y =ₚ zeroF && v.z =ₚ zeroF && v.e =ₚ zeroF

/-- `sorted((a, b))` for two values. -/
def sorted2 (a b : F) : F × F := if b <ₚ a then (b, a) else (a, b)

/-- `is_in_aabb`, `coordinates.py:27-41`. -/
def isInAabb (v p1 p2 : V4 F) : Bool :=
  let (minX, maxX) := sorted2 p1.x p2.x
  let (minY, maxY) := sorted2 p1.y p2.y
  let (minZ, maxZ) := sorted2 p1.z p2.z
  if v.x <ₚ minX || v.y <ₚ minY || v.z <ₚ minZ then false
  else if maxX <ₚ v.x || maxY <ₚ v.y || maxZ <ₚ v.z then false
  else true

/-- `length`, `coordinates.py:43-48`.  The radicand is a sum of squares, so `math.sqrt`
cannot fail. -/
def length (v : V4 F) : F :=
  PyNum.sqrt (v.x *ₚ v.x +ₚ v.y *ₚ v.y +ₚ v.z *ₚ v.z +ₚ v.e *ₚ v.e)

/-- One axis of `round`: `round(v / base) * base`, `coordinates.py:58-61`.  The bases are
`1.0 / STEPPER_PULSES_PER_MM_*` and therefore not zero. -/
def roundTo (v base : F) : F := ofInt (PyNum.roundI (v /ₚ base)) *ₚ base

/-- `round`, `coordinates.py:50-61`. -/
def round (v : V4 F) (bx bY bz be : F) : V4 F :=
  new (roundTo v.x bx) (roundTo v.y bY) (roundTo v.z bz) (roundTo v.e be)

/-- `find_max`, `coordinates.py:63-67`. -/
def findMax (v : V4 F) : F := pmax (pmax (pmax v.x v.y) v.z) v.e

/-- `__add__`, `coordinates.py:70-72`. -/
def add (a b : V4 F) : V4 F := new (a.x +ₚ b.x) (a.y +ₚ b.y) (a.z +ₚ b.z) (a.e +ₚ b.e)

/-- `__sub__`, `coordinates.py:74-76`. -/
def sub (a b : V4 F) : V4 F := new (a.x -ₚ b.x) (a.y -ₚ b.y) (a.z -ₚ b.z) (a.e -ₚ b.e)

/-- `__mul__`, `coordinates.py:78-82`. -/
def smul (a : V4 F) (k : F) : V4 F := new (a.x *ₚ k) (a.y *ₚ k) (a.z *ₚ k) (a.e *ₚ k)

/-- `__truediv__`, `coordinates.py:90-94` (also `__div__`, lines 84-88). -/
def sdiv (a : V4 F) (k : F) : Except PyErr (V4 F) := do
  let x ← pdiv a.x k
  let y ← pdiv a.y k
  let z ← pdiv a.z k
  let e ← pdiv a.e k
  return new x y z e

/-- `__abs__`, `coordinates.py:104-105`. -/
def abs (a : V4 F) : V4 F :=
  new (PyNum.abs a.x) (PyNum.abs a.y) (PyNum.abs a.z) (PyNum.abs a.e)

end Coord

namespace GCode

/-- `coordinates`, `gcode.py:46-56`. -/
def coordinates (g : GCode) (default : V4 F) (mult : F) : Except PyErr (V4 F) := do
  let x ← g.get 'X' default.x mult
  let y ← g.get 'Y' default.y mult
  let z ← g.get 'Z' default.z mult
  let e ← g.get 'E' default.e mult
  return Coord.new x y z e

/-- `radius`, `gcode.py:65-74`. -/
def radius (g : GCode) (default : V4 F) (mult : F) : Except PyErr (V4 F) := do
  let i ← g.get 'I' default.x mult
  let j ← g.get 'J' default.y mult
  let k ← g.get 'K' default.z mult
  return Coord.new i j k zeroF

end GCode

end PyCNC
