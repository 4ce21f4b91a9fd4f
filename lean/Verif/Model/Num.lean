/-!
# Python numbers, vectors of four axes and Python exceptions

The model is written once over an operation-only class of numbers, so that the
same text can be read over the real numbers (exact arithmetic) and over a model
of IEEE binary64.
-/

namespace PyCNC

/-- The float operations that `cnc/*.py` uses.  No laws are attached; laws come
with the instances (`Verif/Model/Exact.lean`, `Verif/Model/Binary64.lean`).
Simplification: NaN, infinities and the sign of zero are not represented. -/
class PyNum (F : Type) where
  /-- a literal or an integer converted to float -/
  ofRat : Rat → F
  add : F → F → F
  sub : F → F → F
  mul : F → F → F
  /-- division; the case of a zero divisor is handled by `pdiv` -/
  div : F → F → F
  neg : F → F
  abs : F → F
  /-- `math.sqrt`; the case of a negative argument is handled by `psqrt` -/
  sqrt : F → F
  /-- `math.acos` on [-1, 1]; arguments outside are handled by `pacos` -/
  acos : F → F
  /-- `math.pi` -/
  pi : F
  lt : F → F → Bool
  le : F → F → Bool
  eq : F → F → Bool
  /-- `round(x, 10)` -/
  round10 : F → F
  /-- `round(x)` -/
  roundI : F → Int
  /-- `int(x)` (truncation) -/
  truncI : F → Int

infixl:65 " +ₚ " => PyNum.add
infixl:65 " -ₚ " => PyNum.sub
infixl:70 " *ₚ " => PyNum.mul
infixl:70 " /ₚ " => PyNum.div
infix:50 " <ₚ " => PyNum.lt
infix:50 " ≤ₚ " => PyNum.le
infix:50 " =ₚ " => PyNum.eq

/-- Exceptions that can be raised by the modelled code, with the message where the
code gives one. -/
inductive PyErr where
  /-- `GMachineException(msg)`, `cnc/gmachine.py:12-15` -/
  | gmachine (msg : String)
  /-- `GCodeException(msg)`, `cnc/gcode.py:11-14` -/
  | gcode (msg : String)
  /-- `ZeroDivisionError` -/
  | zeroDiv
  /-- `ValueError` (math domain error, bad float literal, unknown plane) -/
  | value
  /-- `AssertionError(msg)` -/
  | assertion (msg : String)
  /-- `IOError` / `OSError` of a sensor -/
  | io
  /-- `MemoryError`, `cnc/hal_raspberry/rpgpio.py` -/
  | memory
  /-- `RuntimeError` -/
  | runtime
  /-- `struct.error` of `struct.pack_into`, `cnc/hal_raspberry/rpgpio_private.py:141-142` -/
  | struct
  /-- `TypeError` -/
  | type
  deriving DecidableEq, Repr

/-- The model of `/` where the divisor can be zero (`ZeroDivisionError`). -/
def pdiv {F : Type} [PyNum F] (a b : F) : Except PyErr F :=
  if b =ₚ PyNum.ofRat 0 then .error .zeroDiv else .ok (a /ₚ b)

/-- The model of `math.sqrt` where the argument can be negative (`ValueError`). -/
def psqrt {F : Type} [PyNum F] (a : F) : Except PyErr F :=
  if a <ₚ PyNum.ofRat 0 then .error .value else .ok (PyNum.sqrt a)

/-- The model of `math.acos` where the argument can be outside [-1, 1] (`ValueError`). -/
def pacos {F : Type} [PyNum F] (a : F) : Except PyErr F :=
  if a <ₚ PyNum.ofRat (-1) || PyNum.ofRat 1 <ₚ a then .error .value else .ok (PyNum.acos a)

/-- An integer as float. -/
def ofInt {F : Type} [PyNum F] (n : Int) : F := PyNum.ofRat (n : Rat)

/-- `min(a, b)` of Python: the first argument unless the second is smaller. -/
def pmin {F : Type} [PyNum F] (a b : F) : F := if b <ₚ a then b else a

/-- `max(a, b)` of Python: the first argument unless the second is larger. -/
def pmax {F : Type} [PyNum F] (a b : F) : F := if a <ₚ b then b else a

/-- `math.copysign(m, s)` for `m ≥ 0`.  Simplification: no negative zero, so a zero
`s` counts as positive. -/
def copysign {F : Type} [PyNum F] (m s : F) : F :=
  if s <ₚ PyNum.ofRat 0 then PyNum.neg m else m

/-- `math.copysign(1, s)` as an integer. -/
def sign1 {F : Type} [PyNum F] (s : F) : Int :=
  if s <ₚ PyNum.ofRat 0 then -1 else 1

/-- The four axes of the machine. -/
inductive Axis where
  | x | y | z | e
  deriving DecidableEq, Repr

/-- A tuple with one value per axis. -/
structure V4 (α : Type) where
  x : α
  y : α
  z : α
  e : α
  deriving DecidableEq, Repr

namespace V4

/-- Component of a tuple. -/
def get {α : Type} (v : V4 α) : Axis → α
  | .x => v.x
  | .y => v.y
  | .z => v.z
  | .e => v.e

/-- Tuple with one function applied to each component. -/
def map {α β : Type} (f : α → β) (v : V4 α) : V4 β := ⟨f v.x, f v.y, f v.z, f v.e⟩

/-- Tuple built from a function of the axis. -/
def ofFn {α : Type} (f : Axis → α) : V4 α := ⟨f .x, f .y, f .z, f .e⟩

end V4

end PyCNC
