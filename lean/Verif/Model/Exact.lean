import Mathlib.Analysis.SpecialFunctions.Trigonometric.Inverse
import Mathlib.Algebra.Order.Round
import Mathlib.Tactic.Ring
import Mathlib.Tactic.Linarith
import Mathlib.Tactic.NormNum
import Mathlib.Tactic.Positivity
import Mathlib.Tactic.FieldSimp
import Verif.Model.Num

/-!
# Exact arithmetic

The model read over the real numbers: `+ - * /`, `sqrt`, `acos` and `pi` are exact,
`round` is some nearest-integer function.
-/

namespace PyCNC

/-- `round()` of Python: an integer nearest to the argument.  Python 3 breaks ties to the
even integer, Python 2 away from zero; both are instances (`halfEven`, `halfAway`). -/
class PyRound where
  rnd : ℝ → ℤ
  near : ∀ x, |(rnd x : ℝ) - x| ≤ 1 / 2

/-- Python 3: ties to even. -/
@[instance_reducible] noncomputable def halfEven : PyRound where
  rnd x := if Int.fract x < 1 / 2 then ⌊x⌋ else if 1 / 2 < Int.fract x then ⌊x⌋ + 1
    else if Even ⌊x⌋ then ⌊x⌋ else ⌊x⌋ + 1
  near x := by
    have h0 := Int.fract_nonneg x
    have h1 := Int.fract_lt_one x
    have h2 := Int.self_sub_floor x
    split
    · rw [abs_le]; constructor <;> linarith
    · split
      · push_cast; rw [abs_le]; constructor <;> linarith
      · split
        · rw [abs_le]; constructor <;> linarith
        · push_cast; rw [abs_le]; constructor <;> linarith

/-- Python 2: ties away from zero. -/
@[instance_reducible] noncomputable def halfAway : PyRound where
  rnd x := if 0 ≤ x then ⌊x + 1 / 2⌋ else ⌈x - 1 / 2⌉
  near x := by
    split
    · have h1 := Int.floor_le (x + 1 / 2)
      have h2 := Int.lt_floor_add_one (x + 1 / 2)
      rw [abs_le]; constructor <;> linarith
    · have h1 := Int.le_ceil (x - 1 / 2)
      have h2 := Int.ceil_lt_add_one (x - 1 / 2)
      rw [abs_le]; constructor <;> linarith

/-- `10^10`, the factor of `round(x, 10)`. -/
noncomputable def E10 : ℝ := 10 ^ 10

open Classical in
/-- Exact arithmetic. -/
noncomputable instance instPyNumReal [PyRound] : PyNum ℝ where
  ofRat q := (q : ℝ)
  add := (· + ·)
  sub := (· - ·)
  mul := (· * ·)
  div := (· / ·)
  neg := (- ·)
  abs := (|·|)
  sqrt := Real.sqrt
  acos := Real.arccos
  pi := Real.pi
  lt a b := decide (a < b)
  le a b := decide (a ≤ b)
  eq a b := decide (a = b)
  round10 x := (PyRound.rnd (x * E10) : ℝ) / E10
  roundI := PyRound.rnd
  truncI x := if 0 ≤ x then ⌊x⌋ else ⌈x⌉

end PyCNC
