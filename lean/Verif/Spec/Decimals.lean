import Verif.Spec.GCode

/-!
# The value of a decimal number
-/

namespace PyCNC.Spec

/-- Value of a digit. -/
def digit (c : Char) : Rat := (c.toNat : Rat) - 48

/-- Value of the digits before the point: each digit has ten times the weight of the next. -/
def intVal : List Char → Rat
  | [] => 0
  | c :: cs => digit c * 10 ^ cs.length + intVal cs

/-- Value of the digits after the point. -/
def fracVal : List Char → Rat
  | [] => 0
  | c :: cs => (digit c + fracVal cs) / 10

/-- A list of digits. -/
def Digits (s : List Char) : Prop := ∀ c ∈ s, '0' ≤ c ∧ c ≤ '9'

/-- The text is a decimal number without sign, with value `q`: digits, or digits with a point
before, between or after them. -/
def DenotesU (s : List Char) (q : Rat) : Prop :=
  ∃ ip fp, Digits ip ∧ Digits fp ∧ ip ++ fp ≠ [] ∧ q = intVal ip + fracVal fp ∧
    (s = ip ++ '.' :: fp ∨ (s = ip ∧ fp = []))

/-- The text is a decimal number with value `q`. -/
def Denotes (s : List Char) (q : Rat) : Prop :=
  DenotesU s q ∨ (∃ t, s = '+' :: t ∧ DenotesU t q) ∨ ∃ t, s = '-' :: t ∧ DenotesU t (-q)

end PyCNC.Spec
