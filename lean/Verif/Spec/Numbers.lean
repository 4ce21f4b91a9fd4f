import Verif.Model.Binary64

/-!
# Vocabulary for statements about numbers
-/

namespace PyCNC

/-- Arithmetic whose comparisons are those of real values: exact arithmetic and binary64. -/
class PyOrd (F : Type) [PyNum F] where
  val : F → ℝ
  lt_val : ∀ a b : F, (a <ₚ b) = true ↔ val a < val b
  le_val : ∀ a b : F, (a ≤ₚ b) = true ↔ val a ≤ val b
  eq_val : ∀ a b : F, (a =ₚ b) = true ↔ val a = val b

noncomputable instance [PyRound] : PyOrd ℝ where
  val := id
  lt_val _ _ := decide_eq_true_iff
  le_val _ _ := decide_eq_true_iff
  eq_val _ _ := decide_eq_true_iff

noncomputable instance [PyRound] : PyOrd F64 where
  val a := a.1
  lt_val _ _ := decide_eq_true_iff
  le_val _ _ := decide_eq_true_iff
  eq_val _ _ := decide_eq_true_iff

namespace Spec

/-- A vector of decimal numbers with at most ten fractional digits. -/
def Decimal10 (v : V4 ℝ) : Prop := ∀ ax, ∃ k : ℤ, v.get ax = k / 10 ^ 10

/-- The binary64 vector nearest to the decimal vector `k / 10^10`. -/
noncomputable def dec64 (k : V4 ℤ) : V4 F64 := k.map fun (n : ℤ) => F64.of ((n : ℝ) / 10 ^ 10)

/-- All components are at most 100 000 (mm) in magnitude. -/
def InRange (k : V4 ℤ) : Prop := ∀ ax, |k.get ax| ≤ 10 ^ 15

/-- Componentwise sum of integer vectors. -/
def addZ (a b : V4 ℤ) : V4 ℤ := ⟨a.x + b.x, a.y + b.y, a.z + b.z, a.e + b.e⟩

/-- Componentwise difference of integer vectors. -/
def subZ (a b : V4 ℤ) : V4 ℤ := ⟨a.x - b.x, a.y - b.y, a.z - b.z, a.e - b.e⟩

end Spec

end PyCNC
