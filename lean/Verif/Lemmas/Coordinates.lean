import Verif.Model.Coordinates
import Verif.Lemmas.Exact

/-!
# Lemmas about coordinates in exact arithmetic
-/

namespace PyCNC

theorem V4.ext_get {α : Type} {a b : V4 α} (h : ∀ ax, a.get ax = b.get ax) : a = b := by
  cases a; cases b
  have hx := h .x; have hy := h .y; have hz := h .z; have he := h .e
  simp only [V4.get] at hx hy hz he
  simp [hx, hy, hz, he]

/-- All components are decimal numbers with ten digits. -/
def GridV (v : V4 ℝ) : Prop := ∀ ax, Grid (v.get ax)

variable [PyRound]

theorem get_new (x y z e : ℝ) (ax : Axis) :
    (Coord.new x y z e).get ax = PyNum.round10 ((⟨x, y, z, e⟩ : V4 ℝ).get ax) := by
  cases ax <;> rfl

theorem gridV_new (x y z e : ℝ) : GridV (Coord.new x y z e) := fun ax => by
  rw [get_new]; exact grid_round10 _

theorem get_add (a b : V4 ℝ) (ax : Axis) :
    (Coord.add a b).get ax = PyNum.round10 (a.get ax + b.get ax) := by cases ax <;> rfl

theorem get_sub (a b : V4 ℝ) (ax : Axis) :
    (Coord.sub a b).get ax = PyNum.round10 (a.get ax - b.get ax) := by cases ax <;> rfl

theorem get_smul (a : V4 ℝ) (k : ℝ) (ax : Axis) :
    (Coord.smul a k).get ax = PyNum.round10 (a.get ax * k) := by cases ax <;> rfl

theorem get_abs (a : V4 ℝ) (ax : Axis) :
    (Coord.abs a).get ax = PyNum.round10 |a.get ax| := by cases ax <;> rfl

theorem get_zero (ax : Axis) : (Coord.zero : V4 ℝ).get ax = 0 := by
  have : (zeroF : ℝ) = 0 := by simp [zeroF]
  cases ax <;> simp only [Coord.zero, Coord.new, V4.get, this] <;> exact round10_zero

@[simp] theorem zeroF_eq : (zeroF : ℝ) = 0 := by simp [zeroF]

theorem gridV_add (a b : V4 ℝ) : GridV (Coord.add a b) := gridV_new _ _ _ _
theorem gridV_sub (a b : V4 ℝ) : GridV (Coord.sub a b) := gridV_new _ _ _ _
theorem gridV_zero : GridV (Coord.zero : V4 ℝ) := gridV_new _ _ _ _

theorem get_add_grid {a b : V4 ℝ} (ha : GridV a) (hb : GridV b) (ax : Axis) :
    (Coord.add a b).get ax = a.get ax + b.get ax := by
  rw [get_add, round10_grid ((ha ax).add (hb ax))]

theorem get_sub_grid {a b : V4 ℝ} (ha : GridV a) (hb : GridV b) (ax : Axis) :
    (Coord.sub a b).get ax = a.get ax - b.get ax := by
  rw [get_sub, round10_grid ((ha ax).sub (hb ax))]

theorem get_abs_grid {a : V4 ℝ} (ha : GridV a) (ax : Axis) :
    (Coord.abs a).get ax = |a.get ax| := by
  rw [get_abs, round10_grid (ha ax).abs]

theorem isZero_iff (v : V4 ℝ) : Coord.isZero v = true ↔ ∀ ax, v.get ax = 0 := by
  simp only [Coord.isZero, Bool.and_eq_true, eq_iff, zeroF_eq]
  constructor
  · rintro ⟨⟨⟨h1, h2⟩, h3⟩, h4⟩ ax
    cases ax <;> assumption
  · intro h
    exact ⟨⟨⟨h .x, h .y⟩, h .z⟩, h .e⟩

theorem roundTo_eq (v base : ℝ) : Coord.roundTo v base = (PyRound.rnd (v / base) : ℝ) * base := by
  simp [Coord.roundTo]

end PyCNC
