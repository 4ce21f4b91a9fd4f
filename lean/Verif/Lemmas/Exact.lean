import Verif.Model.Exact

/-!
# Simp lemmas for exact arithmetic and facts about rounding
-/

namespace PyCNC

variable [PyRound]

@[simp] theorem ofRat_eq (q : ℚ) : (PyNum.ofRat q : ℝ) = (q : ℝ) := rfl
@[simp] theorem add_eq (a b : ℝ) : a +ₚ b = a + b := rfl
@[simp] theorem sub_eq (a b : ℝ) : a -ₚ b = a - b := rfl
@[simp] theorem mul_eq (a b : ℝ) : a *ₚ b = a * b := rfl
@[simp] theorem div_eq (a b : ℝ) : a /ₚ b = a / b := rfl
@[simp] theorem neg_eq (a : ℝ) : PyNum.neg a = -a := rfl
@[simp] theorem abs_eq (a : ℝ) : PyNum.abs a = |a| := rfl
@[simp] theorem sqrt_eq (a : ℝ) : PyNum.sqrt a = Real.sqrt a := rfl
@[simp] theorem acos_eq (a : ℝ) : PyNum.acos a = Real.arccos a := rfl
@[simp] theorem pi_eq : (PyNum.pi : ℝ) = Real.pi := rfl
@[simp] theorem lt_iff (a b : ℝ) : (a <ₚ b) = true ↔ a < b := decide_eq_true_iff
@[simp] theorem le_iff (a b : ℝ) : (a ≤ₚ b) = true ↔ a ≤ b := decide_eq_true_iff
@[simp] theorem eq_iff (a b : ℝ) : (a =ₚ b) = true ↔ a = b := decide_eq_true_iff
@[simp] theorem lt_false_iff (a b : ℝ) : (a <ₚ b) = false ↔ b ≤ a := by
  rw [← not_lt, ← lt_iff, Bool.not_eq_true]
@[simp] theorem le_false_iff (a b : ℝ) : (a ≤ₚ b) = false ↔ b < a := by
  rw [← not_le, ← le_iff, Bool.not_eq_true]
@[simp] theorem eq_false_iff (a b : ℝ) : (a =ₚ b) = false ↔ a ≠ b := by
  rw [Ne, ← eq_iff, Bool.not_eq_true]
@[simp] theorem round10_eq (a : ℝ) : PyNum.round10 a = (PyRound.rnd (a * E10) : ℝ) / E10 := rfl
@[simp] theorem roundI_eq (a : ℝ) : PyNum.roundI a = PyRound.rnd a := rfl
@[simp] theorem truncI_eq (a : ℝ) : PyNum.truncI a = if 0 ≤ a then ⌊a⌋ else ⌈a⌉ := rfl
@[simp] theorem ofInt_eq (n : ℤ) : (ofInt n : ℝ) = n := by simp [ofInt]

theorem pmin_eq (a b : ℝ) : pmin a b = min a b := by
  unfold pmin
  by_cases h : b < a
  · rw [if_pos ((lt_iff _ _).2 h), min_eq_right h.le]
  · rw [if_neg (by simpa using h), min_eq_left (not_lt.1 h)]

theorem pmax_eq (a b : ℝ) : pmax a b = max a b := by
  unfold pmax
  by_cases h : a < b
  · rw [if_pos ((lt_iff _ _).2 h), max_eq_right h.le]
  · rw [if_neg (by simpa using h), max_eq_left (not_lt.1 h)]

omit [PyRound] in
theorem E10_pos : (0 : ℝ) < E10 := by unfold E10; positivity

omit [PyRound] in
theorem E10_ne : (E10 : ℝ) ≠ 0 := E10_pos.ne'

/-! ## Nearest integers -/

theorem rnd_le (x : ℝ) : (PyRound.rnd x : ℝ) ≤ x + 1 / 2 := by
  have := (abs_le.1 (PyRound.near x)).2; linarith

theorem le_rnd (x : ℝ) : x - 1 / 2 ≤ (PyRound.rnd x : ℝ) := by
  have := (abs_le.1 (PyRound.near x)).1; linarith

theorem rnd_unique {x : ℝ} {n : ℤ} (h : |x - n| < 1 / 2) : PyRound.rnd x = n := by
  have h1 := rnd_le x
  have h2 := le_rnd x
  obtain ⟨h3, h4⟩ := abs_lt.1 h
  have h5 : PyRound.rnd x < n + 1 := by
    have : (PyRound.rnd x : ℝ) < n + 1 := by linarith
    exact_mod_cast this
  have h6 : n < PyRound.rnd x + 1 := by
    have : (n : ℝ) < PyRound.rnd x + 1 := by linarith
    exact_mod_cast this
  omega

@[simp] theorem rnd_int (n : ℤ) : PyRound.rnd (n : ℝ) = n :=
  rnd_unique (by simp)

@[simp] theorem rnd_zero : PyRound.rnd 0 = 0 := by
  have := rnd_int 0; simpa using this

theorem rnd_mono {x y : ℝ} (h : x ≤ y) : PyRound.rnd x ≤ PyRound.rnd y := by
  rcases h.lt_or_eq with h | rfl
  · by_contra hc
    push Not at hc
    have h1 := rnd_le x
    have h2 := le_rnd y
    have h3 : (PyRound.rnd y : ℝ) + 1 ≤ PyRound.rnd x := by exact_mod_cast hc
    linarith
  · exact le_refl _

/-! ## The grid of decimal numbers with ten digits -/

/-- A decimal number with at most ten fractional digits. -/
def Grid (x : ℝ) : Prop := ∃ k : ℤ, x = k / E10

theorem grid_round10 (x : ℝ) : Grid (PyNum.round10 x) := ⟨_, rfl⟩

theorem round10_grid {x : ℝ} (h : Grid x) : PyNum.round10 x = x := by
  obtain ⟨k, rfl⟩ := h
  rw [round10_eq, div_mul_cancel₀ _ E10_ne, rnd_int]

omit [PyRound] in
theorem Grid.add {x y : ℝ} (hx : Grid x) (hy : Grid y) : Grid (x + y) := by
  obtain ⟨k, rfl⟩ := hx
  obtain ⟨l, rfl⟩ := hy
  exact ⟨k + l, by push_cast; ring⟩

omit [PyRound] in
theorem Grid.neg {x : ℝ} (hx : Grid x) : Grid (-x) := by
  obtain ⟨k, rfl⟩ := hx
  exact ⟨-k, by push_cast; ring⟩

omit [PyRound] in
theorem Grid.sub {x y : ℝ} (hx : Grid x) (hy : Grid y) : Grid (x - y) := by
  rw [sub_eq_add_neg]; exact hx.add hy.neg

omit [PyRound] in
theorem Grid.abs {x : ℝ} (hx : Grid x) : Grid |x| := by
  rcases abs_choice x with h | h <;> rw [h]
  · exact hx
  · exact hx.neg

omit [PyRound] in
theorem Grid.int (n : ℤ) : Grid n := by
  refine ⟨n * 10 ^ 10, ?_⟩
  unfold E10; push_cast; field_simp; norm_num

omit [PyRound] in
theorem Grid.zero : Grid 0 := ⟨0, by simp⟩

@[simp] theorem round10_zero : PyNum.round10 (0 : ℝ) = 0 := round10_grid Grid.zero

theorem round10_near (x : ℝ) : |PyNum.round10 x - x| ≤ 1 / 2 / E10 := by
  have h := PyRound.near (x * E10)
  rw [round10_eq]
  have : (PyRound.rnd (x * E10) : ℝ) / E10 - x = (PyRound.rnd (x * E10) - x * E10) / E10 := by
    field_simp [E10_ne]
  rw [this, _root_.abs_div, abs_of_pos E10_pos]
  exact div_le_div_of_nonneg_right h E10_pos.le

theorem round10_mono {x y : ℝ} (h : x ≤ y) : PyNum.round10 x ≤ PyNum.round10 y := by
  rw [round10_eq, round10_eq]
  have := rnd_mono (mul_le_mul_of_nonneg_right h E10_pos.le)
  exact div_le_div_of_nonneg_right (by exact_mod_cast this) E10_pos.le

theorem round10_nonneg {x : ℝ} (h : 0 ≤ x) : 0 ≤ PyNum.round10 x := by
  have := round10_mono h
  rwa [round10_zero] at this

theorem round10_le_grid {x y : ℝ} (hy : Grid y) (h : x ≤ y) : PyNum.round10 x ≤ y := by
  have := round10_mono h
  rwa [round10_grid hy] at this

theorem le_round10_grid {x y : ℝ} (hy : Grid y) (h : y ≤ x) : y ≤ PyNum.round10 x := by
  have := round10_mono h
  rwa [round10_grid hy] at this

end PyCNC
