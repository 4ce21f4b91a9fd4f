import Verif.Lemmas.Run64
import Verif.Model.GMachine

/-!
# Linear moves in binary64
-/

set_option linter.unusedSectionVars false

namespace PyCNC

open Spec

variable [PyRound]

/-! ## Error bounds -/

theorem fl_lo {x : ℝ} (h : 0 ≤ x) : x - x * (1 / 10 ^ 15) ≤ fl x := by
  have h1 := (abs_le.1 (fl_err x)).1
  rw [abs_of_nonneg h] at h1
  have : x / 2 ^ 53 ≤ x * (1 / 10 ^ 15) := by
    rw [div_eq_mul_inv]
    exact mul_le_mul_of_nonneg_left (by norm_num) h
  linarith

theorem fl_hi {x : ℝ} (h : 0 ≤ x) : fl x ≤ x + x * (1 / 10 ^ 15) := by
  have h1 := (abs_le.1 (fl_err x)).2
  rw [abs_of_nonneg h] at h1
  have : x / 2 ^ 53 ≤ x * (1 / 10 ^ 15) := by
    rw [div_eq_mul_inv]
    exact mul_le_mul_of_nonneg_left (by norm_num) h
  linarith

theorem fl_near (x : ℝ) : |fl x - x| ≤ |x| * (1 / 10 ^ 15) := by
  refine (fl_err x).trans ?_
  rw [div_eq_mul_inv]
  exact mul_le_mul_of_nonneg_left (by norm_num) (abs_nonneg x)

theorem val_round10 (a : F64) : (PyNum.round10 a).1 = fl ((PyRound.rnd (a.1 * E10) : ℝ) / E10) := rfl

theorem r10_zero {a : F64} (h : a.1 = 0) : (PyNum.round10 a).1 = 0 := by
  rw [val_round10, h, zero_mul, rnd_zero]; simp [fl_zero]

theorem r10_nonneg {a : F64} (h : 0 ≤ a.1) : 0 ≤ (PyNum.round10 a).1 := by
  rw [val_round10]
  have : 0 ≤ PyRound.rnd (a.1 * E10) := by
    rw [← rnd_zero]; exact rnd_mono (mul_nonneg h E10_pos.le)
  exact fl_nonneg (div_nonneg (by exact_mod_cast this) E10_pos.le)

theorem r10_exact (x : ℝ) : |(PyRound.rnd (x * E10) : ℝ) / E10 - x| ≤ 1 / (2 * 10 ^ 10) := by
  have h := PyRound.near (x * E10)
  have e : (PyRound.rnd (x * E10) : ℝ) / E10 - x = ((PyRound.rnd (x * E10) : ℝ) - x * E10) / E10 := by
    rw [sub_div, mul_div_assoc, div_self E10_ne, mul_one]
  rw [e, abs_div, abs_of_pos E10_pos, div_le_iff₀ E10_pos]
  refine h.trans (le_of_eq ?_)
  rw [E10]; norm_num

theorem r10_near (a : F64) :
    |(PyNum.round10 a).1 - a.1| ≤ 6 / 10 ^ 11 + |a.1| * (1 / 10 ^ 15) := by
  rw [val_round10]
  have h1 := r10_exact a.1
  generalize (PyRound.rnd (a.1 * E10) : ℝ) / E10 = y at h1 ⊢
  have h2 := fl_near y
  have h3 : |y| ≤ |a.1| + 1 / (2 * 10 ^ 10) := by
    have := abs_sub_abs_le_abs_sub y a.1; linarith
  have h4 := abs_sub_le (fl y) y a.1
  have h5 : |y| * (1 / 10 ^ 15) ≤ (|a.1| + 1 / (2 * 10 ^ 10)) * (1 / 10 ^ 15) :=
    mul_le_mul_of_nonneg_right h3 (by norm_num)
  have h6 : (1 : ℝ) / (2 * 10 ^ 10) * (1 / 10 ^ 15) ≤ 1 / 10 ^ 11 := by norm_num
  have h7 : (1 : ℝ) / (2 * 10 ^ 10) + 1 / 10 ^ 11 = 6 / 10 ^ 11 := by norm_num
  linarith

/-! ## Rounding to steps -/

/-- One axis of `Coordinates.round` in binary64. -/
theorem roundTo64 {d : F64} {p : ℚ} {n : ℤ} (hp : 0 < p) (hp2 : p ≤ 1000)
    (hn : |(n : ℝ)| ≤ 10 ^ 4 * p) (hd : |d.1 * p - n| ≤ 499 / 1000) :
    |(PyNum.round10 (Coord.roundTo d (PyNum.ofRat 1 /ₚ PyNum.ofRat p))).1 - n / p| ≤ 2 / 10 ^ 10 ∧
    (n = 0 → (PyNum.round10 (Coord.roundTo d (PyNum.ofRat 1 /ₚ PyNum.ofRat p))).1 = 0) := by
  have hP : (0 : ℝ) < p := by exact_mod_cast hp
  have hP2 : (p : ℝ) ≤ 1000 := by exact_mod_cast hp2
  set b : F64 := PyNum.ofRat 1 /ₚ PyNum.ofRat p with hb
  have hb1 : b.1 = fl (1 / fl p) := by
    rw [hb, val_div, val_ofRat, val_ofRat]
    have : fl ((1 : ℚ) : ℝ) = 1 := by simp [fl_one]
    rw [this]
  have l1 := fl_lo hP.le
  have l2 := fl_hi hP.le
  have hp0 : 0 < fl (p : ℝ) := fl_pos hP
  generalize fl (p : ℝ) = P at l1 l2 hp0 hb1
  have hi0 : (0 : ℝ) ≤ 1 / P := by positivity
  have l3 := fl_lo hi0
  have l4 := fl_hi hi0
  rw [← hb1] at l3 l4
  -- the base times the scale is nearly one
  have hq : |(p : ℝ) / P - 1| ≤ 2 / 10 ^ 15 := by
    rw [abs_le, le_sub_iff_add_le, sub_le_iff_le_add, le_div_iff₀ hp0, div_le_iff₀ hp0]
    constructor
    · nlinarith
    · nlinarith
  obtain ⟨q1, q2⟩ := abs_le.1 hq
  have hbp : |b.1 * p - 1| ≤ 4 / 10 ^ 15 := by
    have a1 : (1 / P - 1 / P * (1 / 10 ^ 15)) * p ≤ b.1 * p := mul_le_mul_of_nonneg_right l3 hP.le
    have a2 : b.1 * p ≤ (1 / P + 1 / P * (1 / 10 ^ 15)) * p := mul_le_mul_of_nonneg_right l4 hP.le
    have e1 : (1 / P - 1 / P * (1 / 10 ^ 15)) * p = p / P - p / P * (1 / 10 ^ 15) := by ring
    have e2 : (1 / P + 1 / P * (1 / 10 ^ 15)) * p = p / P + p / P * (1 / 10 ^ 15) := by ring
    rw [e1] at a1
    rw [e2] at a2
    rw [abs_le]
    constructor <;> linarith
  have hb0 : 0 < b.1 := by rw [hb1]; exact fl_pos (by positivity)
  clear_value b
  clear l1 l2 hp0 hb1 hi0 l3 l4 q1 q2 hq hb P
  obtain ⟨b1, b2⟩ := abs_le.1 hbp
  have hbp0 : 0 < b.1 * p := mul_pos hb0 hP
  -- the quotient
  have hn7 : |(n : ℝ)| ≤ 10 ^ 7 := by nlinarith
  have hdp : |d.1 * p| ≤ 10 ^ 7 + 1 := by
    have := abs_sub_abs_le_abs_sub (d.1 * p) n; linarith
  have hdb : |d.1 / b.1 - d.1 * p| ≤ 5 / 10 ^ 8 := by
    have e : d.1 / b.1 - d.1 * p = d.1 * p * ((1 - b.1 * p) / (b.1 * p)) := by
      field_simp
    rw [e, abs_mul]
    have : |(1 - b.1 * p) / (b.1 * p)| ≤ 49 / 10 ^ 16 := by
      rw [abs_div, abs_of_pos hbp0, div_le_iff₀ hbp0, abs_sub_comm]
      nlinarith
    calc |d.1 * p| * |(1 - b.1 * p) / (b.1 * p)| ≤ (10 ^ 7 + 1) * (49 / 10 ^ 16) := by gcongr
      _ ≤ 5 / 10 ^ 8 := by norm_num
  have hrnd : PyNum.roundI (d /ₚ b) = n := by
    change PyRound.rnd (fl (d.1 / b.1)) = n
    apply rnd_unique
    have h1 := fl_near (d.1 / b.1)
    have h2 : |d.1 / b.1| ≤ 10 ^ 7 + 2 := by
      have := abs_sub_abs_le_abs_sub (d.1 / b.1) (d.1 * p); linarith
    have h3 := abs_sub_le (fl (d.1 / b.1)) (d.1 / b.1) n
    have h4 := abs_sub_le (d.1 / b.1) (d.1 * p) n
    linarith
  have hn53 : |n| ≤ 2 ^ 53 := by
    have h7 : ((|n| : ℤ) : ℝ) ≤ 10 ^ 7 := by push_cast; exact hn7
    have : |n| ≤ 10 ^ 7 := by exact_mod_cast h7
    omega
  have hval : (Coord.roundTo d b).1 = fl (n * b.1) := by
    unfold Coord.roundTo
    rw [hrnd, val_mul, val_ofInt, fl_int _ hn53]
  constructor
  · have h1 := r10_near (Coord.roundTo d b)
    rw [hval] at h1
    have hnp : |(n : ℝ) / p| ≤ 10 ^ 4 := by
      rw [abs_div, abs_of_pos hP, div_le_iff₀ hP]; exact hn
    have h2 : |n * b.1 - n / p| ≤ 4 / 10 ^ 11 := by
      have e : n * b.1 - n / p = n / p * (b.1 * p - 1) := by field_simp
      rw [e, abs_mul]
      calc |(n : ℝ) / p| * |b.1 * p - 1| ≤ 10 ^ 4 * (4 / 10 ^ 15) := by gcongr
        _ ≤ 4 / 10 ^ 11 := by norm_num
    have h3 : |n * b.1| ≤ 10 ^ 4 + 1 := by
      have := abs_sub_abs_le_abs_sub (n * b.1) (n / p); linarith
    have h4 := fl_near (n * b.1)
    have h5 : |fl (n * b.1)| ≤ 10 ^ 4 + 2 := by
      have := abs_sub_abs_le_abs_sub (fl (n * b.1)) (n * b.1); linarith
    generalize (PyNum.round10 (Coord.roundTo d b)).1 = r at h1 ⊢
    have h6 := abs_sub_le r (fl (n * b.1)) (n / p)
    have h7 := abs_sub_le (fl (n * b.1)) (n * b.1) (n / p)
    linarith
  · intro h0
    refine r10_zero ?_
    rw [hval, h0]
    simp [fl_zero]

/-- The displacement of `n` steps per axis, as `roundToSteps` computes it. -/
structure Steps64 (c : Cfg) (n : V4 ℤ) (w : V4 F64) : Prop where
  near : ∀ ax, |(w.get ax).1 - n.get ax / c.ppm.get ax| ≤ 2 / 10 ^ 10
  zero : ∀ ax, n.get ax = 0 → (w.get ax).1 = 0
  size : ∀ ax, |(n.get ax : ℝ)| ≤ 10 ^ 4 * c.ppm.get ax

theorem roundToSteps64 {c : Cfg} (hc : SaneCfg c) {d : V4 F64} {n : V4 ℤ}
    (hn : ∀ ax, |(n.get ax : ℝ)| ≤ 10 ^ 4 * c.ppm.get ax)
    (hd : ∀ ax, |(d.get ax).1 * c.ppm.get ax - n.get ax| ≤ 499 / 1000) :
    Steps64 c n (roundToSteps c d) := by
  have key := fun ax => roundTo64 (hc.ppm_pos ax) (hc.ppm_le ax) (hn ax) (hd ax)
  have e : ∀ ax, (roundToSteps c d).get ax = PyNum.round10 (Coord.roundTo (d.get ax)
      (PyNum.ofRat 1 /ₚ PyNum.ofRat (c.ppm.get ax))) := fun ax => by cases ax <;> rfl
  refine ⟨fun ax => ?_, fun ax h => ?_, hn⟩
  · rw [e]; exact (key ax).1
  · rw [e]; exact (key ax).2 h

theorem get_abs64 (w : V4 F64) (ax : Axis) :
    (Coord.abs w).get ax = PyNum.round10 (PyNum.abs (w.get ax)) := by cases ax <;> rfl

/-- `abs(delta)` of such a displacement. -/
theorem abs64 {c : Cfg} (hc : SaneCfg c) {n : V4 ℤ} {w : V4 F64} (h : Steps64 c n w) (ax : Axis) :
    |((Coord.abs w).get ax).1 - |(n.get ax : ℝ)| / c.ppm.get ax| ≤ 3 / 10 ^ 10 ∧
    0 ≤ ((Coord.abs w).get ax).1 ∧
    (n.get ax = 0 → ((Coord.abs w).get ax).1 = 0) := by
  have hP : (0 : ℝ) < c.ppm.get ax := by exact_mod_cast hc.ppm_pos ax
  rw [get_abs64]
  refine ⟨?_, r10_nonneg (by rw [val_abs]; exact abs_nonneg _), fun h0 => r10_zero ?_⟩
  · have h1 := r10_near (PyNum.abs (w.get ax))
    rw [val_abs, abs_abs] at h1
    have h2 := h.near ax
    have h3 := abs_abs_sub_abs_le (w.get ax).1 (n.get ax / c.ppm.get ax)
    have e : |(n.get ax : ℝ) / c.ppm.get ax| = |(n.get ax : ℝ)| / c.ppm.get ax := by
      rw [abs_div, abs_of_pos hP]
    rw [e] at h3
    have h4 : |(n.get ax : ℝ)| / c.ppm.get ax ≤ 10 ^ 4 := by
      rw [div_le_iff₀ hP]; exact h.size ax
    generalize |(n.get ax : ℝ)| / c.ppm.get ax = D at *
    generalize |(w.get ax).1| = W at *
    generalize (PyNum.round10 (PyNum.abs (w.get ax))).1 = r at *
    have h5 := abs_sub_le r W D
    have h6 := le_abs_self (W - D)
    linarith
  · rw [val_abs, h.zero ax h0, abs_zero]

/-- The number of pulses is the number of steps. -/
theorem total64 {c : Cfg} (hc : SaneCfg c) {n : V4 ℤ} {w : V4 F64} (h : Steps64 c n w) (ax : Axis) :
    PyNum.roundI ((Coord.abs w).get ax *ₚ PyNum.ofRat (c.ppm.get ax)) = |n.get ax| := by
  have hP : (0 : ℝ) < c.ppm.get ax := by exact_mod_cast hc.ppm_pos ax
  have hP2 : (c.ppm.get ax : ℝ) ≤ 1000 := by exact_mod_cast hc.ppm_le ax
  obtain ⟨h1, h2, _⟩ := abs64 hc h ax
  change PyRound.rnd (fl (((Coord.abs w).get ax).1 * fl (c.ppm.get ax))) = _
  apply rnd_unique
  push_cast
  have h3 := fl_near (c.ppm.get ax : ℝ)
  rw [abs_of_pos hP] at h3
  have hs := h.size ax
  have e : |(n.get ax : ℝ)| = |(n.get ax : ℝ)| / c.ppm.get ax * c.ppm.get ax := by field_simp
  have h4 : |(n.get ax : ℝ)| / c.ppm.get ax ≤ 10 ^ 4 := by rw [div_le_iff₀ hP]; exact hs
  have h40 : 0 ≤ |(n.get ax : ℝ)| / c.ppm.get ax := by positivity
  rw [e]
  generalize |(n.get ax : ℝ)| / c.ppm.get ax = N at *
  generalize ((Coord.abs w).get ax).1 = D at *
  generalize (c.ppm.get ax : ℝ) = p at *
  generalize fl p = P at *
  have h5 := fl_near (D * P)
  have hD : D ≤ 10 ^ 4 + 1 := by have := (abs_le.1 h1).2; linarith
  have hPP : |P| ≤ 1001 := by
    have := abs_sub_abs_le_abs_sub P p
    rw [abs_of_pos hP] at this
    linarith
  have h6 : |D * P| ≤ 2 * 10 ^ 7 := by
    rw [abs_mul, abs_of_nonneg h2]
    calc D * |P| ≤ (10 ^ 4 + 1) * 1001 := by gcongr
      _ ≤ 2 * 10 ^ 7 := by norm_num
  have h7 : |D * P - N * p| ≤ 1 / 10 ^ 3 := by
    have e : D * P - N * p = D * (P - p) + (D - N) * p := by ring
    rw [e]
    refine (abs_add_le _ _).trans ?_
    rw [abs_mul, abs_mul, abs_of_nonneg h2, abs_of_pos hP]
    have a1 : D * |P - p| ≤ (10 ^ 4 + 1) * (1000 * (1 / 10 ^ 15)) := by
      gcongr
      refine h3.trans ?_
      gcongr
    have a2 : |D - N| * p ≤ 3 / 10 ^ 10 * 1000 := by gcongr
    have a3 : (10 ^ 4 + 1) * (1000 * (1 / 10 ^ 15)) + 3 / 10 ^ 10 * 1000 ≤ (1 : ℝ) / 10 ^ 3 := by
      norm_num
    linarith
  have h8 := abs_sub_le (fl (D * P)) (D * P) (N * p)
  linarith

/-- The sign of the displacement. -/
theorem sign64 {c : Cfg} (hc : SaneCfg c) {n : V4 ℤ} {w : V4 F64} (h : Steps64 c n w) (ax : Axis) :
    sign1 (w.get ax) * |n.get ax| = n.get ax := by
  have hP : (0 : ℝ) < c.ppm.get ax := by exact_mod_cast hc.ppm_pos ax
  have hP2 : (c.ppm.get ax : ℝ) ≤ 1000 := by exact_mod_cast hc.ppm_le ax
  have hn := h.near ax
  have hz := h.zero ax
  generalize w.get ax = x at hn hz
  unfold sign1
  obtain ⟨h1, h2⟩ := abs_le.1 hn
  have step : ∀ m : ℤ, 1 ≤ m → 1 / 1000 ≤ (m : ℝ) / c.ppm.get ax := by
    intro m hm
    have : (1 : ℝ) ≤ m := by exact_mod_cast hm
    rw [le_div_iff₀ hP]; linarith
  rcases lt_trichotomy (n.get ax) 0 with h0 | h0 | h0
  · have h3 := step (-n.get ax) (by omega)
    push_cast at h3
    rw [neg_div] at h3
    rw [if_pos, abs_of_neg h0]
    · ring
    · rw [lt64_iff, val_ofRat0]; linarith
  · rw [h0]; simp
  · have h3 := step (n.get ax) (by omega)
    rw [if_neg, abs_of_pos h0]
    · ring
    · rw [lt64_iff, val_ofRat0, not_lt]; linarith

/-! ## The velocities -/

theorem pmin64 (a b : F64) : pmin a b = a ∨ pmin a b = b := by
  unfold pmin; split <;> simp

theorem pmax64_left (a b : F64) : a.1 ≤ (pmax a b).1 := by
  unfold pmax
  split
  · next h => rw [lt64_iff] at h; exact h.le
  · exact le_rfl

theorem pmax64_right (a b : F64) : b.1 ≤ (pmax a b).1 := by
  unfold pmax
  split
  · exact le_rfl
  · next h => rw [lt64_iff, not_lt] at h; exact h

theorem findMax64 (v : V4 F64) (ax : Axis) : (v.get ax).1 ≤ (Coord.findMax v).1 := by
  unfold Coord.findMax
  cases ax
  · exact (pmax64_left _ _).trans ((pmax64_left _ _).trans (pmax64_left _ _))
  · exact (pmax64_right _ _).trans ((pmax64_left _ _).trans (pmax64_left _ _))
  · exact (pmax64_right _ _).trans (pmax64_left _ _)
  · exact pmax64_right _ _

/-- The length is at least every component. -/
theorem length64 {v : V4 F64} (hv : ∀ ax, 0 ≤ (v.get ax).1) (ax : Axis) :
    (v.get ax).1 ≤ (Coord.length v).1 := by
  have sq : ∀ x : F64, 0 ≤ (x *ₚ x).1 := fun x => fl_nonneg (mul_self_nonneg _)
  have key : ((v.get ax) *ₚ (v.get ax)).1 ≤
      (v.x *ₚ v.x +ₚ v.y *ₚ v.y +ₚ v.z *ₚ v.z +ₚ v.e *ₚ v.e).1 := by
    have e1 : (v.x *ₚ v.x).1 ≤ (v.x *ₚ v.x +ₚ v.y *ₚ v.y).1 :=
      le_fl_of_le (v.x *ₚ v.x).2 (by have := sq v.y; linarith)
    have e2 : (v.y *ₚ v.y).1 ≤ (v.x *ₚ v.x +ₚ v.y *ₚ v.y).1 :=
      le_fl_of_le (v.y *ₚ v.y).2 (by have := sq v.x; linarith)
    have n1 : 0 ≤ (v.x *ₚ v.x +ₚ v.y *ₚ v.y).1 := (sq _).trans e1
    have e3 : (v.x *ₚ v.x +ₚ v.y *ₚ v.y).1 ≤ (v.x *ₚ v.x +ₚ v.y *ₚ v.y +ₚ v.z *ₚ v.z).1 :=
      le_fl_of_le (v.x *ₚ v.x +ₚ v.y *ₚ v.y).2 (by have := sq v.z; linarith)
    have e4 : (v.z *ₚ v.z).1 ≤ (v.x *ₚ v.x +ₚ v.y *ₚ v.y +ₚ v.z *ₚ v.z).1 :=
      le_fl_of_le (v.z *ₚ v.z).2 (by linarith)
    have n2 := n1.trans e3
    have e5 : (v.x *ₚ v.x +ₚ v.y *ₚ v.y +ₚ v.z *ₚ v.z).1 ≤
        (v.x *ₚ v.x +ₚ v.y *ₚ v.y +ₚ v.z *ₚ v.z +ₚ v.e *ₚ v.e).1 :=
      le_fl_of_le (v.x *ₚ v.x +ₚ v.y *ₚ v.y +ₚ v.z *ₚ v.z).2 (by have := sq v.e; linarith)
    have e6 : (v.e *ₚ v.e).1 ≤ (v.x *ₚ v.x +ₚ v.y *ₚ v.y +ₚ v.z *ₚ v.z +ₚ v.e *ₚ v.e).1 :=
      le_fl_of_le (v.e *ₚ v.e).2 (by linarith)
    cases ax
    · exact e1.trans (e3.trans e5)
    · exact e2.trans (e3.trans e5)
    · exact e4.trans e5
    · exact e6
  have h1 := fl_sqrt_sq (v.get ax).2
  rw [abs_of_nonneg (hv ax)] at h1
  rw [← h1]
  exact fl_mono (Real.sqrt_le_sqrt key)

/-- The length of a vector whose components are at most 10001. -/
theorem length64_le {v : V4 F64} (h0 : ∀ ax, 0 ≤ (v.get ax).1) (hv : ∀ ax, (v.get ax).1 ≤ 10001) :
    (Coord.length v).1 ≤ 20010 := by
  have sq : ∀ ax, 0 ≤ ((v.get ax) *ₚ (v.get ax)).1 ∧
      ((v.get ax) *ₚ (v.get ax)).1 ≤ 100020002 := fun ax => by
    have h1 := h0 ax
    have h2 := hv ax
    have h3 : 0 ≤ (v.get ax).1 * (v.get ax).1 := mul_self_nonneg _
    refine ⟨fl_nonneg h3, ?_⟩
    have h4 := fl_hi h3
    have h5 : (v.get ax).1 * (v.get ax).1 ≤ 10001 * 10001 := mul_self_le_mul_self h1 h2
    change fl _ ≤ _
    linarith
  obtain ⟨x0, x1⟩ := sq .x
  obtain ⟨y0, y1⟩ := sq .y
  obtain ⟨z0, z1⟩ := sq .z
  obtain ⟨w0, w1⟩ := sq .e
  simp only [V4.get] at x0 x1 y0 y1 z0 z1 w0 w1
  have a0 : 0 ≤ (v.x *ₚ v.x).1 + (v.y *ₚ v.y).1 := add_nonneg x0 y0
  have a1 := fl_hi a0
  have a2 := fl_nonneg a0
  rw [← val_add] at a1 a2
  have b0 : 0 ≤ (v.x *ₚ v.x +ₚ v.y *ₚ v.y).1 + (v.z *ₚ v.z).1 := add_nonneg a2 z0
  have b1 := fl_hi b0
  have b2 := fl_nonneg b0
  rw [← val_add] at b1 b2
  have c0 : 0 ≤ (v.x *ₚ v.x +ₚ v.y *ₚ v.y +ₚ v.z *ₚ v.z).1 + (v.e *ₚ v.e).1 := add_nonneg b2 w0
  have c1 := fl_hi c0
  have c2 := fl_nonneg c0
  rw [← val_add] at c1 c2
  unfold Coord.length
  rw [val_sqrt]
  have h1 : √(v.x *ₚ v.x +ₚ v.y *ₚ v.y +ₚ v.z *ₚ v.z +ₚ v.e *ₚ v.e).1 ≤ 20005 := by
    rw [Real.sqrt_le_left (by norm_num)]
    linarith
  have h2 := fl_hi (Real.sqrt_nonneg (v.x *ₚ v.x +ₚ v.y *ₚ v.y +ₚ v.z *ₚ v.z +ₚ v.e *ₚ v.e).1)
  linarith

/-- `_adjust_velocity` in binary64: all velocities are scaled by the same factor, which is 1 or
brings the velocity of one axis down to its limit. -/
theorem adjust64 {c : Cfg} (hc : SaneCfg c) (v : V4 F64) :
    ∃ w, adjustVelocity c v = .ok w ∧ (w = v ∨ ∃ k : F64, w = Coord.smul v k ∧ (k.1 = 1 ∨ ∃ ax,
      fl (c.maxVel.get ax) < fl ((v.get ax).1 * fl 60) ∧
      k.1 = fl (fl (fl (c.maxVel.get ax) / (v.get ax).1) / fl 60))) := by
  have sec : (secInMin : F64).1 = fl 60 := by
    change fl ((60 : ℚ) : ℝ) = _; norm_num
  have ax1 : ∀ (k : F64) (ax : Axis), ∃ k', adjustAxis k (v.get ax) (c.maxVel.get ax) = .ok k' ∧
      (k' = k ∨ (fl (c.maxVel.get ax) < fl ((v.get ax).1 * fl 60) ∧
        k'.1 = fl (fl (fl (c.maxVel.get ax) / (v.get ax).1) / fl 60))) := by
    intro k ax
    unfold adjustAxis
    split
    · next hlt =>
      rw [lt64_iff, val_ofRat, val_mul, sec] at hlt
      have hm : (0 : ℝ) < fl (c.maxVel.get ax) := by
        refine fl_pos ?_
        have := hc.maxVel ax
        have : (60 : ℝ) ≤ c.maxVel.get ax := by exact_mod_cast this
        linarith
      have hne : (v.get ax).1 ≠ 0 := by
        intro h0
        rw [h0, zero_mul, fl_zero] at hlt
        linarith
      rw [pdiv64_ok hne]
      refine ⟨_, rfl, ?_⟩
      rcases pmin64 k (PyNum.ofRat (c.maxVel.get ax) /ₚ v.get ax /ₚ secInMin) with h | h
      · exact .inl h
      · rw [h]
        refine .inr ⟨hlt, ?_⟩
        rw [val_div, val_div, val_ofRat, sec]
    · exact ⟨k, rfl, .inl rfl⟩
  unfold adjustVelocity
  split
  · exact ⟨v, rfl, .inl rfl⟩
  · obtain ⟨k1, h1, g1⟩ := ax1 (PyNum.ofRat 1) .x
    obtain ⟨k2, h2, g2⟩ := ax1 k1 .y
    obtain ⟨k3, h3, g3⟩ := ax1 k2 .z
    obtain ⟨k4, h4, g4⟩ := ax1 k3 .e
    simp only [V4.get] at h1 h2 h3 h4
    refine ⟨Coord.smul v k4, ?_, .inr ⟨k4, rfl, ?_⟩⟩
    · rw [h1]
      change (adjustAxis k1 v.y c.maxVel.y >>= _) = _
      rw [h2]
      change (adjustAxis k2 v.z c.maxVel.z >>= _) = _
      rw [h3]
      change (adjustAxis k3 v.e c.maxVel.e >>= _) = _
      rw [h4]
      rfl
    · rcases g4 with rfl | g4
      · rcases g3 with rfl | g3
        · rcases g2 with rfl | g2
          · rcases g1 with rfl | g1
            · left
              change fl ((1 : ℚ) : ℝ) = 1
              simp [fl_one]
            · exact .inr ⟨_, g1⟩
          · exact .inr ⟨_, g2⟩
        · exact .inr ⟨_, g3⟩
      · exact .inr ⟨_, g4⟩

theorem get_smul64 (v : V4 F64) (k : F64) (ax : Axis) :
    (Coord.smul v k).get ax = PyNum.round10 (v.get ax *ₚ k) := by cases ax <;> rfl

/-- A velocity of a moving axis before the adjustment. -/
theorem speed_lo {D P s : ℝ} (hD : 9 / 10000 ≤ D) (hP : 4 / 10 ^ 7 ≤ P)
    (hs : |s - fl (D * P)| ≤ 6 / 10 ^ 11 + |fl (D * P)| * (1 / 10 ^ 15)) :
    29 / 10 ^ 11 ≤ s ∧ D * P / 2 ≤ s := by
  have h0 : 36 / 10 ^ 11 ≤ D * P := by nlinarith
  have h1 : 0 ≤ D * P := by linarith
  have h2 := fl_lo h1
  have h3 := fl_hi h1
  have h4 := fl_nonneg h1
  rw [abs_of_nonneg h4] at hs
  have h5 := (abs_le.1 hs).1
  constructor <;> linarith

/-- A velocity that exceeds its limit. -/
theorem speed_hi {D P s M : ℝ} (hD : 0 ≤ D) (hP : 0 ≤ P) (hM : 60 ≤ M)
    (hs : |s - fl (D * P)| ≤ 6 / 10 ^ 11 + |fl (D * P)| * (1 / 10 ^ 15))
    (hlt : fl M < fl (s * fl 60)) : 0 < s ∧ s ≤ 2 * (D * P) := by
  have h1 : 0 ≤ D * P := mul_nonneg hD hP
  have h3 := fl_hi h1
  have h4 := fl_nonneg h1
  rw [abs_of_nonneg h4] at hs
  have h5 := (abs_le.1 hs).2
  have e60 : fl 60 = 60 := by
    have := fl_int 60 (by norm_num)
    simpa using this
  rw [e60] at hlt
  have h6 : M < s * 60 := by
    by_contra hc
    exact absurd (fl_mono (not_lt.1 hc)) (not_le.2 hlt)
  have h7 : 1 < s := by linarith
  refine ⟨by linarith, by linarith⟩

/-- The factor that slows an axis down to its limit. -/
theorem slow_factor {D₁ D₂ P s₁ s₂ M k : ℝ} (hD₁ : 9 / 10000 ≤ D₁) (hD₂ : D₂ ≤ 10001)
    (hP : 0 < P) (hs₁ : D₁ * P / 2 ≤ s₁) (hs0 : 0 < s₂) (hs₂ : s₂ ≤ 2 * (D₂ * P)) (hM : 60 ≤ M)
    (hk : k = fl (fl (fl M / s₂) / fl 60)) : 1 / 10 ^ 8 ≤ s₁ * k := by
  have e60 : fl 60 = 60 := by
    have := fl_int 60 (by norm_num)
    simpa using this
  have hM' : 60 ≤ fl M := by rw [← e60]; exact fl_mono hM
  have h1 : 60 / s₂ ≤ fl M / s₂ := by gcongr
  have h2 := fl_lo (show 0 ≤ fl M / s₂ from by positivity)
  have h3 : 0 ≤ fl (fl M / s₂) := fl_nonneg (by positivity)
  have h4 := fl_lo (show 0 ≤ fl (fl M / s₂) / fl 60 from by rw [e60]; positivity)
  rw [← hk, e60] at h4
  have h5 : 1 / s₂ * (98 / 100) ≤ k := by
    have e : 60 / s₂ = 60 * (1 / s₂) := by ring
    rw [e] at h1
    have : 0 < 1 / s₂ := by positivity
    generalize 1 / s₂ = r at *
    linarith
  have h6 : 1 / (2 * (10001 * P)) ≤ 1 / s₂ := by
    apply one_div_le_one_div_of_le hs0
    nlinarith
  have h7 : 1 / (2 * (10001 * P)) * (98 / 100) ≤ k := by linarith
  have h8 : D₁ * P / 2 * (1 / (2 * (10001 * P)) * (98 / 100)) ≤ s₁ * k := by
    refine mul_le_mul hs₁ h7 (by positivity) ?_
    have : 0 ≤ D₁ * P / 2 := by positivity
    linarith
  have h9 : D₁ * P / 2 * (1 / (2 * (10001 * P)) * (98 / 100)) = D₁ / 40004 * (98 / 100) := by
    field_simp; ring
  rw [h9] at h8
  have : (9 / 10000) / 40004 * (98 / 100) ≤ D₁ / 40004 * (98 / 100) := by gcongr
  have h10 : (1 : ℝ) / 10 ^ 8 ≤ (9 / 10000) / 40004 * (98 / 100) := by norm_num
  linarith

/-- The velocities after `_adjust_velocity`: not negative, positive for the axes that move. -/
theorem speeds64 {c : Cfg} (hc : SaneCfg c) {D : V4 F64} {P : F64} (hD0 : ∀ ax, 0 ≤ (D.get ax).1)
    (hD : ∀ ax, (D.get ax).1 ≤ 10001) (hP : 4 / 10 ^ 7 ≤ P.1) :
    ∃ w, adjustVelocity c (Coord.smul D P) = .ok w ∧ (∀ ax, 0 ≤ (w.get ax).1) ∧
      ∀ ax, 9 / 10000 ≤ (D.get ax).1 → 0 < (w.get ax).1 := by
  have hP0 : 0 < P.1 := by linarith
  have hs : ∀ ax, |((Coord.smul D P).get ax).1 - fl ((D.get ax).1 * P.1)| ≤
      6 / 10 ^ 11 + |fl ((D.get ax).1 * P.1)| * (1 / 10 ^ 15) := fun ax => by
    rw [get_smul64]; exact r10_near _
  have hs0 : ∀ ax, 0 ≤ ((Coord.smul D P).get ax).1 := fun ax => by
    rw [get_smul64]; exact r10_nonneg (fl_nonneg (mul_nonneg (hD0 ax) hP0.le))
  obtain ⟨w, h1, h2⟩ := adjust64 hc (Coord.smul D P)
  refine ⟨w, h1, ?_⟩
  rcases h2 with rfl | ⟨k, rfl, h2⟩
  · refine ⟨hs0, fun ax hax => ?_⟩
    have := (speed_lo hax hP (hs ax)).1
    linarith
  · have hk0 : 0 ≤ k.1 := by
      rcases h2 with h2 | ⟨ax, h3, h2⟩
      · rw [h2]; norm_num
      · rw [h2]
        have h60 : 0 < fl 60 := fl_pos (by norm_num)
        have hm : 0 ≤ fl (c.maxVel.get ax) := by
          refine fl_nonneg ?_
          have : (60 : ℝ) ≤ c.maxVel.get ax := by exact_mod_cast hc.maxVel ax
          linarith
        exact fl_nonneg (div_nonneg (fl_nonneg (div_nonneg hm (hs0 ax))) h60.le)
    constructor
    · intro ax
      rw [get_smul64]
      exact r10_nonneg (fl_nonneg (mul_nonneg (hs0 ax) hk0))
    · intro ax hax
      obtain ⟨l1, l2⟩ := speed_lo hax hP (hs ax)
      have hbig : 29 / 10 ^ 11 ≤ ((Coord.smul D P).get ax).1 * k.1 := by
        rcases h2 with h2 | ⟨ax', h3, h2⟩
        · rw [h2, mul_one]; exact l1
        · have hM : (60 : ℝ) ≤ c.maxVel.get ax' := by exact_mod_cast hc.maxVel ax'
          obtain ⟨u1, u2⟩ := speed_hi (hD0 ax') hP0.le hM (hs ax') h3
          have := slow_factor hax (hD ax') hP0 l2 u1 u2 hM h2
          norm_num at this ⊢
          linarith
      rw [get_smul64]
      generalize (Coord.smul D P).get ax = s at hbig ⊢
      have h5 := (abs_le.1 (r10_near (s *ₚ k))).1
      have h6 := fl_lo (show 0 ≤ s.1 * k.1 from by linarith)
      have h7 : 0 ≤ (s *ₚ k).1 := fl_nonneg (show 0 ≤ s.1 * k.1 from by linarith)
      rw [abs_of_nonneg h7] at h5
      rw [← val_mul] at h6
      linarith

theorem get_sdiv64 {v : V4 F64} {k : F64} (hk : k.1 ≠ 0) :
    ∃ w, Coord.sdiv v k = .ok w ∧ ∀ ax, w.get ax = PyNum.round10 (v.get ax /ₚ k) := by
  unfold Coord.sdiv
  simp only [pdiv64_ok hk]
  exact ⟨_, rfl, fun ax => by cases ax <;> rfl⟩

/-- The generator of a linear move in binary64 is built and can be iterated. -/
theorem linear64_new {c : Cfg} (hc : SaneCfg c) {n : V4 ℤ} {w : V4 F64} {v : F64}
    (h : Steps64 c n w) (hn : ∃ ax, n.get ax ≠ 0) (hv : 1 ≤ v.1) :
    ∃ g, LinearGen.new c w v = .ok g ∧ g.Good64 c := by
  have hP : ∀ ax, (0 : ℝ) < c.ppm.get ax := fun ax => by exact_mod_cast hc.ppm_pos ax
  have hP2 : ∀ ax, (c.ppm.get ax : ℝ) ≤ 1000 := fun ax => by exact_mod_cast hc.ppm_le ax
  have hA : (1 : ℝ) ≤ c.accel := by exact_mod_cast hc.accel
  have hA0 : 0 < fl (c.accel : ℝ) := fl_pos (by linarith)
  have hD := abs64 hc h
  have htot := total64 hc h
  set D := Coord.abs w with hDd
  have hD0 : ∀ ax, 0 ≤ (D.get ax).1 := fun ax => (hD ax).2.1
  have hDle : ∀ ax, (D.get ax).1 ≤ 10001 := fun ax => by
    have h1 := (abs_le.1 (hD ax).1).2
    have h2 : |(n.get ax : ℝ)| / c.ppm.get ax ≤ 10 ^ 4 := by
      rw [div_le_iff₀ (hP ax)]; exact h.size ax
    linarith
  have hDge : ∀ ax, n.get ax ≠ 0 → 9 / 10000 ≤ (D.get ax).1 := fun ax hax => by
    have h1 := (abs_le.1 (hD ax).1).1
    have h2 : 1 / 1000 ≤ |(n.get ax : ℝ)| / c.ppm.get ax := by
      rw [le_div_iff₀ (hP ax)]
      have : 1 ≤ |n.get ax| := Int.one_le_abs hax
      have : (1 : ℝ) ≤ |(n.get ax : ℝ)| := by exact_mod_cast this
      have := hP2 ax
      linarith
    linarith
  obtain ⟨a0, ha0⟩ := hn
  have hL1 : 9 / 10000 ≤ (Coord.length D).1 := (hDge a0 ha0).trans (length64 hD0 a0)
  have hL2 := length64_le hD0 hDle
  have hL0 : 0 < (Coord.length D).1 := by linarith
  have sec : (secInMin : F64).1 = 60 := by
    change fl ((60 : ℚ) : ℝ) = _
    have := fl_int 60 (by norm_num)
    simpa using this
  set L := Coord.length D with hLd
  have hper : 4 / 10 ^ 7 ≤ (v /ₚ secInMin /ₚ L).1 := by
    rw [val_div, val_div, sec]
    have h1 := fl_lo (show 0 ≤ v.1 / 60 by positivity)
    have h2 : 1 / 61 ≤ fl (v.1 / 60) := by linarith
    have h3 : 1 / 61 / 20010 ≤ fl (v.1 / 60) / L.1 :=
      div_le_div₀ (by linarith) h2 hL0 hL2
    have h4 := fl_lo (show 0 ≤ fl (v.1 / 60) / L.1 from div_nonneg (by linarith) hL0.le)
    have h5 : (41 : ℝ) / 10 ^ 8 ≤ 1 / 61 / 20010 := by norm_num
    linarith
  obtain ⟨m, hm, hm0, hmp⟩ := speeds64 hc hD0 hDle hper
  have hmax : 0 ≤ (Coord.findMax m).1 := (hm0 .x).trans (findMax64 m .x)
  have hk : ∀ m : V4 F64, (∀ ax, 0 ≤ (m.get ax).1) →
      0 ≤ (PyNum.ofRat 2 *ₚ Coord.findMax m /ₚ PyNum.ofRat c.accel : F64).1 := fun m hm => by
    have h2 : 0 ≤ fl ((2 : ℚ) : ℝ) := fl_nonneg (by norm_num)
    exact fl_nonneg (div_nonneg (fl_nonneg (mul_nonneg h2 ((hm .x).trans (findMax64 m .x)))) hA0.le)
  have hmove : ∀ ax, 0 < PyNum.roundI (D.get ax *ₚ PyNum.ofRat (c.ppm.get ax)) →
      9 / 10000 ≤ (D.get ax).1 := fun ax hax => by
    rw [htot ax, abs_pos] at hax
    exact hDge ax hax
  unfold LinearGen.new
  simp only
  rw [← hDd, ← hLd, pdiv64_ok hL0.ne']
  change ∃ g, (adjustVelocity c _ >>= _) = _ ∧ _
  rw [hm]
  by_cases hs : (L <ₚ PyNum.ofRat c.accel *ₚ ((Coord.findMax m /ₚ PyNum.ofRat c.accel) *ₚ
      (Coord.findMax m /ₚ PyNum.ofRat c.accel))) = true
  · have hT : 0 < (PyNum.sqrt (L /ₚ PyNum.ofRat c.accel)).1 :=
      fl_pos (Real.sqrt_pos.2 (fl_pos (div_pos hL0 hA0)))
    have hT2 : (PyNum.sqrt (L /ₚ PyNum.ofRat c.accel)).1 ≤ 200 := by
      rw [val_sqrt, val_div, val_ofRat]
      have h1 : 1 ≤ fl (c.accel : ℝ) := by rw [← fl_one]; exact fl_mono hA
      have h2 : L.1 / fl (c.accel : ℝ) ≤ 20010 := by
        rw [div_le_iff₀ hA0]; nlinarith
      have h3 := fl_hi (show 0 ≤ L.1 / fl (c.accel : ℝ) from (div_pos hL0 hA0).le)
      have h4 : √(fl (L.1 / fl (c.accel : ℝ))) ≤ 150 := by
        rw [Real.sqrt_le_left (by norm_num)]
        linarith
      have h5 := fl_hi (Real.sqrt_nonneg (fl (L.1 / fl (c.accel : ℝ))))
      linarith
    obtain ⟨m', e1, e2⟩ := get_sdiv64 (v := D) hT.ne'
    have hm' : ∀ ax, 0 ≤ (m'.get ax).1 := fun ax => by
      rw [e2]; exact r10_nonneg (fl_nonneg (div_nonneg (hD0 ax) hT.le))
    simp only [bind, Except.bind, if_pos hs, e1]
    refine ⟨_, rfl, hc.ppm_pos, hm', fun ax hax => ?_, hT.le, hk m' hm'⟩
    have hax' : 0 < PyNum.roundI (D.get ax *ₚ PyNum.ofRat (c.ppm.get ax)) := by
      cases ax <;> exact hax
    change 0 < (m'.get ax).1
    rw [e2]
    have h1 := hmove ax hax'
    have h2 : 9 / 10000 / 200 ≤ (D.get ax).1 / (PyNum.sqrt (L /ₚ PyNum.ofRat c.accel)).1 :=
      div_le_div₀ (by linarith) h1 hT hT2
    have h3 : 0 ≤ (D.get ax).1 / (PyNum.sqrt (L /ₚ PyNum.ofRat c.accel)).1 := by linarith
    have h4 := fl_lo h3
    rw [← val_div] at h4
    have h5 := (abs_le.1 (r10_near (D.get ax /ₚ PyNum.sqrt (L /ₚ PyNum.ofRat c.accel)))).1
    have h6 : 0 ≤ (D.get ax /ₚ PyNum.sqrt (L /ₚ PyNum.ofRat c.accel)).1 := fl_nonneg h3
    rw [abs_of_nonneg h6] at h5
    linarith
  · have hml : 0 < (Coord.length m).1 := (hmp a0 (hDge a0 ha0)).trans_le (length64 hm0 a0)
    simp only [bind, Except.bind, if_neg hs, pdiv64_ok hml.ne']
    refine ⟨_, rfl, hc.ppm_pos, hm0, fun ax hax => ?_, ?_, hk m hm0⟩
    · have hax' : 0 < PyNum.roundI (D.get ax *ₚ PyNum.ofRat (c.ppm.get ax)) := by
        cases ax <;> exact hax
      exact hmp ax (hmove ax hax')
    · exact fl_nonneg (div_nonneg hmax hA0.le)

end PyCNC
