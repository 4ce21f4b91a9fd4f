import Verif.Lemmas.Speed64

/-!
# Straight moves by any numbers in binary64
-/

set_option linter.unusedSectionVars false

namespace PyCNC

open Spec

variable [PyRound] {c : Cfg} {env : Env F64}

/-- The check of the table, in the numbers of the machine. -/
theorem checkDelta_any64 (ht : ∀ ax, 0 ≤ tableSize c ax) (p w : V4 F64) :
    (checkDelta c p w = .ok () ↔ ∀ ax, ax ≠ .e → 0 ≤ ((Coord.add p w).get ax).1 ∧
      ((Coord.add p w).get ax).1 ≤ (PyNum.round10 (PyNum.ofRat (tableSize c ax) : F64)).1) ∧
    ∀ e, checkDelta c p w = .error e → e = .gmachine "out of effective area" := by
  have t0 : ∀ ax, 0 ≤ (PyNum.round10 (PyNum.ofRat (tableSize c ax) : F64)).1 := fun ax => by
    refine r10_nonneg ?_
    rw [val_ofRat]
    refine fl_nonneg ?_
    have := ht ax
    exact_mod_cast this
  have z0 : (PyNum.round10 (zeroF : F64)).1 = 0 := r10_zero val_zero
  have s2 : ∀ ax, Coord.sorted2 (PyNum.round10 (zeroF : F64)) (PyNum.round10 (PyNum.ofRat (tableSize c ax))) =
      (PyNum.round10 (zeroF : F64), PyNum.round10 (PyNum.ofRat (tableSize c ax))) := by
    intro ax
    unfold Coord.sorted2
    rw [if_neg]
    rw [lt64_iff, z0]
    exact not_lt.2 (t0 ax)
  have sx := s2 .x
  have sy := s2 .y
  have sz := s2 .z
  simp only [tableSize] at sx sy sz
  have key : Coord.isInAabb (Coord.add p w) Coord.zero
      (Coord.new (PyNum.ofRat c.tableX) (PyNum.ofRat c.tableY) (PyNum.ofRat c.tableZ) zeroF) = true ↔
      ∀ ax, ax ≠ .e → 0 ≤ ((Coord.add p w).get ax).1 ∧
      ((Coord.add p w).get ax).1 ≤ (PyNum.round10 (PyNum.ofRat (tableSize c ax) : F64)).1 := by
    generalize Coord.add p w = q
    unfold Coord.isInAabb
    simp only [Coord.new, Coord.zero, sx, sy, sz]
    rw [show (∀ ax, ax ≠ Axis.e → 0 ≤ (q.get ax).1 ∧
        (q.get ax).1 ≤ (PyNum.round10 (PyNum.ofRat (tableSize c ax) : F64)).1) ↔
      (0 ≤ q.x.1 ∧ q.x.1 ≤ (PyNum.round10 (PyNum.ofRat c.tableX : F64)).1) ∧
      (0 ≤ q.y.1 ∧ q.y.1 ≤ (PyNum.round10 (PyNum.ofRat c.tableY : F64)).1) ∧
      (0 ≤ q.z.1 ∧ q.z.1 ≤ (PyNum.round10 (PyNum.ofRat c.tableZ : F64)).1) from
      ⟨fun h => ⟨h .x (by decide), h .y (by decide), h .z (by decide)⟩, fun h ax hax => by
        cases ax
        exacts [h.1, h.2.1, h.2.2, absurd rfl hax]⟩]
    split
    · rename_i h
      simp only [Bool.or_eq_true, lt64_iff, z0] at h
      refine ⟨fun h' => by simp at h', fun h' => ?_⟩
      rcases h with (h | h) | h <;> linarith [h'.1.1, h'.2.1.1, h'.2.2.1]
    · rename_i h0
      simp only [Bool.or_eq_true, lt64_iff, z0, not_or, not_lt] at h0
      split
      · rename_i h
        simp only [Bool.or_eq_true, lt64_iff] at h
        refine ⟨fun h' => by simp at h', fun h' => ?_⟩
        rcases h with (h | h) | h <;> linarith [h'.1.2, h'.2.1.2, h'.2.2.2]
      · rename_i h
        simp only [Bool.or_eq_true, lt64_iff, not_or, not_lt] at h
        exact ⟨fun _ => ⟨⟨h0.1.1, h.1.1⟩, ⟨h0.1.2, h.1.2⟩, ⟨h0.2, h.2⟩⟩, fun _ => rfl⟩
  unfold checkDelta
  refine ⟨?_, fun e h => ?_⟩
  · rw [← key]
    split
    · rename_i h; exact ⟨fun _ => h, fun _ => rfl⟩
    · rename_i h; exact ⟨fun h' => by simp at h', fun h' => absurd h' h⟩
  · split at h
    · cases h
    · cases h; trivial

/-- The number of steps is a nearest one. -/
theorem roundTo_nearest {d : F64} {p : ℚ} (hp : 1 ≤ p) (hp2 : p ≤ 1000) (bx : |d.1| ≤ 9999) :
    |((PyNum.roundI (d /ₚ (PyNum.ofRat 1 /ₚ PyNum.ofRat p)) : ℤ) : ℝ) - d.1 * p| ≤ 1 / 2 + 1 / 10 ^ 7 := by
  have hP1 : (1 : ℝ) ≤ p := by exact_mod_cast hp
  have hP : (0 : ℝ) < p := by linarith
  have hP2 : (p : ℝ) ≤ 1000 := by exact_mod_cast hp2
  set b : F64 := PyNum.ofRat 1 /ₚ PyNum.ofRat p with hbd
  have hb1 : b.1 = fl (1 / fl p) := by
    rw [hbd, val_div, val_ofRat, val_ofRat]
    have : fl ((1 : ℚ) : ℝ) = 1 := by simp [fl_one]
    rw [this]
  have hp0 : 0 < fl (p : ℝ) := fl_pos hP
  have hb0 : 0 < b.1 := by rw [hb1]; exact fl_pos (by positivity)
  have hbp : |b.1 * p - 1| ≤ 1 / 10 ^ 15 := by
    have l1 := fl_near3 (p : ℝ)
    rw [abs_of_pos hP] at l1
    generalize fl (p : ℝ) = P at l1 hp0 hb1
    have hi0 : (0 : ℝ) ≤ 1 / P := by positivity
    have l3 := fl_near3 (1 / P)
    rw [abs_of_nonneg hi0, ← hb1] at l3
    have hq : |(p : ℝ) / P - 1| ≤ 113 / 10 ^ 18 := by
      obtain ⟨l1, l2⟩ := abs_le.1 l1
      rw [abs_le, le_sub_iff_add_le, sub_le_iff_le_add, le_div_iff₀ hp0, div_le_iff₀ hp0]
      constructor
      · nlinarith
      · nlinarith
    obtain ⟨q1, q2⟩ := abs_le.1 hq
    obtain ⟨l3, l4⟩ := abs_le.1 l3
    have a1 := mul_le_mul_of_nonneg_right l3 hP.le
    have a2 := mul_le_mul_of_nonneg_right l4 hP.le
    have e1 : -(1 / P * (112 / 10 ^ 18)) * p = -(p / P * (112 / 10 ^ 18)) := by ring
    have e2 : 1 / P * (112 / 10 ^ 18) * p = p / P * (112 / 10 ^ 18) := by ring
    have e3 : (b.1 - 1 / P) * p = b.1 * p - p / P := by ring
    rw [e1, e3] at a1
    rw [e2, e3] at a2
    generalize (p : ℝ) / P = r at *
    rw [abs_le]
    norm_num at *
    constructor <;> linarith
  have hbhalf : 1 / 2 ≤ b.1 * p := by
    have := (abs_le.1 hbp).1
    norm_num at *
    linarith
  have h5 : |d.1 * p| ≤ 9999 * 1000 := by
    rw [abs_mul, abs_of_pos hP]
    exact mul_le_mul bx hP2 hP.le (by norm_num)
  have hq : |d.1 / b.1 - d.1 * p| ≤ 1 / 10 ^ 7 * (1 / 2) := by
    have e : d.1 / b.1 - d.1 * p = d.1 * p * ((1 - b.1 * p) / (b.1 * p)) := by
      field_simp
    rw [e, abs_mul, abs_div, abs_sub_comm, abs_of_pos (show 0 < b.1 * p by linarith)]
    have : |b.1 * p - 1| / (b.1 * p) ≤ 2 / 10 ^ 15 := by
      rw [div_le_iff₀ (by linarith)]
      norm_num at *
      linarith
    calc |d.1 * p| * (|b.1 * p - 1| / (b.1 * p)) ≤ 9999 * 1000 * (2 / 10 ^ 15) :=
          mul_le_mul h5 this (div_nonneg (abs_nonneg _) (by linarith)) (by norm_num)
      _ ≤ _ := by norm_num
  have h0 : |((PyNum.roundI (d /ₚ b) : ℤ) : ℝ) - fl (d.1 / b.1)| ≤ 1 / 2 := PyRound.near (fl (d.1 / b.1))
  have h1 := fl_near3 (d.1 / b.1)
  have h2 : |d.1 / b.1| ≤ 10 ^ 7 := by
    have := abs_sub_abs_le_abs_sub (d.1 / b.1) (d.1 * p)
    norm_num at *
    linarith
  have h1' : |fl (d.1 / b.1) - d.1 / b.1| ≤ 1 / 10 ^ 7 * (1 / 2) := h1.trans (by norm_num at *; linarith)
  generalize ((PyNum.roundI (d /ₚ b) : ℤ) : ℝ) = N at *
  generalize fl (d.1 / b.1) = Q at *
  generalize d.1 / b.1 = Q' at *
  generalize d.1 * (p : ℝ) = X at *
  rw [abs_le] at *
  norm_num at *
  constructor <;> linarith

/-- The rounded displacement is a nearest whole number of steps. -/
theorem round_nearest64 (hc : SaneCfg c) (hp : ∀ ax, 1 ≤ c.ppm.get ax) {d : V4 F64}
    (hd : ∀ ax, |(d.get ax).1| ≤ 9999) :
    ∃ n : V4 ℤ, (∀ ax, |(n.get ax : ℝ) - (d.get ax).1 * c.ppm.get ax| ≤ 1 / 2 + 1 / 10 ^ 7) ∧
      (∀ ax, |(n.get ax : ℝ)| ≤ 10 ^ 4 * c.ppm.get ax) ∧
      ∀ ax, (roundToSteps c d).get ax = stepVal (c.ppm.get ax) (n.get ax) := by
  let n : Axis → ℤ := fun ax => PyNum.roundI (d.get ax /ₚ (PyNum.ofRat 1 /ₚ PyNum.ofRat (c.ppm.get ax)))
  have e : ∀ ax, (⟨n .x, n .y, n .z, n .e⟩ : V4 ℤ).get ax = n ax := fun ax => by cases ax <;> rfl
  have h1 : ∀ ax, |(n ax : ℝ) - (d.get ax).1 * c.ppm.get ax| ≤ 1 / 2 + 1 / 10 ^ 7 := fun ax =>
    roundTo_nearest (hp ax) (hc.ppm_le ax) (hd ax)
  refine ⟨⟨n .x, n .y, n .z, n .e⟩, fun ax => ?_, fun ax => ?_, fun ax => ?_⟩
  · rw [e]; exact h1 ax
  · rw [e]
    have hP1 : (1 : ℝ) ≤ c.ppm.get ax := by exact_mod_cast hp ax
    have h2 := abs_sub_abs_le_abs_sub (n ax : ℝ) ((d.get ax).1 * c.ppm.get ax)
    have h3 := h1 ax
    have h4 : |(d.get ax).1 * c.ppm.get ax| ≤ 9999 * c.ppm.get ax := by
      rw [abs_mul, abs_of_pos (show (0 : ℝ) < c.ppm.get ax by linarith)]
      exact mul_le_mul_of_nonneg_right (hd ax) (by linarith)
    norm_num at *
    linarith
  · rw [e, get_roundToSteps64]; rfl

/-- The new position. -/
theorem add_near64 {p w : F64} {y : ℝ} (hp : |p.1| ≤ 10 ^ 5) (hw : |w.1 - y| ≤ 56 / 10 ^ 12)
    (hy : |y| ≤ 10 ^ 4) : |(PyNum.round10 (p +ₚ w)).1 - (p.1 + y)| ≤ 2 / 10 ^ 10 := by
  have h1 := r10_near3 (p +ₚ w)
  rw [val_add] at h1
  have h2 := fl_near3 (p.1 + w.1)
  have h3 : |p.1 + w.1| ≤ 2 * 10 ^ 5 := by
    rw [abs_le] at *
    norm_num at *
    constructor <;> linarith
  have h2' : |fl (p.1 + w.1) - (p.1 + w.1)| ≤ 3 / 10 ^ 11 := h2.trans (by norm_num at *; linarith)
  have h4 : |fl (p.1 + w.1)| ≤ 3 * 10 ^ 5 := by
    have := abs_sub_abs_le_abs_sub (fl (p.1 + w.1)) (p.1 + w.1)
    norm_num at *
    linarith
  have h1' : |(PyNum.round10 (p +ₚ w)).1 - fl (p.1 + w.1)| ≤ 9 / 10 ^ 11 := h1.trans (by norm_num at *; linarith)
  generalize (PyNum.round10 (p +ₚ w)).1 = A at *
  generalize fl (p.1 + w.1) = B at *
  rw [abs_le] at *
  norm_num at *
  constructor <;> linarith

end PyCNC
