import Verif.Lemmas.ArcAnyRun64

/-!
# Moves of any size in binary64 and the check of their speed
-/

set_option linter.unusedSectionVars false

namespace PyCNC

open Spec

variable [PyRound] {c : Cfg} {env : Env F64}

theorem r10_near3 (a : F64) :
    |(PyNum.round10 a).1 - a.1| ≤ 51 / 10 ^ 12 + |a.1| * (112 / 10 ^ 18) := by
  rw [val_round10]
  have h1 := r10_exact a.1
  generalize (PyRound.rnd (a.1 * E10) : ℝ) / E10 = y at h1 ⊢
  have h2 := fl_near3 y
  have h3 : |y| ≤ |a.1| + 1 / (2 * 10 ^ 10) := by
    have := abs_sub_abs_le_abs_sub y a.1; linarith
  have h4 := abs_sub_le (fl y) y a.1
  have h5 : |y| * (112 / 10 ^ 18) ≤ (|a.1| + 1 / (2 * 10 ^ 10)) * (112 / 10 ^ 18) :=
    mul_le_mul_of_nonneg_right h3 (by norm_num)
  generalize |y| * (112 / 10 ^ 18) = Y at *
  norm_num at *
  linarith

/-- The binary64 number for `n` steps. -/
noncomputable def stepVal (p : ℚ) (n : ℤ) : F64 :=
  PyNum.round10 (ofInt n *ₚ (PyNum.ofRat 1 /ₚ PyNum.ofRat p))

/-- It is nearly the position of the step. -/
theorem stepVal_near {p : ℚ} {n : ℤ} (hp : 1 ≤ p) (hp2 : p ≤ 1000) (hn : |(n : ℝ)| ≤ 10 ^ 4 * p) :
    |(stepVal p n).1 - n / p| ≤ 56 / 10 ^ 12 ∧ (n = 0 → (stepVal p n).1 = 0) := by
  have hP1 : (1 : ℝ) ≤ p := by exact_mod_cast hp
  have hP : (0 : ℝ) < p := by linarith
  have hP2 : (p : ℝ) ≤ 1000 := by exact_mod_cast hp2
  set b : F64 := PyNum.ofRat 1 /ₚ PyNum.ofRat p with hbd
  have hb1 : b.1 = fl (1 / fl p) := by
    rw [hbd, val_div, val_ofRat, val_ofRat]
    have : fl ((1 : ℚ) : ℝ) = 1 := by simp [fl_one]
    rw [this]
  have l1 := fl_near3 (p : ℝ)
  rw [abs_of_pos hP] at l1
  have hp0 : 0 < fl (p : ℝ) := fl_pos hP
  generalize fl (p : ℝ) = P at l1 hp0 hb1
  have hi0 : (0 : ℝ) ≤ 1 / P := by positivity
  have l3 := fl_near3 (1 / P)
  rw [abs_of_nonneg hi0, ← hb1] at l3
  have hq : |(p : ℝ) / P - 1| ≤ 113 / 10 ^ 18 := by
    obtain ⟨l1, l2⟩ := abs_le.1 l1
    rw [abs_le, le_sub_iff_add_le, sub_le_iff_le_add, le_div_iff₀ hp0, div_le_iff₀ hp0]
    constructor
    · nlinarith
    · nlinarith
  obtain ⟨q1, q2⟩ := abs_le.1 hq
  have hbp : |b.1 * p - 1| ≤ 226 / 10 ^ 18 := by
    obtain ⟨l3, l4⟩ := abs_le.1 l3
    have a1 := mul_le_mul_of_nonneg_right l3 hP.le
    have a2 := mul_le_mul_of_nonneg_right l4 hP.le
    have e1 : -(1 / P * (112 / 10 ^ 18)) * p = -(p / P * (112 / 10 ^ 18)) := by ring
    have e2 : 1 / P * (112 / 10 ^ 18) * p = p / P * (112 / 10 ^ 18) := by ring
    have e3 : (b.1 - 1 / P) * p = b.1 * p - p / P := by ring
    rw [e1, e3] at a1
    rw [e2, e3] at a2
    generalize (p : ℝ) / P = r at *
    rw [abs_le]
    norm_num at *
    constructor <;> linarith
  have hn7 : |(n : ℝ)| ≤ 10 ^ 7 := by nlinarith
  have hn53 : |n| ≤ 2 ^ 53 := by
    have h7 : ((|n| : ℤ) : ℝ) ≤ 10 ^ 7 := by push_cast; exact hn7
    have : |n| ≤ 10 ^ 7 := by exact_mod_cast h7
    omega
  have hval : (ofInt n *ₚ b : F64).1 = fl (n * b.1) := by
    rw [val_mul, val_ofInt, fl_int _ hn53]
  have hnp : |(n : ℝ) / p| ≤ 10 ^ 4 := by
    rw [abs_div, abs_of_pos hP, div_le_iff₀ hP]; exact hn
  constructor
  · have h1 := r10_near3 (ofInt n *ₚ b)
    rw [hval] at h1
    change |(PyNum.round10 (ofInt n *ₚ b)).1 - n / p| ≤ _
    have h2 : |n * b.1 - n / p| ≤ 10 ^ 4 * (226 / 10 ^ 18) := by
      have e : n * b.1 - n / p = n / p * (b.1 * p - 1) := by field_simp
      rw [e, abs_mul]
      exact mul_le_mul hnp hbp (abs_nonneg _) (by norm_num)
    have h3 : |n * b.1| ≤ 10 ^ 4 + 1 := by
      have := abs_sub_abs_le_abs_sub (n * b.1) (n / p)
      generalize |(n : ℝ) / p| = N at *
      generalize |(n : ℝ) * b.1 - n / p| = M at *
      norm_num at *; linarith
    have h4 := fl_near3 (n * b.1)
    have h6 : |fl (n * b.1)| ≤ 10 ^ 4 + 2 := by
      have := abs_sub_abs_le_abs_sub (fl (n * b.1)) (n * b.1)
      generalize |fl (n * b.1)| = N at *
      generalize |fl (n * b.1) - n * b.1| = M at *
      norm_num at *; linarith
    have h7 := abs_sub_le (PyNum.round10 (ofInt n *ₚ b)).1 (fl (n * b.1)) (n * b.1)
    have h8 := abs_sub_le (PyNum.round10 (ofInt n *ₚ b)).1 (n * b.1) (n / p)
    generalize |(PyNum.round10 (ofInt n *ₚ b)).1 - fl (n * b.1)| = A1 at *
    generalize |(PyNum.round10 (ofInt n *ₚ b)).1 - n * b.1| = A2 at *
    generalize |(PyNum.round10 (ofInt n *ₚ b)).1 - n / p| = A3 at *
    generalize |fl (n * b.1) - n * b.1| = A4 at *
    generalize |fl (n * b.1)| = A5 at *
    generalize |n * b.1 - n / p| = A6 at *
    generalize |n * b.1| = A7 at *
    norm_num at *
    linarith
  · rintro rfl
    exact r10_zero (by rw [hval]; simp [fl_zero])

/-- Any number of not more than 9999 mm is rounded to such a number. -/
theorem roundTo_stepVal {d : F64} {p : ℚ} (hp : 1 ≤ p) (hp2 : p ≤ 1000) (bx : |d.1| ≤ 9999) :
    ∃ n : ℤ, |(n : ℝ)| ≤ (|d.1| + 1) * p ∧ (d.1 = 0 → n = 0) ∧
      PyNum.round10 (Coord.roundTo d (PyNum.ofRat 1 /ₚ PyNum.ofRat p)) = stepVal p n := by
  have hP1 : (1 : ℝ) ≤ p := by exact_mod_cast hp
  have hP : (0 : ℝ) < p := by linarith
  have hP2 : (p : ℝ) ≤ 1000 := by exact_mod_cast hp2
  refine ⟨PyNum.roundI (d /ₚ (PyNum.ofRat 1 /ₚ PyNum.ofRat p)), ?_, fun h0 => ?_, rfl⟩
  · set b : F64 := PyNum.ofRat 1 /ₚ PyNum.ofRat p with hbd
    have hb1 : b.1 = fl (1 / fl p) := by
      rw [hbd, val_div, val_ofRat, val_ofRat]
      have : fl ((1 : ℚ) : ℝ) = 1 := by simp [fl_one]
      rw [this]
    have hp0 : 0 < fl (p : ℝ) := fl_pos hP
    have l1 := fl_hi3 hP.le
    have l2 := fl_lo3 (show (0 : ℝ) ≤ 1 / fl p by positivity)
    have hb : 1 / p * (1 - 1 / 10 ^ 15) ≤ b.1 := by
      rw [hb1]
      refine le_trans ?_ l2
      rw [div_mul_eq_mul_div, div_mul_eq_mul_div, div_le_div_iff₀ hP hp0]
      generalize fl (p : ℝ) = P at *
      norm_num at *
      nlinarith
    have hb0 : 0 < b.1 := by rw [hb1]; exact fl_pos (by positivity)
    have hq : |d.1 / b.1| ≤ |d.1| * p * (1 + 2 / 10 ^ 15) := by
      rw [abs_div, abs_of_pos hb0, div_le_iff₀ hb0]
      have e : |d.1| = |d.1| * p * (1 + 2 / 10 ^ 15) * (1 / p * (1 / (1 + 2 / 10 ^ 15))) := by
        field_simp
      calc |d.1| = |d.1| * p * (1 + 2 / 10 ^ 15) * (1 / p * (1 / (1 + 2 / 10 ^ 15))) := e
        _ ≤ |d.1| * p * (1 + 2 / 10 ^ 15) * b.1 := by
          refine mul_le_mul_of_nonneg_left (le_trans ?_ hb) (by positivity)
          exact mul_le_mul_of_nonneg_left (by norm_num) (by positivity)
    have h0 : |((PyNum.roundI (d /ₚ b) : ℤ) : ℝ) - fl (d.1 / b.1)| ≤ 1 / 2 := PyRound.near (fl (d.1 / b.1))
    have h1 := fl_near3 (d.1 / b.1)
    have h2 := abs_sub_abs_le_abs_sub ((PyNum.roundI (d /ₚ b) : ℤ) : ℝ) (fl (d.1 / b.1))
    have h3 := abs_sub_abs_le_abs_sub (fl (d.1 / b.1)) (d.1 / b.1)
    have h5 : |d.1| * p ≤ 9999 * 1000 := mul_le_mul bx hP2 hP.le (by norm_num)
    rw [add_mul, one_mul]
    generalize |((PyNum.roundI (d /ₚ b) : ℤ) : ℝ) - fl (d.1 / b.1)| = A at *
    generalize |((PyNum.roundI (d /ₚ b) : ℤ) : ℝ)| = B at *
    generalize |fl (d.1 / b.1) - d.1 / b.1| = C at *
    generalize |fl (d.1 / b.1)| = D at *
    generalize |d.1 / b.1| = E at *
    generalize |d.1| * (p : ℝ) = G at *
    norm_num at *
    linarith
  · change PyRound.rnd (fl (d.1 / _)) = 0
    rw [h0, zero_div, fl_zero]
    exact rnd_zero

theorem get_roundToSteps64 (d : V4 F64) (ax : Axis) :
    (roundToSteps c d).get ax = PyNum.round10 (Coord.roundTo (d.get ax)
      (PyNum.ofRat 1 /ₚ PyNum.ofRat (c.ppm.get ax))) := by cases ax <;> rfl

/-- The rounded displacement is a whole number of steps. -/
theorem round_steps64 (hc : SaneCfg c) (hp : ∀ ax, 1 ≤ c.ppm.get ax) {d : V4 F64}
    (hd : ∀ ax, |(d.get ax).1| ≤ 9999) :
    ∃ n : V4 ℤ, (∀ ax, |(n.get ax : ℝ)| ≤ (|(d.get ax).1| + 1) * c.ppm.get ax) ∧
      (∀ ax, (d.get ax).1 = 0 → n.get ax = 0) ∧
      ∀ ax, (roundToSteps c d).get ax = stepVal (c.ppm.get ax) (n.get ax) := by
  have key := fun ax => roundTo_stepVal (hp ax) (hc.ppm_le ax) (hd ax)
  choose n h1 h2 h3 using key
  have e : ∀ ax, (⟨n .x, n .y, n .z, n .e⟩ : V4 ℤ).get ax = n ax := fun ax => by cases ax <;> rfl
  refine ⟨⟨n .x, n .y, n .z, n .e⟩, fun ax => ?_, fun ax h => ?_, fun ax => ?_⟩
  · rw [e]; exact h1 ax
  · rw [e]; exact h2 ax h
  · rw [e, get_roundToSteps64]; exact h3 ax

theorem steps_of_val (hc : SaneCfg c) (hp : ∀ ax, 1 ≤ c.ppm.get ax) {n : V4 ℤ} {w : V4 F64}
    (hn : ∀ ax, |(n.get ax : ℝ)| ≤ 10 ^ 4 * c.ppm.get ax)
    (h : ∀ ax, w.get ax = stepVal (c.ppm.get ax) (n.get ax)) : Steps64 c n w where
  near ax := by
    rw [h]
    exact (stepVal_near (hp ax) (hc.ppm_le ax) (hn ax)).1.trans (by norm_num)
  zero ax h0 := by
    rw [h]
    exact (stepVal_near (hp ax) (hc.ppm_le ax) (hn ax)).2 h0
  size := hn

/-- The difference of two such displacements is one, too. -/
theorem steps_sub (hc : SaneCfg c) (hp : ∀ ax, 1 ≤ c.ppm.get ax) {n m : V4 ℤ} {w u : V4 F64}
    (hn : ∀ ax, |(n.get ax : ℝ)| ≤ 2000 * c.ppm.get ax)
    (hm : ∀ ax, |(m.get ax : ℝ)| ≤ 8000 * c.ppm.get ax)
    (hw : ∀ ax, w.get ax = stepVal (c.ppm.get ax) (n.get ax))
    (hu : ∀ ax, u.get ax = stepVal (c.ppm.get ax) (m.get ax)) :
    ∃ k : V4 ℤ, Steps64 c k (Coord.sub w u) := by
  have hP : ∀ ax, (0 : ℝ) < c.ppm.get ax := fun ax => by exact_mod_cast hc.ppm_pos ax
  have e : ∀ ax, (⟨n.x - m.x, n.y - m.y, n.z - m.z, n.e - m.e⟩ : V4 ℤ).get ax = n.get ax - m.get ax :=
    fun ax => by cases ax <;> rfl
  have es : ∀ ax, (Coord.sub w u).get ax = PyNum.round10 (w.get ax -ₚ u.get ax) :=
    fun ax => by cases ax <;> rfl
  refine ⟨⟨n.x - m.x, n.y - m.y, n.z - m.z, n.e - m.e⟩, fun ax => ?_, fun ax h0 => ?_, fun ax => ?_⟩
  · have hn' : |(n.get ax : ℝ)| ≤ 10 ^ 4 * c.ppm.get ax :=
      (hn ax).trans (mul_le_mul_of_nonneg_right (by norm_num) (hP ax).le)
    have hm' : |(m.get ax : ℝ)| ≤ 10 ^ 4 * c.ppm.get ax :=
      (hm ax).trans (mul_le_mul_of_nonneg_right (by norm_num) (hP ax).le)
    have a1 := (stepVal_near (hp ax) (hc.ppm_le ax) hn').1
    have a2 := (stepVal_near (hp ax) (hc.ppm_le ax) hm').1
    rw [← hw] at a1
    rw [← hu] at a2
    have s1 : |(n.get ax : ℝ) / c.ppm.get ax| ≤ 2000 := by
      rw [abs_div, abs_of_pos (hP ax), div_le_iff₀ (hP ax)]; exact hn ax
    have s2 : |(m.get ax : ℝ) / c.ppm.get ax| ≤ 8000 := by
      rw [abs_div, abs_of_pos (hP ax), div_le_iff₀ (hP ax)]; exact hm ax
    rw [e, es]
    have h1 := r10_near3 (w.get ax -ₚ u.get ax)
    have h2 := fl_near3 ((w.get ax).1 - (u.get ax).1)
    rw [val_sub] at h1
    push_cast
    rw [sub_div]
    generalize (PyNum.round10 (w.get ax -ₚ u.get ax)).1 = Y at *
    generalize (w.get ax).1 = W at *
    generalize (u.get ax).1 = U at *
    generalize (n.get ax : ℝ) / c.ppm.get ax = N at *
    generalize (m.get ax : ℝ) / c.ppm.get ax = K at *
    have hD : |W - U| ≤ 10001 := by
      rw [abs_le] at *
      norm_num at *
      constructor <;> linarith
    have hF : |fl (W - U)| ≤ 10002 := by
      have := abs_sub_abs_le_abs_sub (fl (W - U)) (W - U)
      norm_num at *
      linarith
    have h2' : |fl (W - U) - (W - U)| ≤ 2 / 10 ^ 12 := h2.trans (by norm_num at *; linarith)
    have h1' : |Y - fl (W - U)| ≤ 53 / 10 ^ 12 := h1.trans (by norm_num at *; linarith)
    rw [abs_le] at *
    norm_num at *
    constructor <;> linarith
  · rw [es]
    rw [e] at h0
    refine r10_zero ?_
    have : n.get ax = m.get ax := by omega
    rw [val_sub, hw, hu, this, sub_self, fl_zero]
  · rw [e]
    push_cast
    have := abs_sub (n.get ax : ℝ) (m.get ax : ℝ)
    have := hn ax
    have := hm ax
    linarith

/-! ### The point on the circle -/

theorem sqrt_hi {x y : ℝ} (hy : 0 ≤ y) (h : x ≤ y ^ 2) : fl (√x) ≤ y * (1 + 112 / 10 ^ 18) := by
  have h1 : √x ≤ y := Real.sqrt_le_iff.2 ⟨hy, h⟩
  exact (fl_mono h1).trans (fl_hi3 hy)

theorem abs_copysign (m s : F64) : |(copysign m s).1| = |m.1| := by
  unfold copysign
  split
  · rw [val_neg, abs_neg]
  · rfl

theorem abs_add64 (a b : F64) : |(a +ₚ b).1| ≤ (|a.1| + |b.1|) * (1 + 1 / 10 ^ 6) := by
  rw [val_add]
  have h1 := fl_near3 (a.1 + b.1)
  have h2 := abs_sub_abs_le_abs_sub (fl (a.1 + b.1)) (a.1 + b.1)
  have h3 := abs_add_le a.1 b.1
  have h4 := abs_nonneg a.1
  have h5 := abs_nonneg b.1
  generalize |a.1| = A at *
  generalize |b.1| = B at *
  norm_num at *
  linarith

/-- What `adjustCircle` returns. -/
theorem adjust_inv {da db ra rb pa pb ma mb : F64} {rot : Rot} {x y : F64}
    (h : adjustCircle da db ra rb rot pa pb ma mb = .ok (x, y)) :
    (x = da ∧ y = db) ∨ ∃ r e root : F64, r = PyNum.sqrt (ra *ₚ ra +ₚ rb *ₚ rb) ∧
      (e = zeroF ∨ ∃ b, e = copysign (PyNum.sqrt (r *ₚ r /ₚ (PyNum.ofRat 1 +ₚ PyNum.abs b))) (da -ₚ ra)) ∧
      psqrt (r *ₚ r -ₚ e *ₚ e) = .ok root ∧ x = e +ₚ ra ∧ y = copysign root (db -ₚ rb) +ₚ rb := by
  unfold adjustCircle at h
  generalize hrd : (PyNum.sqrt (ra *ₚ ra +ₚ rb *ₚ rb) : F64) = r at h
  dsimp only at h
  cases h0 : (r =ₚ zeroF)
  · rw [h0] at h
    simp only [Bool.false_eq_true, if_false] at h
    cases h1 : (da =ₚ zeroF && db =ₚ zeroF)
    · rw [h1] at h
      simp only [Bool.false_eq_true, if_false] at h
      right
      have fin : ∀ e : F64, (do
          let root ← psqrt (r *ₚ r -ₚ e *ₚ e)
          let __x ← pure (e +ₚ ra, copysign root (db -ₚ rb) +ₚ rb, quarter e (copysign root (db -ₚ rb)))
          fitLoop rot __x.2.2 pa pb ra rb r ma mb 4 (quarter (PyNum.neg ra) (PyNum.neg rb))
            (quarter (PyNum.neg ra) (PyNum.neg rb))
          pure (__x.1, __x.2.1) : Except PyErr (F64 × F64)) = .ok (x, y) →
          ∃ root, psqrt (r *ₚ r -ₚ e *ₚ e) = .ok root ∧ x = e +ₚ ra ∧
            y = copysign root (db -ₚ rb) +ₚ rb := by
        intro e h
        obtain ⟨root, k1, h⟩ := bindE_ok h
        obtain ⟨q, k2, h⟩ := bindE_ok h
        obtain ⟨_, -, h⟩ := bindE_ok h
        cases k2
        cases h
        exact ⟨root, k1, rfl, rfl⟩
      cases h2 : (da -ₚ ra =ₚ zeroF)
      · rw [h2] at h
        simp only [Bool.false_eq_true, if_false] at h
        obtain ⟨b, -, h⟩ := bindE_ok h
        obtain ⟨e, k, h⟩ := bindE_ok h
        cases k
        obtain ⟨root, k1, k2, k3⟩ := fin _ h
        exact ⟨r, _, root, rfl, .inr ⟨b, rfl⟩, k1, k2, k3⟩
      · rw [h2] at h
        simp only [if_true] at h
        obtain ⟨e, k, h⟩ := bindE_ok h
        cases k
        obtain ⟨root, k1, k2, k3⟩ := fin _ h
        exact ⟨r, _, root, rfl, .inl rfl, k1, k2, k3⟩
    · rw [h1] at h
      simp only [if_true] at h
      obtain ⟨q, k2, h⟩ := bindE_ok h
      cases k2
      obtain ⟨_, -, h⟩ := bindE_ok h
      cases h
      exact .inl ⟨rfl, rfl⟩
  · rw [h0] at h
    cases h

/-- The point on the circle is not farther from the start than the circle allows. -/
theorem adjust_bound {da db ra rb pa pb ma mb : F64} {rot : Rot} {x y : F64} {R : ℝ}
    (hR : 0 ≤ R) (h1 : |ra.1| ≤ R) (h2 : |rb.1| ≤ R)
    (h : adjustCircle da db ra rb rot pa pb ma mb = .ok (x, y)) :
    (x = da ∧ y = db) ∨ (|x.1| ≤ 3 * R ∧ |y.1| ≤ 3 * R) := by
  rcases adjust_inv h with h | ⟨r, e, root, hrd, he', k3, rfl, rfl⟩
  · exact .inl h
  right
  have sq : ∀ {z : ℝ}, |z| ≤ R → z * z ≤ R ^ 2 := fun {z} hz => by
    rw [← pow_two, ← sq_abs]
    exact pow_le_pow_left₀ (abs_nonneg _) hz 2
  have hr0 : 0 ≤ r.1 := by rw [hrd, val_sqrt]; exact fl_nonneg (Real.sqrt_nonneg _)
  have hr : r.1 ≤ 3 / 2 * R * (1 + 112 / 10 ^ 18) := by
    rw [hrd, val_sqrt]
    refine sqrt_hi (by positivity) ?_
    rw [val_add, val_mul, val_mul]
    have a1 := fl_hi3 (mul_self_nonneg ra.1)
    have a2 := fl_hi3 (mul_self_nonneg rb.1)
    have a3 := fl_hi3 (add_nonneg (fl_nonneg (mul_self_nonneg ra.1)) (fl_nonneg (mul_self_nonneg rb.1)))
    have a4 := sq h1
    have a5 := sq h2
    have a6 := sq_nonneg R
    refine a3.trans ?_
    rw [mul_pow]
    generalize fl (ra.1 * ra.1) = A at *
    generalize fl (rb.1 * rb.1) = B at *
    norm_num at *
    linarith
  have hrr0 : 0 ≤ (r *ₚ r).1 := by rw [val_mul]; exact fl_nonneg (mul_self_nonneg _)
  have hrr : (r *ₚ r).1 ≤ (r.1 * (1 + 1 / 10 ^ 6)) ^ 2 := by
    rw [val_mul]
    have := fl_hi3 (mul_self_nonneg r.1)
    have := mul_self_nonneg r.1
    norm_num at *
    nlinarith
  have fin : ∀ {e q : F64}, |e.1| ≤ r.1 * (1 + 1 / 10 ^ 5) → |q.1| ≤ R → |(e +ₚ q).1| ≤ 3 * R := by
    intro e q h3 h4
    have h5 := abs_add64 e q
    generalize |(e +ₚ q).1| = X at *
    norm_num at *
    linarith
  have he : |e.1| ≤ r.1 * (1 + 1 / 10 ^ 5) := by
    rcases he' with rfl | ⟨b, rfl⟩
    · rw [show (zeroF : F64).1 = 0 from val_zero, abs_zero]; positivity
    · rw [abs_copysign, val_sqrt, abs_of_nonneg (fl_nonneg (Real.sqrt_nonneg _))]
      have hone : 1 ≤ (PyNum.ofRat 1 +ₚ PyNum.abs b : F64).1 := by
        rw [val_add, val_ofRat, Rat.cast_one, fl_one]
        have : (1 : ℝ) ≤ 1 + (PyNum.abs b).1 := by
          rw [val_abs]; have := abs_nonneg b.1; linarith
        calc (1 : ℝ) = fl 1 := fl_one.symm
          _ ≤ _ := fl_mono this
      have hd : (r *ₚ r /ₚ (PyNum.ofRat 1 +ₚ PyNum.abs b) : F64).1 ≤ (r.1 * (1 + 2 / 10 ^ 6)) ^ 2 := by
        rw [val_div]
        have d1 : (r *ₚ r).1 / (PyNum.ofRat 1 +ₚ PyNum.abs b : F64).1 ≤ (r *ₚ r).1 :=
          div_le_self hrr0 hone
        refine (fl_mono d1).trans ((fl_hi3 hrr0).trans ?_)
        have := sq_nonneg r.1
        rw [mul_pow] at *
        norm_num at *
        linarith
      refine (sqrt_hi (by positivity) hd).trans ?_
      norm_num
      linarith
  have hq : |root.1| ≤ r.1 * (1 + 1 / 10 ^ 5) := by
      unfold psqrt at k3
      split at k3
      · cases k3
      · cases k3
        rw [val_sqrt, abs_of_nonneg (fl_nonneg (Real.sqrt_nonneg _))]
        have hd : (r *ₚ r -ₚ e *ₚ e : F64).1 ≤ (r.1 * (1 + 2 / 10 ^ 6)) ^ 2 := by
          rw [val_sub]
          have d1 : (r *ₚ r).1 - (e *ₚ e).1 ≤ (r *ₚ r).1 := by
            have : 0 ≤ (e *ₚ e).1 := by rw [val_mul]; exact fl_nonneg (mul_self_nonneg _)
            linarith
          refine (fl_mono d1).trans ((fl_hi3 hrr0).trans ?_)
          have := sq_nonneg r.1
          rw [mul_pow] at *
          norm_num at *
          linarith
        refine (sqrt_hi (by positivity) hd).trans ?_
        norm_num
        linarith
  exact ⟨fin he h1, fin (by rw [abs_copysign]; exact hq) h2⟩

/-- The same for each axis. -/
theorem circleEnd_bound {plane : Plane} {delta radius pos ce : V4 F64} {rot : Rot} {R : ℝ}
    (hR : 0 ≤ R) (hr : ∀ ax, |(radius.get ax).1| ≤ R)
    (h : circleEnd c plane delta radius pos rot = .ok ce) (ax : Axis) :
    |(ce.get ax).1| ≤ max |(delta.get ax).1| (3 * R) := by
  obtain ⟨⟨pa, pb, ma, mb, h1⟩, h2, h3⟩ := circleEnd_adjust64 h
  have key : |(ce.get (axisA plane)).1| ≤ max |(delta.get (axisA plane)).1| (3 * R) ∧
      |(ce.get (axisB plane)).1| ≤ max |(delta.get (axisB plane)).1| (3 * R) := by
    rcases adjust_bound hR (hr _) (hr _) h1 with ⟨k1, k2⟩ | ⟨k1, k2⟩
    · rw [k1, k2]; exact ⟨le_max_left _ _, le_max_left _ _⟩
    · exact ⟨k1.trans (le_max_right _ _), k2.trans (le_max_right _ _)⟩
  obtain ⟨k1, k2⟩ := key
  have k3 : |(ce.get (axis3 plane)).1| ≤ max |(delta.get (axis3 plane)).1| (3 * R) := by
    rw [h2]; exact le_max_left _ _
  have k4 : |(ce.get .e).1| ≤ max |(delta.get .e).1| (3 * R) := by
    rw [h3]; exact le_max_left _ _
  cases plane <;> cases ax <;> assumption

/-! ### What does not fail with the message of the velocity check -/

/-- The message of the velocity check. -/
def tooFast : PyErr := .gmachine "out of maximum speed"

/-- It does not fail with it. -/
def Calm {α : Type} (x : Except PyErr α) : Prop := x ≠ .error tooFast

theorem calm_ok {α : Type} {a : α} : Calm (.ok a) := by intro h; cases h

theorem calm_bind {α β : Type} {x : Except PyErr α} {f : α → Except PyErr β} (hx : Calm x)
    (hf : ∀ a, x = .ok a → Calm (f a)) : Calm (x >>= f) := by
  rcases x with e | a
  · intro h
    apply hx
    cases h
    rfl
  · exact hf a rfl

theorem calm_pdiv (a b : F64) : Calm (pdiv a b) := by
  unfold pdiv Calm tooFast
  split <;> simp

theorem calm_psqrt (a : F64) : Calm (psqrt a) := by
  unfold psqrt Calm tooFast
  split <;> simp

theorem calm_pacos (a : F64) : Calm (pacos a) := by
  unfold pacos Calm tooFast
  split <;> simp

theorem calm_angle (a b : F64) : Calm (angle a b) := by
  unfold angle
  exact calm_bind (calm_pdiv _ _) fun _ _ => calm_bind (calm_pacos _) fun _ _ => calm_ok

theorem calm_adjustAxis (k v : F64) (m : ℚ) : Calm (adjustAxis k v m) := by
  unfold adjustAxis
  split
  · exact calm_bind (calm_pdiv _ _) fun _ _ => calm_ok
  · exact calm_ok

theorem calm_adjustVelocity (v : V4 F64) : Calm (adjustVelocity c v) := by
  unfold adjustVelocity
  split
  · exact calm_ok
  · exact calm_bind (calm_adjustAxis _ _ _) fun _ _ => calm_bind (calm_adjustAxis _ _ _) fun _ _ =>
      calm_bind (calm_adjustAxis _ _ _) fun _ _ => calm_bind (calm_adjustAxis _ _ _) fun _ _ => calm_ok

theorem calm_new (delta radius : V4 F64) (plane : Plane) (rot : Rot) (v : F64) :
    Calm (CircGen.new c delta radius plane rot v) := by
  rw [new_eq]
  split
  · unfold Calm tooFast; simp
  · refine calm_bind (calm_angle _ _) fun φs _ => calm_bind (calm_angle _ _) fun φe _ =>
      calm_bind (calm_adjustVelocity _) fun maxV _ => calm_bind (calm_pdiv _ _) fun q _ => ?_
    unfold arcTimes
    dsimp only
    split
    · exact calm_ok
    · split
      · exact calm_bind (calm_pdiv _ _) fun _ _ => calm_ok
      · exact calm_bind (calm_pdiv _ _) fun _ _ => calm_ok

theorem calm_fit {rot : Rot} {eq : ℤ} {pa pb ra rb r ma mb : F64} :
    ∀ (n : ℕ) (q pq : ℤ), Calm (fitLoop rot eq pa pb ra rb r ma mb n q pq)
  | 0, _, _ => calm_ok
  | n + 1, q, pq => by
    unfold fitLoop
    dsimp only
    generalize (if (match rot with | .cw => q - 1 | .ccw => q + 1) ≤ 0 then (4 : ℤ) else _) = q'
    split
    · exact calm_ok
    · generalize (if (pq = 1 ∧ q' = 4) ∨ (pq = 4 ∧ q' = 1) then ma <ₚ pa +ₚ ra +ₚ r else _) = b
      cases b
      · exact calm_fit n q' q'
      · unfold Calm tooFast; simp

theorem calm_adjust (da db ra rb : F64) (rot : Rot) (pa pb ma mb : F64) :
    Calm (adjustCircle da db ra rb rot pa pb ma mb) := by
  unfold adjustCircle
  dsimp only
  split
  · unfold Calm tooFast; intro h; simp [throw, throwThe, MonadExceptOf.throw, bind, Except.bind] at h
  · split
    · exact calm_bind calm_ok fun _ _ => calm_bind (calm_fit _ _ _) fun _ _ => calm_ok
    · split
      · exact calm_bind calm_ok fun _ _ => calm_bind (calm_psqrt _) fun _ _ => calm_bind calm_ok
          fun _ _ => calm_bind (calm_fit _ _ _) fun _ _ => calm_ok
      · exact calm_bind (calm_pdiv _ _) fun _ _ => calm_bind calm_ok fun _ _ => calm_bind (calm_psqrt _)
          fun _ _ => calm_bind calm_ok fun _ _ => calm_bind (calm_fit _ _ _) fun _ _ => calm_ok

theorem calm_circleEnd (plane : Plane) (delta radius pos : V4 F64) (rot : Rot) :
    Calm (circleEnd c plane delta radius pos rot) := by
  unfold circleEnd
  cases plane <;> exact calm_bind (calm_adjust _ _ _ _ _ _ _ _ _) fun _ _ => calm_ok

theorem calm_checkDelta (p d : V4 F64) : Calm (checkDelta c p d) := by
  unfold checkDelta Calm tooFast
  split <;> simp

theorem calm_get (g : GCode) (k : Char) (d m : F64) : Calm (g.get k d m) := by
  unfold GCode.get Calm tooFast
  split
  · simp
  · split <;> simp

theorem calm_radius (g : GCode) (d : V4 F64) (m : F64) : Calm (g.radius d m) := by
  unfold GCode.radius
  exact calm_bind (calm_get _ _ _ _) fun _ _ => calm_bind (calm_get _ _ _ _) fun _ _ =>
    calm_bind (calm_get _ _ _ _) fun _ _ => calm_ok

/-! ### The moves -/

/-- The rounded move passes the check of its speed. -/
theorem line_accepted64 (hc : SaneCfg c) (hl : DecimalLimits c) (hf : ∀ ax, c.maxVel.get ax ≤ 60000)
    (ha : c.autoVel = true) {n : V4 ℤ} {w : V4 F64} {v : F64} (hs : Steps64 c n w)
    (hv : 1 ≤ v.1) (hz : Coord.isZero w = false) :
    ∃ lg, LinearGen.new c w v = .ok lg ∧ checkVelocity c (Gen.linear lg).maxVelocity = .ok () := by
  have hne : ∃ ax, n.get ax ≠ 0 := by
    by_contra hcon
    push Not at hcon
    have : Coord.isZero w = true := (isZero64 w).2 fun ax => ext64 (by
      rw [hs.zero ax (hcon ax), val_zero])
    rw [hz] at this
    cases this
  obtain ⟨l, hl', -⟩ := linear64_new hc hs hne hv
  exact ⟨l, hl', checkVelocity64 hc hl hf (limit64 hc hl hf ha hs hne hv hl')⟩

/-- A straight move is not refused for its speed. -/
theorem linear_calm64 (hc : SaneCfg c) (hl : DecimalLimits c) (hf : ∀ ax, c.maxVel.get ax ≤ 60000)
    (ha : c.autoVel = true) (hp : ∀ ax, 1 ≤ c.ppm.get ax)
    (henv : ∀ tr, env.move tr ≠ some tooFast) {d : V4 F64} (hd : ∀ ax, |(d.get ax).1| ≤ 9999)
    {v : F64} (hv : 1 ≤ v.1) (s : MState F64) : Calm (moveLinear c env d v s).1 := by
  have hP : ∀ ax, (0 : ℝ) < c.ppm.get ax := fun ax => by exact_mod_cast hc.ppm_pos ax
  rcases moveLinear_cases (c := c) (env := env) d v s with ⟨-, k2⟩ | ⟨k0, e, k2, k3⟩ |
    ⟨_, lg, _, k1, _, ⟨e, k3, k2⟩ | ⟨_, k2⟩⟩
  · rw [k2]; exact calm_ok
  · rw [k2]
    obtain ⟨n, n1, -, n3⟩ := round_steps64 hc hp hd
    obtain ⟨lg, l1, l2⟩ := line_accepted64 hc hl hf ha (steps_of_val hc hp (fun ax => (n1 ax).trans
      (mul_le_mul_of_nonneg_right (by have := hd ax; norm_num; linarith) (hP ax).le)) n3) hv k0
    rcases k3 with k3 | k3 | ⟨lg', k3, k4⟩
    · rw [show (Except.error e : Except PyErr Unit) = checkDelta c s.pos (roundToSteps c d) from k3.symm]
      exact calm_checkDelta _ _
    · rw [l1] at k3; cases k3
    · rw [l1] at k3; cases k3
      rw [l2] at k4; cases k4
  · rw [k2]
    intro h
    cases h
    exact henv _ k3
  · rw [k2]; exact calm_ok

/-- Rounding to ten digits at most doubles a number. -/
theorem r10_double {a : F64} (h : 0 ≤ a.1) : (PyNum.round10 a).1 ≤ 21 / 10 * a.1 := by
  by_cases hs : a.1 < 1 / (2 * 10 ^ 10)
  · rw [val_round10, rnd_unique (n := 0), Int.cast_zero, zero_div, fl_zero]
    · linarith
    · rw [e10_val, Int.cast_zero, sub_zero, abs_of_nonneg (by positivity)]
      norm_num at *
      linarith
  · have h1 := (abs_le.1 (r10_near3 a)).2
    rw [abs_of_nonneg h] at h1
    norm_num at *
    linarith

/-- The speed of a rapid move is at least 1 mm/min. -/
theorem rapid_any64 (hc : SaneCfg c) (d : V4 F64) :
    ∃ v, rapidVelocity c d = .ok v ∧ 1 ≤ v.1 := by
  have one : ∀ {x : ℝ}, 1 ≤ x → 1 ≤ fl x := fun {x} h => by
    have := fl_mono h
    rwa [fl_one] at this
  have h0 : (1 : ℝ) ≤ (maxMaxVel c : F64).1 := by
    unfold maxMaxVel
    refine le_trans ?_ (pmax64_right _ _)
    rw [val_ofRat]
    have : (60 : ℝ) ≤ c.maxVel.e := by exact_mod_cast hc.maxVel .e
    exact one (by linarith)
  have step : ∀ {vl p : F64} {m : ℚ}, 1 ≤ vl.1 → p.1 ≤ 10 → 60 ≤ m → 1 ≤ (rapidAxis vl p m).1 := by
    intro vl p m hvl hp hm
    unfold rapidAxis
    split
    · rename_i h
      rw [lt64_iff, val_zero] at h
      dsimp only
      split
      · have hm' : (60 : ℝ) ≤ m := by exact_mod_cast hm
        have h1 : (60 : ℝ) ≤ fl m := le_fl_of_le fl_60 hm'
        have h2 : (1 : ℝ) ≤ fl m / p.1 := by rw [le_div_iff₀ h]; linarith
        have h3 : (1 : ℝ) ≤ (PyNum.ofRat m /ₚ p : F64).1 := by
          rw [val_div, val_ofRat]; exact one h2
        have h4 : (1 : ℤ) ≤ PyNum.truncI (PyNum.ofRat m /ₚ p : F64) := by
          change (1 : ℤ) ≤ if 0 ≤ (PyNum.ofRat m /ₚ p : F64).1 then ⌊(PyNum.ofRat m /ₚ p : F64).1⌋
            else ⌈(PyNum.ofRat m /ₚ p : F64).1⌉
          rw [if_pos (by linarith)]
          exact Int.le_floor.2 (by exact_mod_cast h3)
        rw [val_ofInt]
        refine one ?_
        exact_mod_cast h4
      · exact hvl
    · exact hvl
  unfold rapidVelocity
  dsimp only
  split
  · rename_i hl
    rw [lt64_iff, val_zero] at hl
    obtain ⟨p, hp, hpe⟩ := get_sdiv64 (v := Coord.abs d) hl.ne'
    rw [hp]
    have hr : ∀ ax, (p.get ax).1 ≤ 10 := by
      intro ax
      have habs : ∀ x : F64, 0 ≤ (PyNum.abs x).1 := fun x => by rw [val_abs]; exact abs_nonneg _
      have hlen : (PyNum.abs (d.get ax)).1 ≤ (Coord.length d).1 := by
        have h1 := length64 (v := ⟨PyNum.abs d.x, PyNum.abs d.y, PyNum.abs d.z, PyNum.abs d.e⟩)
          (fun ax => by cases ax <;> exact habs _) ax
        have e2 : ∀ x : F64, PyNum.abs x *ₚ PyNum.abs x = x *ₚ x := by
          intro x
          apply ext64
          rw [val_mul, val_mul, val_abs, abs_mul_abs_self]
        have e3 : Coord.length (⟨PyNum.abs d.x, PyNum.abs d.y, PyNum.abs d.z, PyNum.abs d.e⟩ : V4 F64) =
            Coord.length d := by
          unfold Coord.length
          simp only [e2]
        rw [e3] at h1
        cases ax <;> exact h1
      rw [hpe, get_abs64]
      have h1 := r10_double (habs (d.get ax))
      have h1' := r10_nonneg (habs (d.get ax))
      have h2 : (PyNum.round10 (PyNum.abs (d.get ax)) /ₚ Coord.length d).1 ≤ 22 / 10 := by
        rw [val_div]
        have k1 : (PyNum.round10 (PyNum.abs (d.get ax))).1 / (Coord.length d).1 ≤ 21 / 10 := by
          rw [div_le_iff₀ hl]; linarith
        have k2 := fl_hi3 (div_nonneg h1' hl.le)
        norm_num at *
        linarith
      have h3 : 0 ≤ (PyNum.round10 (PyNum.abs (d.get ax)) /ₚ Coord.length d).1 := by
        rw [val_div]; exact fl_nonneg (div_nonneg h1' hl.le)
      have h4 := r10_double h3
      linarith
    refine ⟨_, rfl, ?_⟩
    exact step (step (step (step h0 (hr .x) (hc.maxVel .x)) (hr .y)
      (hc.maxVel .y)) (hr .z) (hc.maxVel .z)) (hr .e) (hc.maxVel .e)
  · exact ⟨_, rfl, h0⟩

/-- A flat arc is not refused for its speed. -/
theorem arc_calm64 (hc : SaneCfg c) (hl : DecimalLimits c) (hf : ∀ ax, c.maxVel.get ax ≤ 60000)
    (ha : c.autoVel = true) (hp : ∀ ax, 1 ≤ c.ppm.get ax)
    (henv : ∀ tr, env.move tr ≠ some tooFast) {d r : V4 F64} (hd : ∀ ax, |(d.get ax).1| ≤ 1900)
    (hr : ∀ ax, |(r.get ax).1| ≤ 1900) {v : F64} (hv : 1 ≤ v.1) (rot : Rot) (s : MState F64)
    (h3 : (d.get (axis3 s.plane)).1 = 0) (he : d.e.1 = 0) :
    Calm (moveCircular c env d r v rot s).1 := by
  have hP : ∀ ax, (0 : ℝ) < c.ppm.get ax := fun ax => by exact_mod_cast hc.ppm_pos ax
  obtain ⟨n, n1, n2, n3⟩ := round_steps64 hc hp (fun ax => (hd ax).trans (by norm_num))
  obtain ⟨m, m1, m2, m3⟩ := round_steps64 hc hp (fun ax => (hr ax).trans (by norm_num))
  have big : ∀ {x : V4 F64} {k : V4 ℤ}, (∀ ax, |(x.get ax).1| ≤ 1900) →
      (∀ ax, |(k.get ax : ℝ)| ≤ (|(x.get ax).1| + 1) * c.ppm.get ax) →
      (∀ ax, (roundToSteps c x).get ax = stepVal (c.ppm.get ax) (k.get ax)) →
      ∀ ax, |((roundToSteps c x).get ax).1| ≤ 1902 := by
    intro x k h1 h2 h3 ax
    have a1 : |(k.get ax : ℝ)| ≤ 1901 * c.ppm.get ax :=
      (h2 ax).trans (mul_le_mul_of_nonneg_right (by have := h1 ax; linarith) (hP ax).le)
    have a2 := (stepVal_near (hp ax) (hc.ppm_le ax) (a1.trans
      (mul_le_mul_of_nonneg_right (by norm_num) (hP ax).le))).1
    have a3 : |(k.get ax : ℝ) / c.ppm.get ax| ≤ 1901 := by
      rw [abs_div, abs_of_pos (hP ax), div_le_iff₀ (hP ax)]; exact a1
    rw [h3]
    have a4 := abs_sub_abs_le_abs_sub (stepVal (c.ppm.get ax) (k.get ax)).1 (k.get ax / c.ppm.get ax)
    generalize |(stepVal (c.ppm.get ax) (k.get ax)).1| = A at *
    generalize |(stepVal (c.ppm.get ax) (k.get ax)).1 - k.get ax / c.ppm.get ax| = B at *
    norm_num at *
    linarith
  have bd := big hd n1 n3
  have br := big hr m1 m3
  have fin : ∀ {ce : V4 F64},
      circleEnd c s.plane (roundToSteps c d) (roundToSteps c r) s.pos rot = .ok ce →
      (∀ {g}, CircGen.new c (roundToSteps c ce) (roundToSteps c r) s.plane rot v = .ok g →
        checkVelocity c (Gen.circular g).maxVelocity = .ok ()) ∧
      Calm (extraLinear c (Coord.sub (roundToSteps c d) (roundToSteps c ce)) v) := by
    intro ce hce
    have bce : ∀ ax, |(ce.get ax).1| ≤ 5706 := fun ax => by
      refine (circleEnd_bound (by norm_num) br hce ax).trans (max_le ((bd ax).trans ?_) ?_) <;> norm_num
    obtain ⟨k, k1, k2, k3⟩ := round_steps64 hc hp (fun ax => (bce ax).trans (by norm_num))
    obtain ⟨-, e3, ee⟩ := circleEnd_adjust64 hce
    have hn' : ∀ ax, |(n.get ax : ℝ)| ≤ 2000 * c.ppm.get ax := fun ax => (n1 ax).trans
      (mul_le_mul_of_nonneg_right (by have := hd ax; linarith) (hP ax).le)
    have hk' : ∀ ax, |(k.get ax : ℝ)| ≤ 8000 * c.ppm.get ax := fun ax => (k1 ax).trans
      (mul_le_mul_of_nonneg_right (by have := bce ax; linarith) (hP ax).le)
    have zero : ∀ ax, (d.get ax).1 = 0 → ce.get ax = (roundToSteps c d).get ax →
        ((roundToSteps c ce).get ax).1 = 0 := by
      intro ax hz hx
      have l : ∀ {N : V4 ℤ}, N.get ax = 0 → (stepVal (c.ppm.get ax) (N.get ax)).1 = 0 := by
        intro N hN
        refine (stepVal_near (hp ax) (hc.ppm_le ax) ?_).2 hN
        rw [hN]
        have := hP ax
        simp only [Int.cast_zero, abs_zero]
        positivity
      rw [k3]
      refine l (k2 ax ?_)
      rw [hx, n3]
      exact l (n2 ax hz)
    refine ⟨fun {g} hg => arcVelocity64 hc hl hf (arcLimit64 hc hl hf ha (zero _ h3 e3)
      (zero .e he ee) (by linarith) hg), ?_⟩
    obtain ⟨q, hq⟩ := steps_sub hc hp hn' hk' n3 k3
    unfold extraLinear
    cases hz : Coord.isZero (Coord.sub (roundToSteps c d) (roundToSteps c ce))
    · obtain ⟨lg, l1, l2⟩ := line_accepted64 hc hl hf ha hq hv hz
      have okb : ∀ {α β : Type} (x : α) (f : α → Except PyErr β), (Except.ok x >>= f) = f x :=
        fun _ _ => rfl
      simp only [Bool.not_false, if_true]
      rw [l1, okb, l2, okb]
      exact calm_ok
    · exact calm_ok
  rcases moveCircular_cases (c := c) (env := env) d r v rot s with ⟨e, h1, h2⟩ |
    ⟨ce, g, lg, -, -, -, -, -, h6⟩
  · rw [h1]
    rcases h2 with h2 | h2 | ⟨ce, h2, h4 | ⟨g, h4, h5 | h5⟩⟩
    · intro h; cases h; exact calm_checkDelta _ _ h2
    · intro h; cases h; exact calm_circleEnd _ _ _ _ _ h2
    · intro h; cases h; exact calm_new _ _ _ _ _ h4
    · rw [(fin h2).1 h4] at h5; cases h5
    · intro h; cases h; exact (fin h2).2 h5
  · rw [h6]
    have hm : ∀ g' (s : MState F64), Calm (halMove env g' s).1 := by
      intro g' s
      rcases h4 : env.move (.move g' :: s.trace) with _ | e
      · have : halMove env g' s = (.ok (), { s with trace := .move g' :: s.trace }) := by
          simp [halMove, M.bind_run, h4]
        rw [this]
        exact calm_ok
      · have : halMove env g' s = (.error e, { s with trace := .move g' :: s.trace }) := by
          simp [halMove, M.bind_run, h4]
        rw [this]
        intro h
        cases h
        exact henv _ h4
    have hb : ∀ {α β : Type} (x : M F64 α) (f : α → M F64 β) (s : MState F64), Calm (x s).1 →
        (∀ a s', Calm (f a s').1) → Calm ((x >>= f) s).1 := by
      intro α β x f s h1 h2
      rcases hx : x s with ⟨e | a, s'⟩
      · rw [M.bind_error hx]
        rw [hx] at h1
        intro h
        cases h
        exact h1 rfl
      · rw [M.bind_ok hx]; exact h2 a s'
    refine hb _ _ _ (hm _ _) fun _ s1 => hb _ _ _ ?_ fun _ _ => calm_ok
    cases lg with
    | none => exact calm_ok
    | some l => exact hm _ _

end PyCNC
