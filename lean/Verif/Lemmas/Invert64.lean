import Verif.Lemmas.Gaps64

/-!
# Where a computed time lies on the ramp

The accelerated time is a square root near the ends of a move, so small errors of its argument are
large errors of the time.  The inverse function is well conditioned: the place that belongs to a
computed time is the place it was computed for, up to a fraction of a microsecond.
-/

set_option linter.unusedSectionVars false

namespace PyCNC

open Spec

variable [PyRound]

omit [PyRound] in
theorem travel_early {k A B s : ℝ} (hB : 0 ≤ B) (hs : s ≤ A) : travel k A B s = s ^ 2 / k := by
  unfold travel
  rw [pos_of_nonpos (by linarith), pos_of_nonpos (by linarith)]
  ring

omit [PyRound] in
theorem travel_middle {k A B y : ℝ} (hk : 0 < k) (h : k = 2 * A ∨ B = 0) (h1 : A ≤ y)
    (h2 : y ≤ A + B) : travel k A B y = A * A / k + (y - A) := by
  unfold travel
  rw [pos_of_nonneg (by linarith), pos_of_nonpos (by linarith)]
  rcases h with rfl | rfl
  · have : A ≠ 0 := by rintro rfl; simp at hk
    field_simp; ring
  · obtain rfl : y = A := by linarith
    field_simp; ring

omit [PyRound] in
theorem travel_brake {k A B d : ℝ} (hk : 0 < k) (h : k = 2 * A ∨ B = 0) (hA : 0 ≤ A) (hB : 0 ≤ B)
    (hd : d ≤ A) : travel k A B (2 * A + B - d) = 2 * (A * A / k) + B - d ^ 2 / k := by
  unfold travel
  rw [pos_of_nonneg (by linarith), pos_of_nonneg (by linarith)]
  rcases h with rfl | rfl
  · have : A ≠ 0 := by rintro rfl; simp at hk
    field_simp; ring
  · field_simp; ring

omit [PyRound] in
theorem travel_mono {k A B s t : ℝ} (hk : 0 < k) (hA : 0 ≤ A) (hB : 0 ≤ B) (hs : 0 ≤ s) (hst : s ≤ t)
    (ht : t ≤ 2 * A + B) : travel k A B s ≤ travel k A B t := by
  unfold travel
  refine div_le_div_of_nonneg_right ?_ hk.le
  rcases le_total s A with a | a
  · rw [pos_of_nonpos (show s - A ≤ 0 by linarith), pos_of_nonpos (show s - A - B ≤ 0 by linarith)]
    rcases le_total t A with b | b
    · rw [pos_of_nonpos (show t - A ≤ 0 by linarith), pos_of_nonpos (show t - A - B ≤ 0 by linarith)]
      nlinarith
    · rw [pos_of_nonneg (show 0 ≤ t - A by linarith)]
      rcases le_total t (A + B) with e | e
      · rw [pos_of_nonpos (show t - A - B ≤ 0 by linarith)]; nlinarith
      · rw [pos_of_nonneg (show 0 ≤ t - A - B by linarith)]
        nlinarith [mul_nonneg hA hB, mul_nonneg (show 0 ≤ t - A - B by linarith)
          (show 0 ≤ 2 * A + B - t by linarith)]
  · rw [pos_of_nonneg (show 0 ≤ s - A by linarith), pos_of_nonneg (show 0 ≤ t - A by linarith)]
    rcases le_total s (A + B) with b | b
    · rw [pos_of_nonpos (show s - A - B ≤ 0 by linarith)]
      rcases le_total t (A + B) with e | e
      · rw [pos_of_nonpos (show t - A - B ≤ 0 by linarith)]; nlinarith
      · rw [pos_of_nonneg (show 0 ≤ t - A - B by linarith)]
        nlinarith [mul_nonneg (show 0 ≤ t - A - B by linarith)
          (show 0 ≤ 2 * A + B - t by linarith)]
    · rw [pos_of_nonneg (show 0 ≤ s - A - B by linarith), pos_of_nonneg (show 0 ≤ t - A - B by linarith)]
      nlinarith [mul_nonneg (show 0 ≤ t - s by linarith)
          (show 0 ≤ 2 * A + B - t by linarith), mul_nonneg (show 0 ≤ t - s by linarith)
          (show 0 ≤ 2 * A + B - s by linarith)]

/-- The square of a computed square root. -/
theorem sq_fl_sqrt {x : ℝ} (hx : 0 ≤ x) : |(fl √x) ^ 2 - x| ≤ x * (3 / 10 ^ 15) := by
  have h1 := fl_lo (Real.sqrt_nonneg x)
  have h2 := fl_hi (Real.sqrt_nonneg x)
  have h3 := Real.sq_sqrt hx
  have h0 := Real.sqrt_nonneg x
  have hn := fl_nonneg h0
  generalize fl √x = y at *
  generalize √x = s at *
  have a1 : y ^ 2 ≤ (s * (1 + 1 / 10 ^ 15)) ^ 2 := pow_le_pow_left₀ hn (by linarith) 2
  have a2 : (s * (1 - 1 / 10 ^ 15)) ^ 2 ≤ y ^ 2 :=
    pow_le_pow_left₀ (mul_nonneg h0 (by norm_num)) (by linarith) 2
  rw [mul_pow, h3] at a1 a2
  generalize y ^ 2 = z at *
  rw [abs_le]
  norm_num at *
  constructor <;> linarith

/-- The early part. -/
theorem inv_early {p k : ℝ} (hk : 0 < k) (hp : 0 ≤ p) (hp1 : p ≤ 2 * 10 ^ 6) :
    |p - (fl √(fl (p * k))) ^ 2 / k| ≤ 1 / 10 ^ 7 := by
  have hx : 0 ≤ p * k := mul_nonneg hp hk.le
  have h1 := sq_fl_sqrt (fl_nonneg hx)
  have h2 := fl_near2 hx
  generalize fl (p * k) = X at *
  generalize (fl √X) ^ 2 = Y at *
  have e : p - Y / k = (p * k - Y) / k := by field_simp
  rw [e, abs_div, abs_of_pos hk, div_le_iff₀ hk]
  have hxk : p * k ≤ 2 * 10 ^ 6 * k := mul_le_mul_of_nonneg_right hp1 hk.le
  generalize p * k = Z at *
  obtain ⟨a1, a2⟩ := abs_le.1 h1
  obtain ⟨b1, b2⟩ := abs_le.1 h2
  rw [abs_le]
  clear h1 h2
  norm_num at *
  constructor <;> linarith

/-- The square of the computed time that is left. -/
theorem inv_brake {k A b d : ℝ} (hk : 0 < k) (hAk : A * A ≤ 2002 * k) (hb0 : 0 ≤ b)
    (hb1 : b ≤ 3 * 10 ^ 6)
    (hd : d = if 0 < fl (fl (A * A) - fl (k * b)) then fl √(fl (fl (A * A) - fl (k * b))) else 0) :
    A * A - k * b - k / 10 ^ 8 ≤ d ^ 2 ∧ (d = 0 ∨ d ^ 2 ≤ A * A - k * b + k / 10 ^ 8) := by
  have hAA0 : 0 ≤ A * A := mul_self_nonneg A
  have hkb0 : 0 ≤ k * b := mul_nonneg hk.le hb0
  have hkb : k * b ≤ 3 * 10 ^ 6 * k := by
    rw [mul_comm]; exact mul_le_mul_of_nonneg_right hb1 hk.le
  have f1 := fl_near2 hAA0
  have f2 := fl_near2 hkb0
  have f3 := fl_near (fl (A * A) - fl (k * b))
  generalize fl (A * A) = X at *
  generalize fl (k * b) = Y at *
  generalize A * A = x at *
  generalize k * b = y at *
  obtain ⟨a1, a2⟩ := abs_le.1 f1
  obtain ⟨b1, b2⟩ := abs_le.1 f2
  have u : |X - Y| ≤ 301 * 10 ^ 4 * k := by
    rw [abs_le]
    constructor <;> norm_num at * <;> linarith
  obtain ⟨c1, c2⟩ := abs_le.1 (f3.trans (mul_le_mul_of_nonneg_right u (by norm_num)))
  generalize fl (X - Y) = D at *
  have hD : |D - (x - y)| ≤ k * (5 / 10 ^ 9) := by
    rw [abs_le]
    clear u f1 f2 f3
    constructor <;> norm_num at * <;> linarith
  obtain ⟨d1, d2⟩ := abs_le.1 hD
  rw [hd]
  split
  · next h0 =>
    have h1 := sq_fl_sqrt h0.le
    obtain ⟨e1, e2⟩ := abs_le.1 h1
    have hDk : D ≤ 2003 * k := by
      clear u f1 f2 f3
      norm_num at *
      linarith
    generalize (fl √D) ^ 2 = z at *
    clear u f1 f2 f3 h1 hD hd
    refine ⟨?_, .inr ?_⟩ <;> norm_num at * <;> linarith
  · next h0 =>
    refine ⟨?_, .inl rfl⟩
    clear u f1 f2 f3 hD hd
    norm_num at *
    linarith

/-- The place that belongs to a computed time is the place it was computed for. -/
theorem travel64 {c : Cfg} {g : Gen F64} {p r : F64} (hk0 : 0 < (g.twoVmaxPerA c).1)
    (hA : 0 ≤ g.accT.1 ∧ g.accT.1 ≤ 1001)
    (hB : 0 ≤ g.linT.1 ∧ g.linT.1 ≤ 4 * 10 ^ 6) (hAk : g.accT.1 ≤ 2 * (g.twoVmaxPerA c).1)
    (hs : (g.twoVmaxPerA c).1 = 2 * g.accT.1 ∨ g.linT.1 = 0)
    (hp : 0 ≤ p.1 ∧ p.1 ≤ 2 * 10 ^ 6)
    (he : p.1 ≤ 2 * (g.accT.1 * g.accT.1 / (g.twoVmaxPerA c).1) + g.linT.1 + 1 / 10 ^ 7)
    (h : g.toAccelerated c p = .ok r) :
    ∃ σ, 0 ≤ σ ∧ σ ≤ 2 * g.accT.1 + g.linT.1 ∧ |σ - r.1| ≤ 5 / 10 ^ 8 ∧
      |p.1 - travel (g.twoVmaxPerA c).1 g.accT.1 g.linT.1 σ| ≤ 1 / 10 ^ 7 := by
  obtain ⟨hA0, hA1⟩ := hA
  obtain ⟨hB0, hB1⟩ := hB
  obtain ⟨hp0, hp1⟩ := hp
  unfold Gen.toAccelerated at h
  generalize g.twoVmaxPerA c = k at *
  generalize g.accT = A at *
  generalize g.linT = B at *
  simp only at h
  have hx : 0 ≤ p.1 * k.1 := mul_nonneg hp0 hk0.le
  rw [psqrt64_ok (fl_nonneg hx)] at h
  have hAA := fl_sqrt_sq A.2
  rw [abs_of_nonneg hA0] at hAA
  have hq1 : A.1 * A.1 / k.1 ≤ 2002 := by
    rw [div_le_iff₀ hk0]; nlinarith
  have hq0 : 0 ≤ A.1 * A.1 / k.1 := div_nonneg (mul_self_nonneg _) hk0.le
  by_cases h2 : (PyNum.sqrt (p *ₚ k) ≤ₚ A) = true
  · simp only [bind, Except.bind, if_pos h2] at h
    cases h
    rw [le64_iff, val_sqrt, val_mul] at h2
    rw [val_sqrt, val_mul]
    have h0 : 0 ≤ fl √(fl (p.1 * k.1)) := fl_sqrt_nonneg _
    refine ⟨_, h0, by linarith, by rw [sub_self, abs_zero]; norm_num, ?_⟩
    rw [travel_early hB0 h2]
    exact inv_early hk0 hp0 hp1
  · rw [pdiv64_ok hk0.ne'] at h
    simp only [bind, Except.bind, if_neg h2] at h
    rw [le64_iff, val_sqrt, val_mul, not_le] at h2
    have h3 : A.1 * A.1 < p.1 * k.1 := by
      by_contra hcon
      have : fl √(fl (p.1 * k.1)) ≤ A.1 := by
        conv_rhs => rw [← hAA]
        exact fl_mono (Real.sqrt_le_sqrt (fl_mono (not_lt.1 hcon)))
      linarith
    have h3' : A.1 * A.1 / k.1 < p.1 := by rwa [div_lt_iff₀ hk0]
    have hQ : |((A *ₚ A) /ₚ k).1 - A.1 * A.1 / k.1| ≤ A.1 * A.1 / k.1 * (3 / 10 ^ 15) := by
      rw [val_div, val_mul]
      have f1 := fl_near2 (mul_self_nonneg A.1)
      have f0 := fl_nonneg (mul_self_nonneg A.1)
      have f2 := fl_near2 (div_nonneg f0 hk0.le)
      have f3 : |fl (A.1 * A.1) / k.1 - A.1 * A.1 / k.1| ≤ A.1 * A.1 / k.1 * (2 / 10 ^ 16) := by
        rw [← sub_div, abs_div, abs_of_pos hk0, div_mul_eq_mul_div]
        exact div_le_div_of_nonneg_right f1 hk0.le
      generalize fl (A.1 * A.1) / k.1 = X at *
      generalize fl X = Y at *
      generalize A.1 * A.1 / k.1 = Z at *
      obtain ⟨a1, a2⟩ := abs_le.1 f2
      obtain ⟨b1, b2⟩ := abs_le.1 f3
      rw [abs_le]
      clear f1 f2 f3
      constructor <;> norm_num at * <;> linarith
    obtain ⟨r1, r2⟩ := rest64 hA0 hA1 hB0 hB1 hp0 hp1 hq0 hq1 hQ
      (t := (A +ₚ p -ₚ (A *ₚ A) /ₚ k).1) (b := (A +ₚ p -ₚ (A *ₚ A) /ₚ k -ₚ A -ₚ B).1) rfl rfl
    generalize A +ₚ p -ₚ (A *ₚ A) /ₚ k = t at *
    generalize t -ₚ A -ₚ B = b at *
    obtain ⟨t1, t2⟩ := abs_le.1 r1
    obtain ⟨s1, s2⟩ := abs_le.1 r2
    by_cases h5 : (b ≤ₚ zeroF) = true
    · rw [if_pos h5] at h
      cases h
      rw [le64_iff, val_zero] at h5
      rcases le_or_gt (A.1 + p.1 - A.1 * A.1 / k.1) (A.1 + B.1) with h6 | h6
      · refine ⟨A.1 + p.1 - A.1 * A.1 / k.1, by linarith, by linarith, ?_, ?_⟩
        · rw [abs_sub_comm]; exact r1.trans (by norm_num)
        · rw [travel_middle hk0 hs (by linarith) h6]
          have e : p.1 - (A.1 * A.1 / k.1 + (A.1 + p.1 - A.1 * A.1 / k.1 - A.1)) = 0 := by ring
          rw [e, abs_zero]; norm_num
      · refine ⟨A.1 + B.1, by linarith, by linarith, ?_, ?_⟩
        · rw [abs_le]
          generalize A.1 * A.1 / k.1 = Z at *
          clear r1 r2 hQ
          constructor <;> norm_num at * <;> linarith
        · rw [travel_middle hk0 hs (by linarith) le_rfl]
          rw [abs_le]
          generalize A.1 * A.1 / k.1 = Z at *
          clear r1 r2 hQ
          constructor <;> norm_num at * <;> linarith
    · rw [if_neg h5] at h
      cases h
      rw [le64_iff, val_zero, not_le] at h5
      have hb1 : b.1 ≤ 3 * 10 ^ 6 := by
        clear r1 r2 hQ
        norm_num at *
        linarith
      set d : F64 := (if zeroF <ₚ (A *ₚ A -ₚ k *ₚ b) then PyNum.sqrt (A *ₚ A -ₚ k *ₚ b)
        else zeroF) with hdd
      have hdv : d.1 = if 0 < fl (fl (A.1 * A.1) - fl (k.1 * b.1)) then
          fl √(fl (fl (A.1 * A.1) - fl (k.1 * b.1))) else 0 := by
        rw [← val_mul, ← val_mul, ← val_sub, hdd]
        by_cases h7 : (zeroF <ₚ (A *ₚ A -ₚ k *ₚ b)) = true
        · rw [if_pos h7]
          rw [lt64_iff, val_zero] at h7
          rw [if_pos h7]; rfl
        · rw [if_neg h7]
          rw [lt64_iff, val_zero] at h7
          rw [if_neg h7, val_zero]
      obtain ⟨i1, i2⟩ := inv_brake hk0 (by rwa [div_le_iff₀ hk0] at hq1) h5.le hb1 hdv
      have hd0 : 0 ≤ d.1 := by
        rw [hdv]; split
        · exact fl_sqrt_nonneg _
        · exact le_rfl
      have hdA : d.1 ≤ A.1 := by
        rw [hdv]; split
        · conv_rhs => rw [← hAA]
          refine fl_mono (Real.sqrt_le_sqrt (fl_le_of_le (fl_idem _) ?_))
          have := fl_nonneg (mul_nonneg hk0.le h5.le)
          linarith
        · exact hA0
      clear_value d
      refine ⟨2 * A.1 + B.1 - d.1, by linarith, by linarith, ?_, ?_⟩
      · have e2 : (PyNum.ofRat 2 *ₚ A +ₚ B -ₚ d : F64).1 = fl (fl (fl (2 * A.1) + B.1) - d.1) := by
          rw [val_sub, val_add, val_mul, val_ofRat, fl_two]
        change |2 * A.1 + B.1 - d.1 - (PyNum.ofRat 2 *ₚ A +ₚ B -ₚ d : F64).1| ≤ _
        rw [e2]
        have g1 := fl_near2 (show 0 ≤ 2 * A.1 by linarith)
        generalize fl (2 * A.1) = E at *
        obtain ⟨p1, p2⟩ := abs_le.1 g1
        have g2 := fl_near (E + B.1)
        have u2 : |E + B.1| ≤ 5 * 10 ^ 6 := by
          rw [abs_le]
          clear r1 r2 hQ i1 i2
          constructor <;> norm_num at * <;> linarith
        obtain ⟨q1, q2⟩ := abs_le.1 (g2.trans (mul_le_mul_of_nonneg_right u2 (by norm_num)))
        generalize fl (E + B.1) = G at *
        have g3 := fl_near (G - d.1)
        have u3 : |G - d.1| ≤ 6 * 10 ^ 6 := by
          rw [abs_le]
          clear r1 r2 hQ i1 i2
          constructor <;> norm_num at * <;> linarith
        obtain ⟨w1, w2⟩ := abs_le.1 (g3.trans (mul_le_mul_of_nonneg_right u3 (by norm_num)))
        generalize fl (G - d.1) = H at *
        rw [abs_le]
        clear r1 r2 hQ i1 i2 g1 g2 g3 u2 u3
        constructor <;> norm_num at * <;> linarith
      · rw [travel_brake hk0 hs hA0 hB0 hdA]
        have j1 : A.1 * A.1 / k.1 - b.1 - 1 / 10 ^ 8 ≤ d.1 ^ 2 / k.1 := by
          rw [le_div_iff₀ hk0]
          have e : (A.1 * A.1 / k.1 - b.1 - 1 / 10 ^ 8) * k.1 = A.1 * A.1 - k.1 * b.1 - k.1 / 10 ^ 8 := by
            field_simp
          rw [e]; exact i1
        have j2 : d.1 = 0 ∨ d.1 ^ 2 / k.1 ≤ A.1 * A.1 / k.1 - b.1 + 1 / 10 ^ 8 := by
          rcases i2 with i2 | i2
          · exact .inl i2
          right
          rw [div_le_iff₀ hk0]
          have e : (A.1 * A.1 / k.1 - b.1 + 1 / 10 ^ 8) * k.1 = A.1 * A.1 - k.1 * b.1 + k.1 / 10 ^ 8 := by
            field_simp
          rw [e]; exact i2
        have j3 : d.1 = 0 → d.1 ^ 2 / k.1 = 0 := by
          intro h; rw [h]; simp
        generalize d.1 ^ 2 / k.1 = Y at *
        generalize A.1 * A.1 / k.1 = Z at *
        rw [abs_le]
        clear r1 r2 hQ i1 i2
        rcases j2 with j2 | j2
        · rw [j3 j2] at j1 ⊢
          constructor <;> norm_num at * <;> linarith
        · constructor <;> norm_num at * <;> linarith

/-! ## Order -/

/-- The time left of the braking, as computed. -/
noncomputable def leftOf64 (k A b : ℝ) : ℝ :=
  if 0 < fl (fl (A * A) - fl (k * b)) then fl √(fl (fl (A * A) - fl (k * b))) else 0

/-- The time without braking, as computed. -/
noncomputable def plain64 (k A p : ℝ) : ℝ := fl (fl (A + p) - fl (fl (A * A) / k))

/-- The three branches of `_to_accelerated_time` in binary64. -/
theorem acc64_cases {c : Cfg} {g : Gen F64} {p r : F64} (hk0 : 0 < (g.twoVmaxPerA c).1)
    (hp : 0 ≤ p.1) (h : g.toAccelerated c p = .ok r) :
    (fl √(fl (p.1 * (g.twoVmaxPerA c).1)) ≤ g.accT.1 ∧ r.1 = fl √(fl (p.1 * (g.twoVmaxPerA c).1))) ∨
    (g.accT.1 < fl √(fl (p.1 * (g.twoVmaxPerA c).1)) ∧
      fl (fl (plain64 (g.twoVmaxPerA c).1 g.accT.1 p.1 - g.accT.1) - g.linT.1) ≤ 0 ∧
      r.1 = plain64 (g.twoVmaxPerA c).1 g.accT.1 p.1) ∨
    (g.accT.1 < fl √(fl (p.1 * (g.twoVmaxPerA c).1)) ∧
      0 < fl (fl (plain64 (g.twoVmaxPerA c).1 g.accT.1 p.1 - g.accT.1) - g.linT.1) ∧
      r.1 = fl (fl (fl (2 * g.accT.1) + g.linT.1) - leftOf64 (g.twoVmaxPerA c).1 g.accT.1
        (fl (fl (plain64 (g.twoVmaxPerA c).1 g.accT.1 p.1 - g.accT.1) - g.linT.1)))) := by
  unfold Gen.toAccelerated at h
  generalize g.twoVmaxPerA c = k at *
  generalize g.accT = A at *
  generalize g.linT = B at *
  simp only at h
  have hx : 0 ≤ p.1 * k.1 := mul_nonneg hp hk0.le
  rw [psqrt64_ok (fl_nonneg hx)] at h
  by_cases h2 : (PyNum.sqrt (p *ₚ k) ≤ₚ A) = true
  · simp only [bind, Except.bind, if_pos h2] at h
    cases h
    rw [le64_iff, val_sqrt, val_mul] at h2
    exact .inl ⟨h2, by rw [val_sqrt, val_mul]⟩
  · rw [pdiv64_ok hk0.ne'] at h
    simp only [bind, Except.bind, if_neg h2] at h
    rw [le64_iff, val_sqrt, val_mul, not_le] at h2
    have et : (A +ₚ p -ₚ (A *ₚ A) /ₚ k).1 = plain64 k.1 A.1 p.1 := rfl
    have eb : (A +ₚ p -ₚ (A *ₚ A) /ₚ k -ₚ A -ₚ B).1 =
        fl (fl (plain64 k.1 A.1 p.1 - A.1) - B.1) := rfl
    rw [← eb, ← et]
    generalize A +ₚ p -ₚ (A *ₚ A) /ₚ k = t at *
    generalize t -ₚ A -ₚ B = b at *
    by_cases h5 : (b ≤ₚ zeroF) = true
    · rw [if_pos h5] at h
      cases h
      rw [le64_iff, val_zero] at h5
      exact .inr (.inl ⟨h2, h5, rfl⟩)
    · rw [if_neg h5] at h
      cases h
      rw [le64_iff, val_zero, not_le] at h5
      refine .inr (.inr ⟨h2, h5, ?_⟩)
      have hdv : (if zeroF <ₚ (A *ₚ A -ₚ k *ₚ b) then PyNum.sqrt (A *ₚ A -ₚ k *ₚ b)
          else zeroF : F64).1 = leftOf64 k.1 A.1 b.1 := by
        unfold leftOf64
        rw [← val_mul, ← val_mul, ← val_sub]
        by_cases h7 : (zeroF <ₚ (A *ₚ A -ₚ k *ₚ b)) = true
        · rw [if_pos h7]
          rw [lt64_iff, val_zero] at h7
          rw [if_pos h7]; rfl
        · rw [if_neg h7]
          rw [lt64_iff, val_zero] at h7
          rw [if_neg h7, val_zero]
      rw [← hdv, val_sub, val_add, val_mul, val_ofRat, fl_two]

theorem leftOf64_anti {k A b b' : ℝ} (hk : 0 ≤ k) (h : b ≤ b') : leftOf64 k A b' ≤ leftOf64 k A b := by
  have h1 : fl (fl (A * A) - fl (k * b')) ≤ fl (fl (A * A) - fl (k * b)) := by
    refine fl_mono ?_
    have := fl_mono (mul_le_mul_of_nonneg_left h hk)
    linarith
  unfold leftOf64
  split
  · rw [if_pos (by linarith)]
    exact fl_mono (Real.sqrt_le_sqrt h1)
  · split
    · exact fl_sqrt_nonneg _
    · exact le_rfl

theorem leftOf64_le {k A b : ℝ} (hk : 0 ≤ k) (hA : fl A = A) (hA0 : 0 ≤ A) (hb : 0 ≤ b) :
    leftOf64 k A b ≤ A := by
  have hAA := fl_sqrt_sq hA
  rw [abs_of_nonneg hA0] at hAA
  unfold leftOf64
  split
  · conv_rhs => rw [← hAA]
    refine fl_mono (Real.sqrt_le_sqrt (fl_le_of_le (fl_idem _) ?_))
    have := fl_nonneg (mul_nonneg hk hb)
    linarith
  · exact hA0

theorem plain64_mono {k A p p' : ℝ} (h : p ≤ p') : plain64 k A p ≤ plain64 k A p' := by
  unfold plain64
  refine fl_mono ?_
  have := fl_mono (show A + p ≤ A + p' by linarith)
  linarith

/-- Later places have later times, up to a tenth of a microsecond. -/
theorem order64 {c : Cfg} {g : Gen F64} {p p' r r' : F64} (hk0 : 0 < (g.twoVmaxPerA c).1)
    (hA : 0 ≤ g.accT.1 ∧ g.accT.1 ≤ 1001)
    (hB : 0 ≤ g.linT.1 ∧ g.linT.1 ≤ 4 * 10 ^ 6) (hAk : g.accT.1 ≤ 2 * (g.twoVmaxPerA c).1)
    (hp0 : 0 ≤ p.1) (hpp : p.1 ≤ p'.1) (hp1 : p'.1 ≤ 2 * 10 ^ 6)
    (h : g.toAccelerated c p = .ok r) (h' : g.toAccelerated c p' = .ok r') :
    r.1 ≤ r'.1 + 1 / 10 ^ 7 := by
  have e := acc64_cases hk0 hp0 h
  have e' := acc64_cases hk0 (hp0.trans hpp) h'
  obtain ⟨hA0, hA1⟩ := hA
  obtain ⟨hB0, hB1⟩ := hB
  have hAr := g.accT.2
  clear h h'
  generalize (g.twoVmaxPerA c).1 = k at *
  generalize g.accT.1 = A at *
  generalize g.linT.1 = B at *
  have hq1 : A * A / k ≤ 2002 := by
    rw [div_le_iff₀ hk0]; nlinarith
  have hq0 : 0 ≤ A * A / k := div_nonneg (mul_self_nonneg _) hk0.le
  have hQ : |fl (fl (A * A) / k) - A * A / k| ≤ A * A / k * (3 / 10 ^ 15) := by
    have f1 := fl_near2 (mul_self_nonneg A)
    have f0 := fl_nonneg (mul_self_nonneg A)
    have f2 := fl_near2 (div_nonneg f0 hk0.le)
    have f3 : |fl (A * A) / k - A * A / k| ≤ A * A / k * (2 / 10 ^ 16) := by
      rw [← sub_div, abs_div, abs_of_pos hk0, div_mul_eq_mul_div]
      exact div_le_div_of_nonneg_right f1 hk0.le
    generalize fl (A * A) / k = X at *
    generalize fl X = Y at *
    generalize A * A / k = Z at *
    obtain ⟨a1, a2⟩ := abs_le.1 f2
    obtain ⟨b1, b2⟩ := abs_le.1 f3
    rw [abs_le]
    clear f1 f2 f3
    constructor <;> norm_num at * <;> linarith
  have hlate : ∀ x : ℝ, 0 ≤ x → x ≤ 2 * 10 ^ 6 → A < fl √(fl (x * k)) → A * A / k < x := by
    intro x hx0 hx1 h
    rw [div_lt_iff₀ hk0]
    by_contra hcon
    have hAA := fl_sqrt_sq hAr
    rw [abs_of_nonneg hA0] at hAA
    have : fl √(fl (x * k)) ≤ A := by
      conv_rhs => rw [← hAA]
      exact fl_mono (Real.sqrt_le_sqrt (fl_mono (not_lt.1 hcon)))
    linarith
  have hr : ∀ x : ℝ, 0 ≤ x → x ≤ 2 * 10 ^ 6 →
      |plain64 k A x - (A + x - A * A / k)| ≤ 1 / 10 ^ 8 ∧
      |fl (fl (plain64 k A x - A) - B) - (x - A * A / k - B)| ≤ 4 / 10 ^ 8 := fun x hx0 hx1 =>
    rest64 hA0 hA1 hB0 hB1 hx0 hx1 hq0 hq1 hQ rfl rfl
  have hs : fl √(fl (p.1 * k)) ≤ fl √(fl (p'.1 * k)) :=
    fl_mono (Real.sqrt_le_sqrt (fl_mono (mul_le_mul_of_nonneg_right hpp hk0.le)))
  have hb : fl (fl (plain64 k A p.1 - A) - B) ≤ fl (fl (plain64 k A p'.1 - A) - B) := by
    refine fl_mono ?_
    have := fl_mono (show plain64 k A p.1 - A ≤ plain64 k A p'.1 - A by
      have := plain64_mono (k := k) (A := A) hpp; linarith)
    linarith
  have hG : ∀ b, 0 ≤ b → A + B - 3 / 10 ^ 8 ≤ fl (fl (fl (2 * A) + B) - leftOf64 k A b) := by
    intro b hb0
    have hdA := leftOf64_le hk0.le hAr hA0 hb0
    have g1 := fl_lo (show 0 ≤ 2 * A by linarith)
    generalize fl (2 * A) = E at *
    have g2 := fl_lo (show 0 ≤ E + B by norm_num at *; linarith)
    generalize fl (E + B) = G at *
    generalize leftOf64 k A b = d at *
    have g3 : fl (A + B - 2 / 10 ^ 8) ≤ fl (G - d) := fl_mono (by
      clear hlate hr hQ
      norm_num at *; linarith)
    have g4 := (abs_le.1 (fl_near (A + B - 2 / 10 ^ 8))).1
    have g5 : |A + B - 2 / 10 ^ 8| ≤ 5 * 10 ^ 6 := by
      rw [abs_le]
      clear hlate hr hQ
      constructor <;> norm_num at * <;> linarith
    generalize fl (A + B - 2 / 10 ^ 8) = H at *
    clear hlate hr hQ
    norm_num at *
    linarith
  rcases e with ⟨a1, a2⟩ | ⟨a1, a3, a2⟩ | ⟨a1, a3, a2⟩ <;>
    rcases e' with ⟨b1, b2⟩ | ⟨b1, b3, b2⟩ | ⟨b1, b3, b2⟩ <;> rw [a2, b2]
  · linarith
  · have h1 := hlate _ (hp0.trans hpp) hp1 b1
    have h2 := (abs_le.1 (hr _ (hp0.trans hpp) hp1).1).1
    clear hlate hr hQ hG
    norm_num at *
    linarith
  · have h1 := hG _ b3.le
    clear hlate hr hQ hG
    norm_num at *
    linarith
  · linarith
  · have := plain64_mono (k := k) (A := A) hpp
    linarith
  · have h1 := hG _ b3.le
    obtain ⟨h2, h3⟩ := hr _ hp0 (hpp.trans hp1)
    have h2 := (abs_le.1 h2).2
    have h3 := (abs_le.1 h3).1
    clear hlate hr hQ hG
    norm_num at *
    linarith
  · linarith
  · linarith
  · have h1 := leftOf64_anti (A := A) hk0.le hb
    have := fl_mono (show fl (fl (2 * A) + B) - leftOf64 k A
      (fl (fl (plain64 k A p.1 - A) - B)) ≤ fl (fl (2 * A) + B) - leftOf64 k A
      (fl (fl (plain64 k A p'.1 - A) - B)) by linarith)
    linarith

end PyCNC
