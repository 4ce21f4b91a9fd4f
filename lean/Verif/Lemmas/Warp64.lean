import Verif.Lemmas.Gaps
import Verif.Lemmas.Limit64

/-!
# Accelerated time in binary64
-/

set_option linter.unusedSectionVars false

namespace PyCNC

open Spec

variable [PyRound]

/-- Accelerated time after the acceleration, as a function of the uniform time `r` after the start of
the braking. -/
noncomputable def late (k A B r : ℝ) : ℝ :=
  if r ≤ 0 then A + B + r else 2 * A + B - √(A * A - k * r)

theorem warp_late {k A B p : ℝ} (h : A * A < p * k) :
    warp k A B p = late k A B (p - A * A / k - B) := by
  have h1 : ¬ √(p * k) ≤ A := by
    rw [not_le]
    exact Real.lt_sqrt_of_sq_lt (by rw [pow_two]; exact h)
  unfold warp late
  rw [if_neg h1]
  have e : A + p - A * A / k - A - B = p - A * A / k - B := by ring
  rw [e]
  split
  · ring
  · rfl

theorem warp_early {k A B p : ℝ} (hA : 0 ≤ A) (h : p * k ≤ A * A) : warp k A B p = √(p * k) := by
  have h1 : √(p * k) ≤ A := by
    rw [Real.sqrt_le_left hA, pow_two]; exact h
  unfold warp
  rw [if_pos h1]

/-- `late` varies slowly. -/
theorem late_near {k A B r r' ε : ℝ} (hk : 0 ≤ k) (hA : 0 ≤ A) (h : |r - r'| ≤ ε) :
    |late k A B r - late k A B r'| ≤ ε + √(k * ε) := by
  have hε : 0 ≤ ε := (abs_nonneg _).trans h
  have hs := Real.sqrt_nonneg (k * ε)
  have hAA : √(A * A) = A := Real.sqrt_mul_self hA
  have key : ∀ x y : ℝ, x ≤ 0 → 0 < y → |x - y| ≤ ε →
      |A + B + x - (2 * A + B - √(A * A - k * y))| ≤ ε + √(k * ε) := by
    intro x y hx hy hxy
    obtain ⟨h1, h2⟩ := abs_le.1 hxy
    have e1 := sqrt_sub_le (a := A * A) (b := A * A - k * y) (c := k * ε) (by nlinarith)
    have e2 : √(A * A - k * y) ≤ √(A * A) := Real.sqrt_le_sqrt (by nlinarith)
    rw [hAA] at e1 e2
    rw [abs_le]
    constructor <;> linarith
  obtain ⟨h1, h2⟩ := abs_le.1 h
  unfold late
  split
  · split
    · have : A + B + r - (A + B + r') = r - r' := by ring
      rw [this]; linarith
    · next hr hr' => exact key r r' hr (not_le.1 hr') h
  · split
    · next hr hr' =>
      rw [abs_sub_comm]
      exact key r' r hr' (not_le.1 hr) (by rw [abs_sub_comm]; exact h)
    · have e1 := sqrt_sub_le (a := A * A - k * r) (b := A * A - k * r') (c := k * ε) (by nlinarith)
      have e2 := sqrt_sub_le (a := A * A - k * r') (b := A * A - k * r) (c := k * ε) (by nlinarith)
      rw [abs_le]
      constructor <;> linarith

theorem sqrt_near {a b e : ℝ} (h : |a - b| ≤ e) : |√a - √b| ≤ √e := by
  obtain ⟨h1, h2⟩ := abs_le.1 h
  have e1 := sqrt_sub_le (a := a) (b := b) (c := e) (by linarith)
  have e2 := sqrt_sub_le (a := b) (b := a) (c := e) (by linarith)
  rw [abs_le]
  constructor <;> linarith

theorem sqrt_le_of {x y : ℝ} (hy : 0 ≤ y) (h : x ≤ y * y) : √x ≤ y := by
  rw [Real.sqrt_le_left hy, pow_two]; exact h

/-! ## The three cases -/

/-- The square root during the acceleration. -/
theorem early64 {x A : ℝ} (hA0 : 0 ≤ A) (hA1 : A ≤ 1001) (hx : 0 ≤ x) (h : x ≤ A * A) :
    |fl √(fl x) - √x| ≤ 1 / 1000 := by
  have hxx : x ≤ 1002001 := h.trans (by nlinarith)
  have h1 := fl_near x
  rw [abs_of_nonneg hx] at h1
  have h2 := sqrt_near h1
  have h3 : √(x * (1 / 10 ^ 15)) ≤ 1 / 2000 := sqrt_le_of (by norm_num) (by norm_num; linarith)
  have h4 := fl_near √(fl x)
  have h5 : √(fl x) ≤ 1002 := by
    have : √x ≤ 1001 := sqrt_le_of (by norm_num) (by linarith)
    have := (abs_le.1 (h2.trans h3)).2
    linarith
  rw [abs_of_nonneg (Real.sqrt_nonneg _)] at h4
  obtain ⟨a1, a2⟩ := abs_le.1 (h2.trans h3)
  obtain ⟨b1, b2⟩ := abs_le.1 h4
  rw [abs_le]
  generalize fl √(fl x) = Z at *
  generalize √(fl x) = Y at *
  generalize √x = X at *
  clear h1 h2 h4
  norm_num at *
  constructor <;> linarith

/-- The edge of the acceleration. -/
theorem edge64 {x A : ℝ} (hx : 0 ≤ x) (h : fl √(fl x) ≤ A) :
    x ≤ A * A * (1 + 1 / 10 ^ 14) := by
  have h1 := fl_lo hx
  have h0 := fl_nonneg hx
  have h2 := fl_lo (Real.sqrt_nonneg (fl x))
  have h3 := Real.mul_self_sqrt h0
  have h4 := Real.sqrt_nonneg (fl x)
  generalize fl x = X at *
  generalize √X = Y at *
  have h5 : Y * (1 - 1 / 10 ^ 15) ≤ A := by linarith
  have h6 : (Y * (1 - 1 / 10 ^ 15)) * (Y * (1 - 1 / 10 ^ 15)) ≤ A * A :=
    mul_self_le_mul_self (mul_nonneg h4 (by norm_num)) h5
  have e : (Y * (1 - 1 / 10 ^ 15)) * (Y * (1 - 1 / 10 ^ 15)) =
    Y * Y * ((1 - 1 / 10 ^ 15) * (1 - 1 / 10 ^ 15)) := by ring
  rw [e, h3] at h6
  generalize A * A = Z at *
  norm_num at *
  linarith

/-- The uniform time after the start of the braking. -/
theorem rest64 {A B p q Q t b : ℝ} (hA0 : 0 ≤ A) (hA1 : A ≤ 1001) (hB0 : 0 ≤ B) (hB1 : B ≤ 4 * 10 ^ 6)
    (hp0 : 0 ≤ p) (hp1 : p ≤ 2 * 10 ^ 6) (hq0 : 0 ≤ q) (hq1 : q ≤ 2002)
    (hQ : |Q - q| ≤ q * (3 / 10 ^ 15)) (ht : t = fl (fl (A + p) - Q))
    (hb : b = fl (fl (t - A) - B)) :
    |t - (A + p - q)| ≤ 1 / 10 ^ 8 ∧ |b - (p - q - B)| ≤ 4 / 10 ^ 8 := by
  have h1 := fl_near (A + p)
  rw [abs_of_nonneg (show 0 ≤ A + p by linarith)] at h1
  have h2 := fl_near (fl (A + p) - Q)
  rw [← ht] at h2
  have h3 := fl_near (t - A)
  have h4 := fl_near (fl (t - A) - B)
  rw [← hb] at h4
  generalize fl (A + p) = X at *
  generalize fl (t - A) = Y at *
  obtain ⟨a1, a2⟩ := abs_le.1 h1
  obtain ⟨q1, q2⟩ := abs_le.1 hQ
  have u2 : |X - Q| ≤ 3 * 10 ^ 6 := by
    rw [abs_le]
    constructor <;> norm_num at * <;> linarith
  obtain ⟨b1, b2⟩ := abs_le.1 (h2.trans (mul_le_mul_of_nonneg_right u2 (by norm_num)))
  have k1 : |t - (A + p - q)| ≤ 1 / 10 ^ 8 := by
    rw [abs_le]
    clear h1 h2 h3 h4 hQ u2
    constructor <;> norm_num at * <;> linarith
  refine ⟨k1, ?_⟩
  obtain ⟨c1, c2⟩ := abs_le.1 k1
  have u3 : |t - A| ≤ 3 * 10 ^ 6 := by
    rw [abs_le]
    constructor <;> norm_num at * <;> linarith
  obtain ⟨d1, d2⟩ := abs_le.1 (h3.trans (mul_le_mul_of_nonneg_right u3 (by norm_num)))
  have u4 : |Y - B| ≤ 8 * 10 ^ 6 := by
    rw [abs_le]
    constructor <;> norm_num at * <;> linarith
  obtain ⟨e1, e2⟩ := abs_le.1 (h4.trans (mul_le_mul_of_nonneg_right u4 (by norm_num)))
  rw [abs_le]
  clear h1 h2 h3 h4 hQ u2 u3 u4 k1
  constructor <;> norm_num at * <;> linarith

/-- The end of the braking. -/
theorem brake64 {k A B b d : ℝ} (hk0 : 0 ≤ k) (hk1 : k ≤ 2100) (hA0 : 0 ≤ A) (hA1 : A ≤ 1001)
    (hB0 : 0 ≤ B) (hB1 : B ≤ 4 * 10 ^ 6) (hb0 : 0 ≤ b) (hb1 : b ≤ 3 * 10 ^ 6)
    (hd : d = if 0 < fl (fl (A * A) - fl (k * b)) then fl √(fl (fl (A * A) - fl (k * b))) else 0) :
    |fl (fl (fl (2 * A) + B) - d) - (2 * A + B - √(A * A - k * b))| ≤ 1 / 100 := by
  have hAA : A * A ≤ 1002001 := by nlinarith
  have hAA0 : 0 ≤ A * A := mul_self_nonneg A
  have hkb : k * b ≤ 63 * 10 ^ 8 := by
    calc k * b ≤ 2100 * (3 * 10 ^ 6) := mul_le_mul hk1 hb1 hb0 (by norm_num)
      _ = 63 * 10 ^ 8 := by norm_num
  have hkb0 : 0 ≤ k * b := mul_nonneg hk0 hb0
  have f1 := fl_near2 hAA0
  have f2 := fl_near2 hkb0
  have f3 := fl_near (fl (A * A) - fl (k * b))
  generalize fl (A * A) = X at *
  generalize fl (k * b) = Y at *
  generalize A * A = x at *
  generalize k * b = y at *
  obtain ⟨a1, a2⟩ := abs_le.1 f1
  obtain ⟨b1, b2⟩ := abs_le.1 f2
  have u : |X - Y| ≤ 64 * 10 ^ 8 := by
    rw [abs_le]
    constructor <;> norm_num at * <;> linarith
  obtain ⟨c1, c2⟩ := abs_le.1 (f3.trans (mul_le_mul_of_nonneg_right u (by norm_num)))
  generalize fl (X - Y) = D at *
  have hD : |D - (x - y)| ≤ 1 / 10 ^ 5 := by
    rw [abs_le]
    constructor <;> norm_num at * <;> linarith
  have hD1 : D ≤ 1002010 := by
    have := (abs_le.1 hD).2
    norm_num at *
    linarith
  have hs : √(1 / 10 ^ 5 : ℝ) ≤ 4 / 1000 := sqrt_le_of (by norm_num) (by norm_num)
  have hds : |d - √(x - y)| ≤ 5 / 1000 ∧ 0 ≤ d ∧ d ≤ 1003 := by
    have h1 := (sqrt_near hD).trans hs
    have hr : √D ≤ 1002 := sqrt_le_of (by norm_num) (by linarith)
    rw [hd]
    split
    · have h2 := fl_near √D
      have h3 := fl_nonneg (Real.sqrt_nonneg D)
      rw [abs_of_nonneg (Real.sqrt_nonneg D)] at h2
      obtain ⟨d1, d2⟩ := abs_le.1 h1
      obtain ⟨e1, e2⟩ := abs_le.1 h2
      generalize fl √D = S at *
      generalize √D = s at *
      rw [abs_le]
      clear f1 f2 f3 u hD h1 h2 hs
      norm_num at *
      refine ⟨⟨?_, ?_⟩, h3, ?_⟩ <;> linarith
    · next hneg =>
      rw [Real.sqrt_eq_zero_of_nonpos (not_lt.1 hneg)] at h1
      exact ⟨h1.trans (by norm_num), le_rfl, by norm_num⟩
  obtain ⟨hd1, hd2, hd3⟩ := hds
  clear hd
  have g1 := fl_near2 (show 0 ≤ 2 * A by linarith)
  generalize fl (2 * A) = E at *
  obtain ⟨p1, p2⟩ := abs_le.1 g1
  have g2 := fl_near (E + B)
  have u2 : |E + B| ≤ 5 * 10 ^ 6 := by
    rw [abs_le]
    constructor <;> norm_num at * <;> linarith
  obtain ⟨q1, q2⟩ := abs_le.1 (g2.trans (mul_le_mul_of_nonneg_right u2 (by norm_num)))
  generalize fl (E + B) = G at *
  have g3 := fl_near (G - d)
  have u3 : |G - d| ≤ 6 * 10 ^ 6 := by
    rw [abs_le]
    constructor <;> norm_num at * <;> linarith
  obtain ⟨r1, r2⟩ := abs_le.1 (g3.trans (mul_le_mul_of_nonneg_right u3 (by norm_num)))
  obtain ⟨s1, s2⟩ := abs_le.1 hd1
  rw [abs_le]
  generalize fl (G - d) = H at *
  generalize √(x - y) = S at *
  clear f1 f2 f3 u hD hs g1 g2 g3 u2 u3 hd1
  constructor <;> norm_num at * <;> linarith

/-- `_to_accelerated_time` in binary64 is close to its value in exact arithmetic. -/
theorem warp64 {c : Cfg} {g : Gen F64} {p r : F64} (hk0 : 0 < (g.twoVmaxPerA c).1)
    (hk1 : (g.twoVmaxPerA c).1 ≤ 2100) (hA : 0 ≤ g.accT.1 ∧ g.accT.1 ≤ 1001)
    (hB : 0 ≤ g.linT.1 ∧ g.linT.1 ≤ 4 * 10 ^ 6) (hAk : g.accT.1 ≤ 2 * (g.twoVmaxPerA c).1)
    (hp : 0 ≤ p.1 ∧ p.1 ≤ 2 * 10 ^ 6) (h : g.toAccelerated c p = .ok r) :
    |r.1 - warp (g.twoVmaxPerA c).1 g.accT.1 g.linT.1 p.1| ≤ 1 / 10 := by
  obtain ⟨hA0, hA1⟩ := hA
  obtain ⟨hB0, hB1⟩ := hB
  obtain ⟨hp0, hp1⟩ := hp
  unfold Gen.toAccelerated at h
  generalize g.twoVmaxPerA c = k at *
  generalize g.accT = A at *
  generalize g.linT = B at *
  simp only at h
  have hx : 0 ≤ p.1 * k.1 := mul_nonneg hp0 hk0.le
  rw [psqrt64_ok (fl_nonneg hx)] at h
  have hAA := fl_sqrt_sq A.2
  rw [abs_of_nonneg hA0] at hAA
  have hq1 : A.1 * A.1 / k.1 ≤ 2002 := by
    rw [div_le_iff₀ hk0]; nlinarith
  have hq0 : 0 ≤ A.1 * A.1 / k.1 := div_nonneg (mul_self_nonneg _) hk0.le
  have hsm : ∀ ε : ℝ, 0 ≤ ε → ε ≤ 4 / 10 ^ 8 → ε + √(k.1 * ε) ≤ 2 / 100 := by
    intro ε h0 h1
    have : √(k.1 * ε) ≤ 1 / 100 := by
      refine sqrt_le_of (by norm_num) ?_
      calc k.1 * ε ≤ 2100 * (4 / 10 ^ 8) := mul_le_mul hk1 h1 h0 (by norm_num)
        _ ≤ 1 / 100 * (1 / 100) := by norm_num
    norm_num at *
    linarith
  by_cases h2 : (PyNum.sqrt (p *ₚ k) ≤ₚ A) = true
  · simp only [bind, Except.bind, if_pos h2] at h
    cases h
    rw [le64_iff, val_sqrt, val_mul] at h2
    rw [val_sqrt, val_mul]
    rcases le_or_gt (p.1 * k.1) (A.1 * A.1) with h3 | h3
    · rw [warp_early hA0 h3]
      exact (early64 hA0 hA1 hx h3).trans (by norm_num)
    · rw [warp_late h3]
      have h4 : A.1 ≤ fl √(fl (p.1 * k.1)) := by
        rw [← hAA]; exact fl_mono (Real.sqrt_le_sqrt (fl_mono h3.le))
      have h5 := edge64 hx h2
      have h6 : |p.1 - A.1 * A.1 / k.1 - B.1 - (-B.1)| ≤ 4 / 10 ^ 8 := by
        have e : p.1 - A.1 * A.1 / k.1 - B.1 - (-B.1) = (p.1 * k.1 - A.1 * A.1) / k.1 := by
          field_simp; ring
        rw [e, abs_of_nonneg (div_nonneg (by linarith) hk0.le)]
        have h7 : (p.1 * k.1 - A.1 * A.1) / k.1 ≤ A.1 * A.1 / k.1 * (1 / 10 ^ 14) := by
          rw [div_mul_eq_mul_div]
          exact div_le_div_of_nonneg_right (by linarith) hk0.le
        refine h7.trans ?_
        norm_num at *
        linarith
      have h7 := (late_near (B := B.1) hk0.le hA0 h6).trans (hsm _ (by norm_num) le_rfl)
      have e : late k.1 A.1 B.1 (-B.1) = A.1 := by
        unfold late; rw [if_pos (by linarith)]; ring
      rw [e] at h7
      have e2 : fl √(fl (p.1 * k.1)) = A.1 := le_antisymm h2 h4
      rw [e2, abs_sub_comm]
      exact h7.trans (by norm_num)
  · rw [pdiv64_ok hk0.ne'] at h
    simp only [bind, Except.bind, if_neg h2] at h
    rw [le64_iff, val_sqrt, val_mul, not_le] at h2
    have h3 : A.1 * A.1 < p.1 * k.1 := by
      by_contra hcon
      have : fl √(fl (p.1 * k.1)) ≤ A.1 := by
        conv_rhs => rw [← hAA]
        exact fl_mono (Real.sqrt_le_sqrt (fl_mono (not_lt.1 hcon)))
      linarith
    rw [warp_late h3]
    have hQ : |((A *ₚ A) /ₚ k).1 - A.1 * A.1 / k.1| ≤ A.1 * A.1 / k.1 * (3 / 10 ^ 15) := by
      rw [val_div, val_mul]
      have f1 := fl_near2 (mul_self_nonneg A.1)
      have f0 := fl_nonneg (mul_self_nonneg A.1)
      have f2 := fl_near2 (div_nonneg f0 hk0.le)
      have f3 : |fl (A.1 * A.1) / k.1 - A.1 * A.1 / k.1| ≤ A.1 * A.1 / k.1 * (2 / 10 ^ 16) := by
        rw [← sub_div, abs_div, abs_of_pos hk0, div_mul_eq_mul_div]
        exact div_le_div_of_nonneg_right f1 hk0.le
      generalize fl (A.1 * A.1) / k.1 = X at *
      generalize fl X = Y at *
      generalize A.1 * A.1 / k.1 = Z at *
      obtain ⟨a1, a2⟩ := abs_le.1 f2
      obtain ⟨b1, b2⟩ := abs_le.1 f3
      rw [abs_le]
      clear f1 f2 f3
      constructor <;> norm_num at * <;> linarith
    obtain ⟨r1, r2⟩ := rest64 hA0 hA1 hB0 hB1 hp0 hp1 hq0 hq1 hQ
      (t := (A +ₚ p -ₚ (A *ₚ A) /ₚ k).1) (b := (A +ₚ p -ₚ (A *ₚ A) /ₚ k -ₚ A -ₚ B).1) rfl rfl
    have h4 := (late_near (B := B.1) hk0.le hA0 r2).trans (hsm _ (by norm_num) le_rfl)
    generalize A +ₚ p -ₚ (A *ₚ A) /ₚ k = t at *
    generalize t -ₚ A -ₚ B = b at *
    generalize late k.1 A.1 B.1 (p.1 - A.1 * A.1 / k.1 - B.1) = y at *
    by_cases h5 : (b ≤ₚ zeroF) = true
    · rw [if_pos h5] at h
      cases h
      rw [le64_iff, val_zero] at h5
      have e : late k.1 A.1 B.1 b.1 = A.1 + B.1 + b.1 := by
        unfold late; rw [if_pos h5]
      rw [e] at h4
      obtain ⟨a1, a2⟩ := abs_le.1 r1
      obtain ⟨b1, b2⟩ := abs_le.1 r2
      obtain ⟨c1, c2⟩ := abs_le.1 h4
      rw [abs_le]
      generalize A.1 * A.1 / k.1 = Z at *
      clear r1 r2 h4 hQ
      constructor <;> norm_num at * <;> linarith
    · rw [if_neg h5] at h
      cases h
      rw [le64_iff, val_zero, not_le] at h5
      have e : late k.1 A.1 B.1 b.1 = 2 * A.1 + B.1 - √(A.1 * A.1 - k.1 * b.1) := by
        unfold late; rw [if_neg (not_le.2 h5)]
      rw [e] at h4
      have hb1 : b.1 ≤ 3 * 10 ^ 6 := by
        have := (abs_le.1 r2).2
        norm_num at *
        linarith
      have h6 := brake64 (d := (if zeroF <ₚ (A *ₚ A -ₚ k *ₚ b) then PyNum.sqrt (A *ₚ A -ₚ k *ₚ b)
        else zeroF : F64).1) hk0.le hk1 hA0 hA1 hB0 hB1 h5.le hb1 (by
          rw [← val_mul, ← val_mul, ← val_sub]
          by_cases h7 : (zeroF <ₚ (A *ₚ A -ₚ k *ₚ b)) = true
          · rw [if_pos h7]
            rw [lt64_iff, val_zero] at h7
            rw [if_pos h7]; rfl
          · rw [if_neg h7]
            rw [lt64_iff, val_zero] at h7
            rw [if_neg h7, val_zero])
      have e2 : (PyNum.ofRat 2 *ₚ A +ₚ B -ₚ (if zeroF <ₚ (A *ₚ A -ₚ k *ₚ b) then
          PyNum.sqrt (A *ₚ A -ₚ k *ₚ b) else zeroF) : F64).1 =
          fl (fl (fl (2 * A.1) + B.1) - (if zeroF <ₚ (A *ₚ A -ₚ k *ₚ b) then
          PyNum.sqrt (A *ₚ A -ₚ k *ₚ b) else zeroF : F64).1) := by
        rw [val_sub, val_add, val_mul, val_ofRat]
        have : fl ((2 : ℚ) : ℝ) = 2 := by
          have := fl_int 2 (by norm_num)
          simpa using this
        rw [this]
      rw [← e2] at h6
      generalize (PyNum.ofRat 2 *ₚ A +ₚ B -ₚ (if zeroF <ₚ (A *ₚ A -ₚ k *ₚ b) then
          PyNum.sqrt (A *ₚ A -ₚ k *ₚ b) else zeroF) : F64).1 = R at *
      generalize 2 * A.1 + B.1 - √(A.1 * A.1 - k.1 * b.1) = S at *
      obtain ⟨a1, a2⟩ := abs_le.1 h6
      obtain ⟨c1, c2⟩ := abs_le.1 h4
      rw [abs_le]
      clear r1 r2 h4 h6 hQ
      constructor <;> norm_num at * <;> linarith

end PyCNC
