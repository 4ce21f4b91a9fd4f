import Verif.Lemmas.Linear64
import Verif.Lemmas.LinearLimits

/-!
# The speed limits of linear moves in binary64
-/

set_option linter.unusedSectionVars false

namespace PyCNC

open Spec

variable [PyRound]

theorem fl_lo2 {x : ℝ} (h : 0 ≤ x) : x - x * (2 / 10 ^ 16) ≤ fl x := by
  have h1 := (abs_le.1 (fl_err x)).1
  rw [abs_of_nonneg h] at h1
  have : x / 2 ^ 53 ≤ x * (2 / 10 ^ 16) := by
    rw [div_eq_mul_inv]
    exact mul_le_mul_of_nonneg_left (by norm_num) h
  linarith

theorem fl_hi2 {x : ℝ} (h : 0 ≤ x) : fl x ≤ x + x * (2 / 10 ^ 16) := by
  have h1 := (abs_le.1 (fl_err x)).2
  rw [abs_of_nonneg h] at h1
  have : x / 2 ^ 53 ≤ x * (2 / 10 ^ 16) := by
    rw [div_eq_mul_inv]
    exact mul_le_mul_of_nonneg_left (by norm_num) h
  linarith

theorem fl_60 : fl 60 = 60 := by
  have := fl_int 60 (by norm_num)
  simpa using this

theorem sec64 : (secInMin : F64).1 = 60 := by
  change fl ((60 : ℚ) : ℝ) = _
  simpa using fl_60

theorem pmin64_left (a b : F64) : (pmin a b).1 ≤ a.1 := by
  unfold pmin
  split
  · next h => rw [lt64_iff] at h; exact h.le
  · exact le_rfl

theorem pmin64_right (a b : F64) : (pmin a b).1 ≤ b.1 := by
  unfold pmin
  split
  · exact le_rfl
  · next h => rw [lt64_iff, not_lt] at h; exact h

/-- The factor of `_adjust_velocity` respects every axis. -/
theorem adjust64_auto {c : Cfg} (hc : SaneCfg c) (ha : c.autoVel = true) {v : V4 F64}
    (hv : ∀ ax, 0 ≤ (v.get ax).1) :
    ∃ k : F64, adjustVelocity c v = .ok (Coord.smul v k) ∧ 0 ≤ k.1 ∧ k.1 ≤ 1 ∧
      (∀ ax, fl (c.maxVel.get ax) < fl ((v.get ax).1 * 60) →
        k.1 ≤ fl (fl (fl (c.maxVel.get ax) / (v.get ax).1) / 60)) ∧
      (k.1 = 1 ∨ ∃ ax, fl (c.maxVel.get ax) < fl ((v.get ax).1 * 60) ∧
        k.1 = fl (fl (fl (c.maxVel.get ax) / (v.get ax).1) / 60)) := by
  have hm : ∀ ax, (0 : ℝ) < fl (c.maxVel.get ax) := fun ax => by
    refine fl_pos ?_
    have : (60 : ℝ) ≤ c.maxVel.get ax := by exact_mod_cast hc.maxVel ax
    linarith
  have ax1 : ∀ (k : F64) (ax : Axis), 0 ≤ k.1 →
      ∃ k', adjustAxis k (v.get ax) (c.maxVel.get ax) = .ok k' ∧ 0 ≤ k'.1 ∧ k'.1 ≤ k.1 ∧
      (fl (c.maxVel.get ax) < fl ((v.get ax).1 * 60) →
        k'.1 ≤ fl (fl (fl (c.maxVel.get ax) / (v.get ax).1) / 60)) ∧
      (k' = k ∨ (fl (c.maxVel.get ax) < fl ((v.get ax).1 * 60) ∧
        k'.1 = fl (fl (fl (c.maxVel.get ax) / (v.get ax).1) / 60))) := by
    intro k ax hk
    unfold adjustAxis
    split
    · next hlt =>
      rw [lt64_iff, val_ofRat, val_mul, sec64] at hlt
      have hne : (v.get ax).1 ≠ 0 := by
        intro h0
        rw [h0, zero_mul, fl_zero] at hlt
        linarith [hm ax]
      rw [pdiv64_ok hne]
      have e : (PyNum.ofRat (c.maxVel.get ax) /ₚ v.get ax /ₚ secInMin : F64).1 =
          fl (fl (fl (c.maxVel.get ax) / (v.get ax).1) / 60) := by
        rw [val_div, val_div, val_ofRat, sec64]
      have h0 : 0 ≤ fl (fl (fl (c.maxVel.get ax) / (v.get ax).1) / 60) :=
        fl_nonneg (div_nonneg (fl_nonneg (div_nonneg (hm ax).le (hv ax))) (by norm_num))
      refine ⟨_, rfl, ?_, pmin64_left _ _, fun _ => ?_, ?_⟩
      · rcases pmin64 k (PyNum.ofRat (c.maxVel.get ax) /ₚ v.get ax /ₚ secInMin) with h | h
        · rw [h]; exact hk
        · rw [h, e]; exact h0
      · rw [← e]; exact pmin64_right _ _
      · rcases pmin64 k (PyNum.ofRat (c.maxVel.get ax) /ₚ v.get ax /ₚ secInMin) with h | h
        · exact .inl h
        · rw [h]; exact .inr ⟨hlt, e⟩
    · next hlt =>
      rw [lt64_iff, val_ofRat, val_mul, sec64] at hlt
      exact ⟨k, rfl, hk, le_rfl, fun h => absurd h hlt, .inl rfl⟩
  have one : (PyNum.ofRat 1 : F64).1 = 1 := by
    change fl ((1 : ℚ) : ℝ) = 1
    simp [fl_one]
  obtain ⟨k1, h1, p1, l1, b1, g1⟩ := ax1 (PyNum.ofRat 1) .x (by rw [one]; norm_num)
  obtain ⟨k2, h2, p2, l2, b2, g2⟩ := ax1 k1 .y p1
  obtain ⟨k3, h3, p3, l3, b3, g3⟩ := ax1 k2 .z p2
  obtain ⟨k4, h4, p4, l4, b4, g4⟩ := ax1 k3 .e p3
  rw [one] at l1
  refine ⟨k4, ?_, p4, by linarith, ?_, ?_⟩
  · simp only [V4.get] at h1 h2 h3 h4
    unfold adjustVelocity
    rw [ha, if_neg (by simp), h1]
    change (adjustAxis k1 v.y c.maxVel.y >>= _) = _
    rw [h2]
    change (adjustAxis k2 v.z c.maxVel.z >>= _) = _
    rw [h3]
    change (adjustAxis k3 v.e c.maxVel.e >>= _) = _
    rw [h4]
    rfl
  · intro ax hax
    cases ax
    · exact ((l4.trans l3).trans l2).trans (b1 hax)
    · exact (l4.trans l3).trans (b2 hax)
    · exact l4.trans (b3 hax)
    · exact b4 hax
  · rcases g4 with rfl | g4
    · rcases g3 with rfl | g3
      · rcases g2 with rfl | g2
        · rcases g1 with rfl | g1
          · exact .inl one
          · exact .inr ⟨_, g1⟩
        · exact .inr ⟨_, g2⟩
      · exact .inr ⟨_, g3⟩
    · exact .inr ⟨_, g4⟩

/-- Rounding to ten decimals does not pass a ten-decimal number that is nearly reached. -/
theorem r10_le64 {a : F64} {k : ℤ} (h : a.1 ≤ (k : ℝ) / 10 ^ 10 + 1 / (4 * 10 ^ 10)) :
    (PyNum.round10 a).1 ≤ fl ((k : ℝ) / 10 ^ 10) := by
  rw [val_round10]
  have e : E10 = 10 ^ 10 := e10_val
  rw [e]
  apply fl_mono
  have h1 := PyRound.near (a.1 * 10 ^ 10)
  have h2 : PyRound.rnd (a.1 * 10 ^ 10) ≤ k := by
    by_contra hc
    have hc : k + 1 ≤ PyRound.rnd (a.1 * 10 ^ 10) := by omega
    have hc : (k : ℝ) + 1 ≤ PyRound.rnd (a.1 * 10 ^ 10) := by exact_mod_cast hc
    have h3 := (abs_le.1 h1).2
    have h4 : a.1 * 10 ^ 10 ≤ k + 1 / 4 := by
      have := mul_le_mul_of_nonneg_right h (by norm_num : (0 : ℝ) ≤ 10 ^ 10)
      have e : ((k : ℝ) / 10 ^ 10 + 1 / (4 * 10 ^ 10)) * 10 ^ 10 = k + 1 / 4 := by
        field_simp
      linarith
    generalize PyRound.rnd (a.1 * 10 ^ 10) = R at *
    generalize a.1 * 10 ^ 10 = x at *
    norm_num at *
    linarith
  have h3 : (PyRound.rnd (a.1 * 10 ^ 10) : ℝ) ≤ k := by exact_mod_cast h2
  gcongr

/-- The velocity of an axis after the adjustment, before the final rounding. -/
theorem slow_le {s k M : ℝ} (hs : 0 ≤ s) (hk1 : k ≤ 1) (hM : 60 ≤ M)
    (hb : fl M < fl (s * 60) → k ≤ fl (fl (fl M / s) / 60)) :
    s * k ≤ M / 60 + M / 60 * (1 / 10 ^ 15) := by
  have hM0 : 0 ≤ M := by linarith
  have f1 := fl_hi2 hM0
  by_cases hx : fl M < fl (s * 60)
  · have h := hb hx
    have hs0 : 0 < s := by
      rcases hs.lt_or_eq with h | h
      · exact h
      · rw [← h, zero_mul, fl_zero] at hx
        have := fl_nonneg hM0
        linarith
    have n1 : 0 ≤ fl M / s := div_nonneg (fl_nonneg hM0) hs
    have f2 := fl_hi2 n1
    have n2 : 0 ≤ fl (fl M / s) / 60 := div_nonneg (fl_nonneg n1) (by norm_num)
    have f3 := fl_hi2 n2
    have h2 : s * k ≤ s * fl (fl (fl M / s) / 60) := mul_le_mul_of_nonneg_left h hs
    have e : s * (fl M / s) = fl M := by field_simp
    have h3 : s * fl (fl M / s) ≤ fl M + fl M * (2 / 10 ^ 16) := by
      have := mul_le_mul_of_nonneg_left f2 hs
      have e2 : s * (fl M / s + fl M / s * (2 / 10 ^ 16)) =
        s * (fl M / s) + s * (fl M / s) * (2 / 10 ^ 16) := by ring
      rw [e2, e] at this
      exact this
    have h4 := mul_le_mul_of_nonneg_left f3 hs
    have e3 : s * (fl (fl M / s) / 60 + fl (fl M / s) / 60 * (2 / 10 ^ 16)) =
      s * fl (fl M / s) / 60 + s * fl (fl M / s) / 60 * (2 / 10 ^ 16) := by ring
    rw [e3] at h4
    generalize s * fl (fl M / s) = X at *
    linarith
  · have f2 := fl_lo2 (show 0 ≤ s * 60 by positivity)
    have h1 : s * k ≤ s := mul_le_of_le_one_right hs hk1
    push Not at hx
    linarith

/-- The arithmetic of a short move, with the errors of binary64. -/
theorem short_limit_aux64 {d df L q wf w M Mf : ℝ} (hd : 0 ≤ d) (hdf : 0 < df) (hL : 0 < L)
    (h2 : d ^ 2 + df ^ 2 ≤ L ^ 2) (hLdf : df ≤ L) (hdL : d ≤ L) (hhalf : L ≤ 21 / 10 * df)
    (hq : 0 < q) (h3 : wf ≤ df * q + 2 / 10 ^ 10) (h4 : df * q ≤ wf + 2 / 10 ^ 10)
    (h5 : d * q ≤ w + 2 / 10 ^ 10) (hw : w ≤ M) (hwf : wf ≤ Mf) (hM : 1 ≤ M) (hMf : Mf ≤ 1001) :
    d * wf ≤ M * L := by
  have hηL : d * (2 / 10 ^ 10) ≤ L * (2 / 10 ^ 10) := by nlinarith
  have h6 : d * wf ≤ d * q * df + d * (2 / 10 ^ 10) := by
    have := mul_le_mul_of_nonneg_left h3 hd
    linarith
  rcases le_total (d * q) (M / 2) with h7 | h7
  · have h8 : d * q * df ≤ M / 2 * L := by
      apply mul_le_mul h7 hLdf hdf.le (by linarith)
    nlinarith
  · have h8 : 1 / 2 ≤ d * q := by linarith
    have h9 : df * q ≤ 1002 := by norm_num at h4 ⊢; linarith
    have h10 : df ≤ 2004 * d := by
      have : df * q ≤ 2004 * d * q := by linarith
      exact le_of_mul_le_mul_right this hq
    have h11 : L ≤ 4209 * d := by linarith
    have hsq : L ^ 2 ≤ 4209 ^ 2 * d ^ 2 := by
      rw [← mul_pow]; exact pow_le_pow_left₀ hL.le h11 2
    have h12 : 2 * df * L ≤ 2 * L ^ 2 - d ^ 2 := by nlinarith [sq_nonneg (L - df)]
    have h13 : d * q * df ≤ (M + 2 / 10 ^ 10) * df :=
      mul_le_mul_of_nonneg_right (by linarith) hdf.le
    have h14 : d * wf ≤ (M + 2 / 10 ^ 10) * df + L * (2 / 10 ^ 10) := by linarith
    have h15 : d * wf * (2 * L) ≤ (M + 2 / 10 ^ 10) * (2 * L ^ 2 - d ^ 2) +
        2 * L ^ 2 * (2 / 10 ^ 10) := by
      have := mul_le_mul_of_nonneg_right h14 (by linarith : 0 ≤ 2 * L)
      have h16 := mul_le_mul_of_nonneg_left h12 (by positivity : 0 ≤ M + 2 / 10 ^ 10)
      linear_combination this + h16
    have h17 : M * L ^ 2 * 2 ≥ d * wf * (2 * L) := by
      have h18 : d ^ 2 ≤ M * d ^ 2 := le_mul_of_one_le_left (sq_nonneg d) hM
      have h19 := sq_nonneg d
      generalize d ^ 2 = D at *
      generalize d * wf * (2 * L) = X at *
      norm_num at *
      linarith
    have : d * wf * (2 * L) ≤ M * L * (2 * L) := by linear_combination h17
    exact le_of_mul_le_mul_right this (by linarith)

/-- A velocity is nearly proportional to the distance of its axis. -/
theorem speed_near64 {D P k : F64} (hD : 0 ≤ D.1) (hP : 0 ≤ P.1) (hk0 : 0 ≤ k.1) (hk1 : k.1 ≤ 1)
    (hsk : (PyNum.round10 (D *ₚ P)).1 * k.1 ≤ 1001) :
    |(PyNum.round10 (PyNum.round10 (D *ₚ P) *ₚ k)).1 - D.1 * (P.1 * k.1)| ≤ 2 / 10 ^ 10 := by
  have h1 := r10_near (D *ₚ P)
  have h2 := r10_near (PyNum.round10 (D *ₚ P) *ₚ k)
  have hDP : 0 ≤ D.1 * P.1 := mul_nonneg hD hP
  have hf : 0 ≤ (D *ₚ P).1 := fl_nonneg hDP
  have hs0 : 0 ≤ (PyNum.round10 (D *ₚ P)).1 := r10_nonneg hf
  generalize PyNum.round10 (D *ₚ P) = s at *
  have hsk0 : 0 ≤ s.1 * k.1 := mul_nonneg hs0 hk0
  have hg : 0 ≤ (s *ₚ k).1 := fl_nonneg hsk0
  rw [abs_of_nonneg hf] at h1
  rw [abs_of_nonneg hg] at h2
  generalize (PyNum.round10 (s *ₚ k)).1 = w at *
  have a1 := fl_hi hDP
  have a2 := fl_lo hDP
  have b1 := fl_hi hsk0
  have b2 := fl_lo hsk0
  rw [← val_mul] at a1 a2 b1 b2
  obtain ⟨c1, c2⟩ := abs_le.1 h1
  obtain ⟨d1, d2⟩ := abs_le.1 h2
  generalize (D *ₚ P).1 = f at *
  generalize (s *ₚ k).1 = g at *
  have e : D.1 * (P.1 * k.1) = D.1 * P.1 * k.1 := by ring
  rw [e]
  generalize D.1 * P.1 = X at *
  have u : s.1 ≤ X + X * (3 / 10 ^ 15) + 6 / 10 ^ 11 := by nlinarith
  have l : X - X * (3 / 10 ^ 15) - 6 / 10 ^ 11 ≤ s.1 := by nlinarith
  have u2 := mul_le_mul_of_nonneg_right u hk0
  have l2 := mul_le_mul_of_nonneg_right l hk0
  have hX0 : 0 ≤ X * k.1 := mul_nonneg hDP hk0
  have e1 : (X + X * (3 / 10 ^ 15) + 6 / 10 ^ 11) * k.1 =
    X * k.1 + X * k.1 * (3 / 10 ^ 15) + 6 / 10 ^ 11 * k.1 := by ring
  have e2 : (X - X * (3 / 10 ^ 15) - 6 / 10 ^ 11) * k.1 =
    X * k.1 - X * k.1 * (3 / 10 ^ 15) - 6 / 10 ^ 11 * k.1 := by ring
  rw [e1] at u2
  rw [e2] at l2
  have hXk : X * k.1 ≤ 1002 := by linarith
  generalize X * k.1 = Y at *
  generalize s.1 * k.1 = Z at *
  rw [abs_le]
  constructor <;> norm_num at * <;> linarith

/-- The arithmetic of a sum of four squares. -/
theorem sum4_64 {x y z e sx sy sz se s2 s3 S : ℝ} (px : 0 ≤ x) (py : 0 ≤ y) (pz : 0 ≤ z)
    (pe : 0 ≤ e) (x1 : |sx - x| ≤ x * (2 / 10 ^ 16)) (y1 : |sy - y| ≤ y * (2 / 10 ^ 16))
    (z1 : |sz - z| ≤ z * (2 / 10 ^ 16)) (e1 : |se - e| ≤ e * (2 / 10 ^ 16))
    (a : |s2 - (sx + sy)| ≤ (sx + sy) * (2 / 10 ^ 16))
    (b : |s3 - (s2 + sz)| ≤ (s2 + sz) * (2 / 10 ^ 16))
    (d : |S - (s3 + se)| ≤ (s3 + se) * (2 / 10 ^ 16)) :
    (x + y + z + e) * (1 - 10 / 10 ^ 16) ≤ S ∧ S ≤ (x + y + z + e) * (1 + 10 / 10 ^ 16) := by
  obtain ⟨x1, x2⟩ := abs_le.1 x1
  obtain ⟨y1, y2⟩ := abs_le.1 y1
  obtain ⟨z1, z2⟩ := abs_le.1 z1
  obtain ⟨e1, e2⟩ := abs_le.1 e1
  obtain ⟨a1, a2⟩ := abs_le.1 a
  obtain ⟨b1, b2⟩ := abs_le.1 b
  obtain ⟨d1, d2⟩ := abs_le.1 d
  have l2 : (x + y) * (1 - 5 / 10 ^ 16) ≤ s2 ∧ s2 ≤ (x + y) * (1 + 5 / 10 ^ 16) := by
    clear d1 d2 b1 b2 z1 z2 e1 e2
    norm_num at *
    constructor <;> linarith
  have l3 : (x + y + z) * (1 - 7 / 10 ^ 16 - 1 / 10 ^ 17) ≤ s3 ∧
      s3 ≤ (x + y + z) * (1 + 7 / 10 ^ 16 + 1 / 10 ^ 17) := by
    clear d1 d2 a1 a2 e1 e2 x1 x2 y1 y2
    norm_num at *
    constructor <;> linarith
  clear b1 b2 a1 a2 z1 z2 x1 x2 y1 y2 l2
  norm_num at *
  constructor <;> linarith

theorem fl_near2 {x : ℝ} (h : 0 ≤ x) : |fl x - x| ≤ x * (2 / 10 ^ 16) := by
  rw [abs_le]
  exact ⟨by linarith [fl_lo2 h], by linarith [fl_hi2 h]⟩

/-- The computed sum of the squares of the components. -/
theorem sumsq64 (v : V4 F64) : ∃ S, 0 ≤ S ∧ (Coord.length v).1 = fl √S ∧
    (v.x.1 ^ 2 + v.y.1 ^ 2 + v.z.1 ^ 2 + v.e.1 ^ 2) * (1 - 10 / 10 ^ 16) ≤ S ∧
    S ≤ (v.x.1 ^ 2 + v.y.1 ^ 2 + v.z.1 ^ 2 + v.e.1 ^ 2) * (1 + 10 / 10 ^ 16) := by
  have sq : ∀ x : F64, |(x *ₚ x).1 - x.1 ^ 2| ≤ x.1 ^ 2 * (2 / 10 ^ 16) := fun x => by
    rw [pow_two]; exact fl_near2 (mul_self_nonneg x.1)
  have nn : ∀ x : F64, 0 ≤ (x *ₚ x).1 := fun x => fl_nonneg (mul_self_nonneg x.1)
  have a0 : 0 ≤ (v.x *ₚ v.x).1 + (v.y *ₚ v.y).1 := add_nonneg (nn _) (nn _)
  have a3 := fl_nonneg a0
  rw [← val_add] at a3
  have b0 : 0 ≤ (v.x *ₚ v.x +ₚ v.y *ₚ v.y).1 + (v.z *ₚ v.z).1 := add_nonneg a3 (nn _)
  have b3 := fl_nonneg b0
  rw [← val_add] at b3
  have c0 : 0 ≤ (v.x *ₚ v.x +ₚ v.y *ₚ v.y +ₚ v.z *ₚ v.z).1 + (v.e *ₚ v.e).1 :=
    add_nonneg b3 (nn _)
  have c3 := fl_nonneg c0
  rw [← val_add] at c3
  exact ⟨_, c3, rfl, sum4_64 (sq_nonneg _) (sq_nonneg _) (sq_nonneg _) (sq_nonneg _) (sq v.x)
    (sq v.y) (sq v.z) (sq v.e) (fl_near2 a0) (fl_near2 b0) (fl_near2 c0)⟩

/-- The squares of two components against the computed length. -/
theorem sq_two_le64 {v : V4 F64} {i j : Axis} (hij : i ≠ j) :
    (v.get i).1 ^ 2 + (v.get j).1 ^ 2 ≤ ((Coord.length v).1 * (1 + 1 / 10 ^ 15)) ^ 2 := by
  obtain ⟨S, c3, e, hlo, -⟩ := sumsq64 v
  rw [e]
  have r1 := fl_lo2 (Real.sqrt_nonneg S)
  have rs := Real.sq_sqrt c3
  have rn := Real.sqrt_nonneg S
  have px := sq_nonneg v.x.1
  have py := sq_nonneg v.y.1
  have pz := sq_nonneg v.z.1
  have pw := sq_nonneg v.e.1
  have h2 : (v.get i).1 ^ 2 + (v.get j).1 ^ 2 ≤
      v.x.1 ^ 2 + v.y.1 ^ 2 + v.z.1 ^ 2 + v.e.1 ^ 2 := by
    cases i <;> cases j <;> simp only [V4.get] <;>
      first
      | exact absurd rfl hij
      | linarith
  have hX : 0 ≤ (v.get i).1 ^ 2 + (v.get j).1 ^ 2 := by positivity
  generalize (v.get i).1 ^ 2 + (v.get j).1 ^ 2 = X at *
  generalize v.x.1 ^ 2 + v.y.1 ^ 2 + v.z.1 ^ 2 + v.e.1 ^ 2 = N at *
  generalize fl √S = f at *
  generalize √S = r at *
  have g1 : X * (1 - 10 / 10 ^ 16) ≤ r ^ 2 := by
    rw [rs]; refine le_trans ?_ hlo
    exact mul_le_mul_of_nonneg_right h2 (by norm_num)
  have g2 : r * ((1 - 2 / 10 ^ 16) * (1 + 1 / 10 ^ 15)) ≤ f * (1 + 1 / 10 ^ 15) := by
    rw [← mul_assoc]
    refine mul_le_mul_of_nonneg_right ?_ (by norm_num)
    linarith
  have g3 : (r * ((1 - 2 / 10 ^ 16) * (1 + 1 / 10 ^ 15))) ^ 2 ≤ (f * (1 + 1 / 10 ^ 15)) ^ 2 :=
    pow_le_pow_left₀ (mul_nonneg rn (by norm_num)) g2 2
  refine le_trans ?_ g3
  rw [mul_pow]
  have g4 : (1 : ℝ) ≤ (1 - 10 / 10 ^ 16) * ((1 - 2 / 10 ^ 16) * (1 + 1 / 10 ^ 15)) ^ 2 := by norm_num
  have g5 := mul_le_mul_of_nonneg_right g1
    (by norm_num : (0 : ℝ) ≤ ((1 - 2 / 10 ^ 16) * (1 + 1 / 10 ^ 15)) ^ 2)
  refine le_trans ?_ g5
  rw [mul_assoc]
  exact le_mul_of_one_le_right hX g4

/-- The computed length is at most twice the longest component, up to rounding. -/
theorem length_le_two64 {v : V4 F64} {m : ℝ} (hm : ∀ ax, (v.get ax).1 ^ 2 ≤ m ^ 2) (hm0 : 0 ≤ m) :
    (Coord.length v).1 ≤ 2 * m * (1 + 1 / 10 ^ 14) := by
  obtain ⟨S, c3, e, -, hhi⟩ := sumsq64 v
  rw [e]
  have r2 := fl_hi2 (Real.sqrt_nonneg S)
  have mx := hm .x
  have my := hm .y
  have mz := hm .z
  have me := hm .e
  simp only [V4.get] at mx my mz me
  have h4 : S ≤ (2 * m * (1 + 10 / 10 ^ 16)) ^ 2 := by
    have h : S ≤ 4 * m ^ 2 * (1 + 10 / 10 ^ 16) := by
      refine hhi.trans ?_
      refine mul_le_mul_of_nonneg_right ?_ (by norm_num)
      linarith
    have := sq_nonneg m
    rw [mul_pow, mul_pow]
    norm_num at *
    linarith
  have h5 : √S ≤ 2 * m * (1 + 10 / 10 ^ 16) := by
    rw [Real.sqrt_le_left (by positivity)]; exact h4
  generalize √S = r at *
  clear hhi mx my mz me h4 hm
  norm_num at *
  linarith

/-! ## The limit -/

theorem get_max64 (v : V4 F64) : ∃ ax, Coord.findMax v = v.get ax := by
  have p : ∀ a b : F64, pmax a b = a ∨ pmax a b = b := fun a b => by
    unfold pmax; split <;> simp
  unfold Coord.findMax
  rcases p (pmax (pmax v.x v.y) v.z) v.e with h | h
  · rw [h]
    rcases p (pmax v.x v.y) v.z with h | h
    · rw [h]
      rcases p v.x v.y with h | h
      · exact ⟨.x, h⟩
      · exact ⟨.y, h⟩
    · exact ⟨.z, h⟩
  · exact ⟨.e, h⟩

/-- The last velocity of a short move. -/
theorem short_speed64 {d wf M L a T : ℝ} (hd : 0 ≤ d) (hM : 1 ≤ M) (hL : 0 < L) (ha : 0 < a)
    (hT : 0 < T) (hwf : 0 ≤ wf) (h1 : d * wf ≤ M * (L * (1 + 1 / 10 ^ 15)))
    (h2 : L * a ≤ wf ^ 2 * (1 + 11 / 10 ^ 16)) (h3 : L ≤ T ^ 2 * a * (1 + 7 / 10 ^ 16)) :
    d ≤ M * T * (1 + 3 / 10 ^ 15) := by
  have g1 : d ^ 2 * wf ^ 2 ≤ M ^ 2 * L ^ 2 * (1 + 1 / 10 ^ 15) ^ 2 := by
    have := pow_le_pow_left₀ (mul_nonneg hd hwf) h1 2
    nlinarith
  have g2 : d ^ 2 * (L * a) ≤ d ^ 2 * (wf ^ 2 * (1 + 11 / 10 ^ 16)) :=
    mul_le_mul_of_nonneg_left h2 (sq_nonneg d)
  have g3 : d ^ 2 * (L * a) ≤ M ^ 2 * L ^ 2 * (1 + 1 / 10 ^ 15) ^ 2 * (1 + 11 / 10 ^ 16) := by
    have := mul_le_mul_of_nonneg_right g1 (by norm_num : (0 : ℝ) ≤ 1 + 11 / 10 ^ 16)
    linarith
  have g4 : d ^ 2 * a ≤ M ^ 2 * L * ((1 + 1 / 10 ^ 15) ^ 2 * (1 + 11 / 10 ^ 16)) := by
    have : d ^ 2 * a * L ≤ M ^ 2 * L * ((1 + 1 / 10 ^ 15) ^ 2 * (1 + 11 / 10 ^ 16)) * L := by
      linarith
    exact le_of_mul_le_mul_right this hL
  have g5 : M ^ 2 * L ≤ M ^ 2 * (T ^ 2 * a * (1 + 7 / 10 ^ 16)) :=
    mul_le_mul_of_nonneg_left h3 (sq_nonneg M)
  have g6 := mul_le_mul_of_nonneg_right g5
    (by norm_num : (0 : ℝ) ≤ (1 + 1 / 10 ^ 15) ^ 2 * (1 + 11 / 10 ^ 16))
  have g7 : d ^ 2 ≤ (M * T) ^ 2 * ((1 + 7 / 10 ^ 16) * ((1 + 1 / 10 ^ 15) ^ 2 * (1 + 11 / 10 ^ 16))) := by
    refine le_of_mul_le_mul_right ?_ ha
    linarith
  have g8 : d ^ 2 ≤ (M * T * (1 + 3 / 10 ^ 15)) ^ 2 := by
    refine g7.trans ?_
    rw [mul_pow (M * T)]
    exact mul_le_mul_of_nonneg_left (by norm_num) (sq_nonneg _)
  have hMT : 0 ≤ M * T := by positivity
  exact abs_le_of_sq_le_sq' g8 (by positivity) |>.2

/-- The condition for a short move. -/
theorem short_cond {L W : F64} {a : ℚ} (hA0 : 0 < fl (a : ℝ)) (w0 : 0 ≤ W.1)
    (hshort : L.1 < (PyNum.ofRat a *ₚ ((W /ₚ PyNum.ofRat a) *ₚ (W /ₚ PyNum.ofRat a)) : F64).1) :
    L.1 * fl (a : ℝ) ≤ W.1 ^ 2 * (1 + 11 / 10 ^ 16) := by
  rw [val_mul, val_mul, val_div, val_ofRat] at hshort
  have n0 : 0 ≤ W.1 / fl (a : ℝ) := div_nonneg w0 hA0.le
  have f0 := fl_hi2 n0
  have p0 := fl_nonneg n0
  have f1 := fl_hi2 (mul_nonneg p0 p0)
  have p1 := fl_nonneg (mul_nonneg p0 p0)
  have f2 := fl_hi2 (mul_nonneg hA0.le p1)
  generalize W.1 = W at *
  generalize fl (a : ℝ) = a at *
  have q0 : fl (W / a) * fl (W / a) ≤ (W / a) ^ 2 * (1 + 2 / 10 ^ 16) ^ 2 := by
    rw [← mul_pow, pow_two]
    exact mul_self_le_mul_self p0 (by linarith)
  have q1 : fl (fl (W / a) * fl (W / a)) ≤ (W / a) ^ 2 * (1 + 2 / 10 ^ 16) ^ 3 := by
    refine f1.trans ?_
    have := mul_le_mul_of_nonneg_right q0 (by norm_num : (0 : ℝ) ≤ 1 + 2 / 10 ^ 16)
    refine le_trans (le_of_eq ?_) (this.trans (le_of_eq ?_)) <;> ring
  have q2 : a * fl (fl (W / a) * fl (W / a)) ≤ a * ((W / a) ^ 2 * (1 + 2 / 10 ^ 16) ^ 3) :=
    mul_le_mul_of_nonneg_left q1 hA0.le
  have q3 : L.1 ≤ a * (W / a) ^ 2 * (1 + 2 / 10 ^ 16) ^ 4 := by
    refine hshort.le.trans (f2.trans ?_)
    have := mul_le_mul_of_nonneg_right q2 (by norm_num : (0 : ℝ) ≤ 1 + 2 / 10 ^ 16)
    refine le_trans (le_of_eq ?_) (this.trans (le_of_eq ?_)) <;> ring
  have q4 := mul_le_mul_of_nonneg_right q3 hA0.le
  have e : a * (W / a) ^ 2 * (1 + 2 / 10 ^ 16) ^ 4 * a = W ^ 2 * (1 + 2 / 10 ^ 16) ^ 4 := by
    field_simp
  rw [e] at q4
  refine q4.trans ?_
  exact mul_le_mul_of_nonneg_left (by norm_num) (sq_nonneg W)

/-- The time of a short move. -/
theorem short_time {L : F64} {a : ℚ} (hA0 : 0 < fl (a : ℝ)) (hL0 : 0 < L.1) :
    L.1 ≤ (PyNum.sqrt (L /ₚ PyNum.ofRat a)).1 ^ 2 * fl (a : ℝ) * (1 + 7 / 10 ^ 16) := by
  rw [val_sqrt, val_div, val_ofRat]
  generalize fl (a : ℝ) = a at *
  have n0 : 0 ≤ L.1 / a := div_nonneg hL0.le hA0.le
  have f0 := fl_lo2 n0
  have p0 := fl_nonneg n0
  have f1 := fl_lo2 (Real.sqrt_nonneg (fl (L.1 / a)))
  have p1 := Real.sqrt_nonneg (fl (L.1 / a))
  have s1 := Real.sq_sqrt p0
  generalize fl √(fl (L.1 / a)) = T at *
  have q1 : (√(fl (L.1 / a)) * (1 - 2 / 10 ^ 16)) ^ 2 ≤ T ^ 2 :=
    pow_le_pow_left₀ (mul_nonneg p1 (by norm_num)) (by linarith) 2
  rw [mul_pow, s1] at q1
  have q2 : L.1 / a * (1 - 2 / 10 ^ 16) ^ 3 ≤ T ^ 2 := by
    refine le_trans ?_ q1
    have := mul_le_mul_of_nonneg_right f0 (by norm_num : (0 : ℝ) ≤ (1 - 2 / 10 ^ 16) ^ 2)
    refine le_trans (le_of_eq ?_) this
    ring
  have q3 := mul_le_mul_of_nonneg_right q2 hA0.le
  have e : L.1 / a * (1 - 2 / 10 ^ 16) ^ 3 * a = L.1 * (1 - 2 / 10 ^ 16) ^ 3 := by
    field_simp
  rw [e] at q3
  have q4 := mul_le_mul_of_nonneg_right q3 (by norm_num : (0 : ℝ) ≤ 1 + 7 / 10 ^ 16)
  refine le_trans ?_ q4
  rw [mul_assoc]
  exact le_mul_of_one_le_right hL0.le (by norm_num)

/-- The velocity of an axis that had to be slowed down is about its limit. -/
theorem slowed_ge {s k : F64} {M : ℝ} (hM : 60 ≤ M) (hs1 : 0 < s.1)
    (hk1 : k.1 = fl (fl (fl M / s.1) / 60)) : 1 / 2 ≤ (PyNum.round10 (s *ₚ k)).1 := by
  have hM' : 60 ≤ fl M := by rw [← fl_60]; exact fl_mono hM
  have n1 : 0 ≤ fl M / s.1 := by positivity
  have f1 := mul_le_mul_of_nonneg_left (fl_lo n1) hs1.le
  have n2 : 0 ≤ fl (fl M / s.1) / 60 := div_nonneg (fl_nonneg n1) (by norm_num)
  have f2 := mul_le_mul_of_nonneg_left (fl_lo n2) hs1.le
  rw [← hk1] at f2
  have e1 : s.1 * (fl M / s.1 - fl M / s.1 * (1 / 10 ^ 15)) = fl M * (1 - 1 / 10 ^ 15) := by
    field_simp
  rw [e1] at f1
  have e2 : s.1 * (fl (fl M / s.1) / 60 - fl (fl M / s.1) / 60 * (1 / 10 ^ 15)) =
      s.1 * fl (fl M / s.1) * ((1 - 1 / 10 ^ 15) / 60) := by ring
  rw [e2] at f2
  have h3 : 9 / 10 ≤ s.1 * k.1 := by
    generalize s.1 * fl (fl M / s.1) = X at *
    generalize fl M = Y at *
    norm_num at *
    linarith
  have h5 := (abs_le.1 (r10_near (s *ₚ k))).1
  have h6 := fl_lo (show 0 ≤ s.1 * k.1 from by linarith)
  have h7 : 0 ≤ (s *ₚ k).1 := fl_nonneg (show 0 ≤ s.1 * k.1 from by linarith)
  rw [abs_of_nonneg h7] at h5
  rw [← val_mul] at h6
  linarith

/-- The fastest axis is nearly the longest. -/
theorem half_aux {L X mf mm df q : ℝ} (hq0 : 0 < q) (hLmx : L ≤ 2 * X * (1 + 1 / 10 ^ 14))
    (h1 : mm ≤ mf) (nmx : X * q ≤ mm + 2 / 10 ^ 10) (nf : mf ≤ df * q + 2 / 10 ^ 10)
    (hbig : 7 / 1000 ≤ mf) : L * (1 + 1 / 10 ^ 15) ≤ 21 / 10 * df := by
  refine le_of_mul_le_mul_right ?_ hq0
  have h2 := mul_le_mul_of_nonneg_right hLmx hq0.le
  have e : 2 * X * (1 + 1 / 10 ^ 14) * q = X * q * (2 * (1 + 1 / 10 ^ 14)) := by ring
  have e2 : 21 / 10 * df * q = 21 / 10 * (df * q) := by ring
  have e3 : L * (1 + 1 / 10 ^ 15) * q = L * q * (1 + 1 / 10 ^ 15) := by ring
  rw [e] at h2
  rw [e2, e3]
  generalize X * q = A at *
  generalize df * q = B at *
  generalize L * q = Z at *
  norm_num at *
  linarith

/-- With automatic adjustment no axis of a linear move is faster than its limit, in binary64. -/
theorem limit64 {c : Cfg} (hc : SaneCfg c) (hd : DecimalLimits c)
    (hm : ∀ ax, c.maxVel.get ax ≤ 60000) (ha : c.autoVel = true) {n : V4 ℤ} {w : V4 F64} {v : F64}
    (h : Steps64 c n w) (hn : ∃ ax, n.get ax ≠ 0) (hv : 1 ≤ v.1) {g : LinearGen F64}
    (hg : LinearGen.new c w v = .ok g) (ax : Axis) :
    (g.maxV.get ax).1 ≤ fl (c.maxVel.get ax / 60) := by
  have hP : ∀ ax, (0 : ℝ) < c.ppm.get ax := fun ax => by exact_mod_cast hc.ppm_pos ax
  have hP2 : ∀ ax, (c.ppm.get ax : ℝ) ≤ 1000 := fun ax => by exact_mod_cast hc.ppm_le ax
  have hA : (1 : ℝ) ≤ c.accel := by exact_mod_cast hc.accel
  have hA0 : 0 < fl (c.accel : ℝ) := fl_pos (by linarith)
  have hM1 : ∀ ax, (60 : ℝ) ≤ c.maxVel.get ax := fun ax => by exact_mod_cast hc.maxVel ax
  have hM2 : ∀ ax, (c.maxVel.get ax : ℝ) ≤ 60000 := fun ax => by exact_mod_cast hm ax
  have hD := abs64 hc h
  set D := Coord.abs w with hDd
  have hD0 : ∀ ax, 0 ≤ (D.get ax).1 := fun ax => (hD ax).2.1
  have hDle : ∀ ax, (D.get ax).1 ≤ 10001 := fun ax => by
    have h1 := (abs_le.1 (hD ax).1).2
    have h2 : |(n.get ax : ℝ)| / c.ppm.get ax ≤ 10 ^ 4 := by
      rw [div_le_iff₀ (hP ax)]; exact h.size ax
    linarith
  have hDge : ∀ ax, n.get ax ≠ 0 → 9 / 10000 ≤ (D.get ax).1 := fun ax hax => by
    have h1 := (abs_le.1 (hD ax).1).1
    have h2 : 1 / 1000 ≤ |(n.get ax : ℝ)| / c.ppm.get ax := by
      rw [le_div_iff₀ (hP ax)]
      have : 1 ≤ |n.get ax| := Int.one_le_abs hax
      have : (1 : ℝ) ≤ |(n.get ax : ℝ)| := by exact_mod_cast this
      have := hP2 ax
      linarith
    linarith
  obtain ⟨a0, ha0⟩ := hn
  have hL1 : 9 / 10000 ≤ (Coord.length D).1 := (hDge a0 ha0).trans (length64 hD0 a0)
  have hL2 := length64_le hD0 hDle
  have hL0 : 0 < (Coord.length D).1 := by linarith
  have hLlen := length64 hD0
  have hLtwo := fun i j => @sq_two_le64 _ D i j
  have hLle := @length_le_two64 _ D
  set L := Coord.length D with hLd
  set P : F64 := v /ₚ secInMin /ₚ L with hPd
  have hPL : 1 / 62 ≤ P.1 * L.1 := by
    rw [hPd, val_div, val_div, sec64]
    have h1 := fl_lo (show 0 ≤ v.1 / 60 by positivity)
    have h2 : 1 / 61 ≤ fl (v.1 / 60) := by linarith
    have h3 : 0 ≤ fl (v.1 / 60) / L.1 := div_nonneg (by linarith) hL0.le
    have h4 := mul_le_mul_of_nonneg_right (fl_lo h3) hL0.le
    have e : (fl (v.1 / 60) / L.1 - fl (v.1 / 60) / L.1 * (1 / 10 ^ 15)) * L.1 =
        fl (v.1 / 60) * (1 - 1 / 10 ^ 15) := by field_simp
    rw [e] at h4
    refine le_trans ?_ h4
    nlinarith
  have hP0 : 0 < P.1 := by
    by_contra hcon
    have h1 : P.1 * L.1 ≤ 0 := mul_nonpos_of_nonpos_of_nonneg (not_lt.1 hcon) hL0.le
    linarith
  have hs0 : ∀ ax, 0 ≤ ((Coord.smul D P).get ax).1 := fun ax => by
    rw [get_smul64]; exact r10_nonneg (fl_nonneg (mul_nonneg (hD0 ax) hP0.le))
  obtain ⟨k, hk, hk0, hk1, hkb, hke⟩ := adjust64_auto hc ha hs0
  set m := Coord.smul (Coord.smul D P) k with hmd
  -- the velocities before a possible correction for a short move
  have hsk : ∀ ax, ((Coord.smul D P).get ax).1 * k.1 ≤
      (c.maxVel.get ax : ℝ) / 60 + c.maxVel.get ax / 60 * (1 / 10 ^ 15) := fun ax =>
    slow_le (hs0 ax) hk1 (hM1 ax) (hkb ax)
  have hmle : ∀ ax, (m.get ax).1 ≤ fl (c.maxVel.get ax / 60) := fun ax => by
    obtain ⟨K, hK⟩ := hd ax
    rw [hmd, get_smul64, hK]
    refine r10_le64 ?_
    rw [← hK, val_mul]
    have h1 := fl_hi (mul_nonneg (hs0 ax) hk0)
    have h2 := hsk ax
    have h3 := hM2 ax
    have h4 := hM1 ax
    norm_num at *
    linarith
  have hm0 : ∀ ax, 0 ≤ (m.get ax).1 := fun ax => by
    rw [hmd, get_smul64]; exact r10_nonneg (fl_nonneg (mul_nonneg (hs0 ax) hk0))
  unfold LinearGen.new at hg
  simp only at hg
  rw [← hDd, ← hLd, pdiv64_ok hL0.ne'] at hg
  change (adjustVelocity c (Coord.smul D P) >>= _) = _ at hg
  rw [hk] at hg
  change (if L <ₚ PyNum.ofRat c.accel *ₚ ((Coord.findMax m /ₚ PyNum.ofRat c.accel) *ₚ
      (Coord.findMax m /ₚ PyNum.ofRat c.accel)) then _ else _) = _ at hg
  split at hg
  · next hshort =>
    have hT : 0 < (PyNum.sqrt (L /ₚ PyNum.ofRat c.accel)).1 :=
      fl_pos (Real.sqrt_pos.2 (fl_pos (div_pos hL0 hA0)))
    obtain ⟨u, hu, hue⟩ := get_sdiv64 (v := D) hT.ne'
    rw [hu] at hg
    cases hg
    simp only
    rw [hue]
    obtain ⟨K, hK⟩ := hd ax
    rw [hK]
    refine r10_le64 ?_
    rw [← hK, val_div]
    obtain ⟨f, hf⟩ := get_max64 m
    have hfm : ∀ ax, (m.get ax).1 ≤ (m.get f).1 := fun ax => by
      rw [← hf]; exact findMax64 m ax
    have hMM : ∀ ax, (1 : ℝ) ≤ (c.maxVel.get ax : ℝ) / 60 := fun ax => by
      have := hM1 ax; linarith
    have hMN : ∀ ax, (c.maxVel.get ax : ℝ) / 60 ≤ 1000 := fun ax => by
      have := hM2 ax; linarith
    have hmM : ∀ ax, (m.get ax).1 ≤
        (c.maxVel.get ax : ℝ) / 60 * (1 + 2 / 10 ^ 16) := fun ax => by
      refine (hmle ax).trans ?_
      have := fl_hi2 (show 0 ≤ (c.maxVel.get ax : ℝ) / 60 by linarith [hMM ax])
      linarith
    -- velocities and distances
    have hnear : ∀ ax, |(m.get ax).1 - (D.get ax).1 * (P.1 * k.1)| ≤ 2 / 10 ^ 10 := fun ax => by
      rw [hmd, get_smul64, get_smul64]
      refine speed_near64 (hD0 ax) hP0.le hk0 hk1 ?_
      have h1 := hsk ax
      rw [get_smul64] at h1
      have h2 := hMN ax
      have h3 := hMM ax
      linarith
    -- the longest axis
    obtain ⟨mx, hmx⟩ := get_max64 D
    have hmxD : ∀ ax, (D.get ax).1 ≤ (D.get mx).1 := fun ax => by
      rw [← hmx]; exact findMax64 D ax
    have hLmx : L.1 ≤ 2 * (D.get mx).1 * (1 + 1 / 10 ^ 14) :=
      hLle (fun ax => pow_le_pow_left₀ (hD0 ax) (hmxD ax) 2) (hD0 mx)
    -- the fastest axis is fast enough to be compared
    have hbig : 7 / 1000 ≤ (m.get f).1 := by
      rcases hke with hk1 | ⟨a, hb, hk1⟩
      · have h1 := (abs_le.1 (hnear mx)).1
        rw [hk1, mul_one] at h1
        have h2 := hfm mx
        have h3 : P.1 * L.1 ≤ P.1 * (2 * (D.get mx).1 * (1 + 1 / 10 ^ 14)) :=
          mul_le_mul_of_nonneg_left hLmx hP0.le
        generalize (m.get f).1 = X at *
        generalize (m.get mx).1 = Y at *
        have e : P.1 * (2 * (D.get mx).1 * (1 + 1 / 10 ^ 14)) =
          (D.get mx).1 * P.1 * (2 * (1 + 1 / 10 ^ 14)) := by ring
        rw [e] at h3
        generalize (D.get mx).1 * P.1 = Z at *
        generalize P.1 * L.1 = W at *
        clear hnear hmM hsk hmle hM1 hM2 hMM hMN hD hkb
        norm_num at *
        linarith
      · refine le_trans ?_ (hfm a)
        have hfl60 : fl (c.maxVel.get a) < fl (((Coord.smul D P).get a).1 * fl 60) := by
          rw [fl_60]; exact hb
        have hs : |((Coord.smul D P).get a).1 - fl ((D.get a).1 * P.1)| ≤
            6 / 10 ^ 11 + |fl ((D.get a).1 * P.1)| * (1 / 10 ^ 15) := by
          rw [get_smul64]; exact r10_near _
        obtain ⟨hs1, -⟩ := speed_hi (hD0 a) hP0.le (hM1 a) hs hfl60
        rw [hmd, get_smul64]
        exact le_trans (by norm_num) (slowed_ge (hM1 a) hs1 hk1)
    have hq0 : 0 < P.1 * k.1 := by
      rcases (mul_nonneg hP0.le hk0).lt_or_eq with h1 | h1
      · exact h1
      · have h2 := (abs_le.1 (hnear f)).2
        rw [← h1, mul_zero, sub_zero] at h2
        norm_num at h2 hbig
        linarith
    have hdf : 0 < (D.get f).1 := by
      rcases (hD0 f).lt_or_eq with h1 | h1
      · exact h1
      · have h2 := (abs_le.1 (hnear f)).2
        rw [← h1, zero_mul, sub_zero] at h2
        norm_num at h2 hbig
        linarith
    have nf := abs_le.1 (hnear f)
    have nmx := abs_le.1 (hnear mx)
    have nax := abs_le.1 (hnear ax)
    have hhalf : L.1 * (1 + 1 / 10 ^ 15) ≤ 21 / 10 * (D.get f).1 :=
      half_aux hq0 hLmx (hfm mx) (by linarith [nmx.1]) (by linarith [nf.2]) hbig
    -- the slowed velocity along this axis
    have hkey : (D.get ax).1 * (m.get f).1 ≤
        (c.maxVel.get ax : ℝ) / 60 * (1 + 2 / 10 ^ 16) * (L.1 * (1 + 1 / 10 ^ 15)) := by
      by_cases hfa : ax = f
      · subst hfa
        have h1 := hmM ax
        have h2 := hLlen ax
        have h3 : (D.get ax).1 ≤ L.1 * (1 + 1 / 10 ^ 15) := by nlinarith
        rw [mul_comm]
        exact mul_le_mul h1 h3 (hD0 ax) (mul_nonneg (by linarith [hMM ax]) (by norm_num))
      · refine short_limit_aux64 (w := (m.get ax).1) (Mf := 1001) (q := P.1 * k.1) (hD0 ax) hdf
          (mul_pos hL0 (by norm_num)) (hLtwo _ _ hfa) ?_ ?_ ?_ hq0 (by linarith [nf.2])
          (by linarith [nf.1]) (by linarith [nax.1]) (hmM ax) ?_ ?_ le_rfl
        · have := hLlen f; nlinarith
        · have := hLlen ax; nlinarith
        · exact hhalf
        · have h1 := hmM f
          have h2 := hMN f
          have h3 := hMM f
          norm_num at *
          linarith
        · have h3 := hMM ax
          norm_num at *
          linarith
    rw [lt64_iff, hf] at hshort
    have hfin := short_speed64 (hD0 ax) (M := (c.maxVel.get ax : ℝ) / 60 * (1 + 2 / 10 ^ 16))
      (by have h3 := hMM ax; norm_num at *; linarith) hL0 hA0 hT (hm0 f) hkey
      (short_cond hA0 (hm0 f) hshort) (short_time hA0 hL0)
    have hq : (D.get ax).1 / (PyNum.sqrt (L /ₚ PyNum.ofRat c.accel)).1 ≤
        (c.maxVel.get ax : ℝ) / 60 * (1 + 2 / 10 ^ 16) * (1 + 3 / 10 ^ 15) := by
      rw [div_le_iff₀ hT]
      linarith
    have h1 := fl_hi (div_nonneg (hD0 ax) hT.le)
    have h2 := hMN ax
    have h3 := hMM ax
    generalize (D.get ax).1 / (PyNum.sqrt (L /ₚ PyNum.ofRat c.accel)).1 = X at *
    generalize fl X = Y at *
    generalize (c.maxVel.get ax : ℝ) / 60 = M at *
    clear hnear hmM hsk hmle hM1 hM2 hMM hMN hD hkb hke hK
    norm_num at *
    linarith
  · next hlong =>
    cases hp : pdiv (L -ₚ (Coord.findMax m /ₚ PyNum.ofRat c.accel) *ₚ
        (Coord.findMax m /ₚ PyNum.ofRat c.accel) *ₚ PyNum.ofRat c.accel) (Coord.length m) with
    | error e => rw [hp] at hg; cases hg
    | ok t =>
      rw [hp] at hg
      cases hg
      exact hmle ax

end PyCNC
