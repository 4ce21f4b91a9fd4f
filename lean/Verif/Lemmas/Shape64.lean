import Verif.Lemmas.Limit64

/-!
# Velocities and times of linear moves in binary64
-/

set_option linter.unusedSectionVars false

namespace PyCNC

open Spec

variable [PyRound]

/-- The velocities of a straight move are nearly proportional to its distances, with the factor `q`,
and the times of acceleration and of uniform motion are bounded. -/
structure Shape64 (c : Cfg) (n : V4 ℤ) (w : V4 F64) (g : LinearGen F64) (q : ℝ) : Prop where
  total : ∀ ax, g.total.get ax = |n.get ax|
  q_ge : 8 / 10 ^ 7 ≤ q
  near : ∀ ax, |(g.maxV.get ax).1 - ((Coord.abs w).get ax).1 * q| ≤ 2 / 10 ^ 10
  fast : 6 / 1000 ≤ (Coord.findMax g.maxV).1
  slow : (Coord.findMax g.maxV).1 ≤ 1001
  accT : 0 ≤ g.accT.1 ∧ g.accT.1 ≤ 1001
  linT : 0 ≤ g.linT.1 ∧ g.linT.1 ≤ 4 * 10 ^ 6
  accK : g.accT.1 ≤ 2 * ((Gen.linear g).twoVmaxPerA c).1
  k_pos : 0 < ((Gen.linear g).twoVmaxPerA c).1
  k_le : ((Gen.linear g).twoVmaxPerA c).1 ≤ 2001 / 1000 * (Coord.findMax g.maxV).1
  /-- Either the move is too short to reach the velocity `m` and has no uniform part, or it reaches
  its velocity and covers its length. -/
  form : (g.linT.1 = 0 ∧ q = 1 / g.accT.1 ∧ 0 < g.accT.1 ∧
      (Coord.length (Coord.abs w)).1 ≤ g.accT.1 ^ 2 * fl c.accel * (1 + 7 / 10 ^ 16) ∧
      g.accT.1 ^ 2 * fl c.accel ≤ (Coord.length (Coord.abs w)).1 * (1 + 7 / 10 ^ 16) ∧
      ∃ (m : Axis → ℝ) (q' : ℝ) (f : Axis), 0 ≤ q' ∧ 0 ≤ m f ∧
        (∀ ax, |m ax - ((Coord.abs w).get ax).1 * q'| ≤ 2 / 10 ^ 10) ∧
        (∀ ax, m ax ≤ c.maxVel.get ax / 60 + 1 / 10 ^ 9) ∧
        (Coord.length (Coord.abs w)).1 * fl c.accel ≤ m f ^ 2 * (1 + 11 / 10 ^ 16)) ∨
    (((Gen.linear g).twoVmaxPerA c).1 = 2 * g.accT.1 ∧
      (Coord.length (Coord.abs w)).1 * (1 - 1 / 10 ^ 14) ≤
        (g.accT.1 + g.linT.1 + 1 / 10 ^ 10) * (Coord.length g.maxV).1)

theorem fl_two : fl ((2 : ℚ) : ℝ) = 2 := by
  have := fl_int 2 (by norm_num)
  simpa using this

/-- Doubling is exact. -/
theorem fl_double (x : ℝ) : fl (2 * x) = 2 * fl x := by
  by_cases h0 : x = 0
  · rw [h0, mul_zero, fl_zero, mul_zero]
  have hp : 0 < |x| := abs_pos.2 h0
  have h1 : Int.log 2 |2 * x| = Int.log 2 |x| + 1 := by
    have e : |2 * x| = 2 * |x| := by rw [abs_mul, abs_of_pos (by norm_num : (0 : ℝ) < 2)]
    have lo : (2 : ℝ) ^ (Int.log 2 |x|) ≤ |x| := by
      have := Int.zpow_log_le_self (b := 2) (R := ℝ) (by norm_num) hp
      simpa using this
    have hi : |x| < (2 : ℝ) ^ (Int.log 2 |x| + 1) := by
      have := Int.lt_zpow_succ_log_self (b := 2) (R := ℝ) (by norm_num) |x|
      simpa using this
    have hq : 0 < |2 * x| := by rw [e]; linarith
    refine le_antisymm ?_ ?_
    · have : |2 * x| < ((2 : ℕ) : ℝ) ^ (Int.log 2 |x| + 1 + 1) := by
        rw [e, zpow_add₀ (by norm_num)]
        push_cast
        linarith
      have := (Int.lt_zpow_iff_log_lt (by norm_num) hq).1 this
      omega
    · refine (Int.zpow_le_iff_le_log (by norm_num) hq).1 ?_
      rw [e, zpow_add₀ (by norm_num)]
      push_cast
      linarith
  unfold fl
  rw [if_neg (mul_ne_zero (by norm_num) h0), if_neg h0, h1]
  have e : (2 : ℝ) ^ (Int.log 2 |x| + 1 - 52) = 2 * 2 ^ (Int.log 2 |x| - 52) := by
    rw [show Int.log 2 |x| + 1 - 52 = (Int.log 2 |x| - 52) + 1 by ring, zpow_add₀ (by norm_num)]
    ring
  rw [e, mul_div_mul_left _ _ (by norm_num)]
  ring

/-- A long move covers its length. -/
theorem long_form64 {L V len a A B : ℝ} (ha : 0 < a) (hV : 0 ≤ V)
    (hVl : V ≤ len) (hlen : 0 < len) (hA : A = fl (V / a)) (hA1 : A ≤ 1001)
    (hW : fl (fl (A * A) * a) ≤ L) (hB : B = fl (fl (L - fl (fl (A * A) * a)) / len)) :
    L * (1 - 1 / 10 ^ 14) ≤ (A + B + 1 / 10 ^ 10) * len := by
  have h0 : 0 ≤ V / a := div_nonneg hV ha.le
  have hA0 : 0 ≤ A := by rw [hA]; exact fl_nonneg h0
  have h1 : A * a ≤ V * (1 + 2 / 10 ^ 16) := by
    have h := fl_hi2 h0
    rw [← hA] at h
    have h := mul_le_mul_of_nonneg_right h ha.le
    have e : (V / a + V / a * (2 / 10 ^ 16)) * a = V * (1 + 2 / 10 ^ 16) := by field_simp
    rwa [e] at h
  have h2 := fl_hi2 (mul_self_nonneg A)
  have h3 := fl_nonneg (mul_self_nonneg A)
  have h4 := fl_hi2 (mul_nonneg h3 ha.le)
  have h5 : fl (A * A) * a ≤ A * A * a * (1 + 2 / 10 ^ 16) := by
    have := mul_le_mul_of_nonneg_right h2 ha.le
    linarith
  have h6 : A * A * a ≤ A * len * (1 + 2 / 10 ^ 16) := by
    have g1 : A * (A * a) ≤ A * (V * (1 + 2 / 10 ^ 16)) := mul_le_mul_of_nonneg_left h1 hA0
    have g2 : A * V ≤ A * len := mul_le_mul_of_nonneg_left hVl hA0
    generalize A * len = Z at *
    have e : A * (V * (1 + 2 / 10 ^ 16)) = A * V * (1 + 2 / 10 ^ 16) := by ring
    rw [e] at g1
    have e2 : A * A * a = A * (A * a) := by ring
    rw [e2]
    generalize A * V = Y at *
    norm_num at *
    linarith
  have hAl : A * len ≤ 1001 * len := mul_le_mul_of_nonneg_right hA1 hlen.le
  have hAl0 : 0 ≤ A * len := mul_nonneg hA0 hlen.le
  have h7 := fl_lo2 (show 0 ≤ L - fl (fl (A * A) * a) by linarith)
  have h8 := fl_nonneg (show 0 ≤ L - fl (fl (A * A) * a) by linarith)
  have hW0 : 0 ≤ fl (fl (A * A) * a) := fl_nonneg (mul_nonneg h3 ha.le)
  generalize fl (fl (A * A) * a) = W at *
  generalize fl (L - W) = X at *
  have h9 : X * (1 - 2 / 10 ^ 16) ≤ B * len := by
    have h := fl_lo2 (div_nonneg h8 hlen.le)
    rw [← hB] at h
    have h := mul_le_mul_of_nonneg_right h hlen.le
    have e : (X / len - X / len * (2 / 10 ^ 16)) * len = X * (1 - 2 / 10 ^ 16) := by field_simp
    rwa [e] at h
  have e : (A + B + 1 / 10 ^ 10) * len = A * len + B * len + 1 / 10 ^ 10 * len := by ring
  rw [e]
  generalize A * len = Z at *
  generalize B * len = Y at *
  generalize A * A * a = U at *
  generalize fl (A * A) * a = T at *
  clear hA hB h2
  norm_num at *
  linarith

/-- `2 * Vmax / a` in binary64. -/
theorem twoV64 {V : F64} {a : ℚ} (ha : (1 : ℝ) ≤ fl a) (hV : 0 ≤ V.1) :
    (PyNum.ofRat 2 *ₚ V /ₚ PyNum.ofRat a : F64).1 ≤ 2001 / 1000 * V.1 ∧
      V.1 ≤ fl a * (PyNum.ofRat 2 *ₚ V /ₚ PyNum.ofRat a : F64).1 * (51 / 100) := by
  rw [val_div, val_mul, val_ofRat, val_ofRat, fl_two]
  have ha0 : (0 : ℝ) < fl a := by linarith
  generalize fl (a : ℝ) = a at *
  have h1 := fl_hi (show 0 ≤ 2 * V.1 by linarith)
  have h2 := fl_lo (show 0 ≤ 2 * V.1 by linarith)
  have h0 := fl_nonneg (show 0 ≤ 2 * V.1 by linarith)
  generalize fl (2 * V.1) = X at *
  have n : 0 ≤ X / a := div_nonneg h0 ha0.le
  have h3 := fl_hi n
  have h4 := mul_le_mul_of_nonneg_left (fl_lo n) ha0.le
  have h5 : X / a ≤ X := div_le_self h0 ha
  have e : a * (X / a - X / a * (1 / 10 ^ 15)) = X * (1 - 1 / 10 ^ 15) := by field_simp
  rw [e] at h4
  generalize fl (X / a) = Y at *
  generalize X / a = Z at *
  have e2 : a * Y * (51 / 100) = (a * Y) * (51 / 100) := rfl
  generalize a * Y = W at *
  norm_num at *
  constructor <;> linarith

/-- The time of a short move, from above. -/
theorem short_time_le {L : F64} {a : ℚ} (hA0 : 0 < fl (a : ℝ)) (hL0 : 0 < L.1) :
    (PyNum.sqrt (L /ₚ PyNum.ofRat a)).1 ^ 2 * fl (a : ℝ) ≤ L.1 * (1 + 7 / 10 ^ 16) := by
  rw [val_sqrt, val_div, val_ofRat]
  generalize fl (a : ℝ) = a at *
  have n0 : 0 ≤ L.1 / a := div_nonneg hL0.le hA0.le
  have f0 := fl_hi2 n0
  have p0 := fl_nonneg n0
  have f1 := fl_hi2 (Real.sqrt_nonneg (fl (L.1 / a)))
  have p1 := Real.sqrt_nonneg (fl (L.1 / a))
  have p2 := fl_nonneg p1
  have s1 := Real.sq_sqrt p0
  generalize fl √(fl (L.1 / a)) = T at *
  have q1 : T ^ 2 ≤ (√(fl (L.1 / a)) * (1 + 2 / 10 ^ 16)) ^ 2 :=
    pow_le_pow_left₀ p2 (by linarith) 2
  rw [mul_pow, s1] at q1
  have q2 : T ^ 2 ≤ L.1 / a * (1 + 2 / 10 ^ 16) ^ 3 := by
    refine q1.trans ?_
    have := mul_le_mul_of_nonneg_right f0 (by norm_num : (0 : ℝ) ≤ (1 + 2 / 10 ^ 16) ^ 2)
    refine this.trans (le_of_eq ?_)
    ring
  have q3 := mul_le_mul_of_nonneg_right q2 hA0.le
  have e : L.1 / a * (1 + 2 / 10 ^ 16) ^ 3 * a = L.1 * (1 + 2 / 10 ^ 16) ^ 3 := by
    field_simp
  rw [e] at q3
  refine q3.trans ?_
  exact mul_le_mul_of_nonneg_left (by norm_num) hL0.le

/-- The velocity of a short move. -/
theorem short_fast64 {L X T a V : ℝ} (hL : 9 / 10000 ≤ L) (ha : 1 ≤ a) (hT : 0 < T)
    (hT2 : T ^ 2 * a ≤ L * (1 + 7 / 10 ^ 16)) (hX : L ≤ 2 * X * (1 + 1 / 10 ^ 14))
    (hV : X / T - 2 / 10 ^ 10 ≤ V) : 6 / 1000 ≤ V ∧ T * a ≤ V * (21 / 10) := by
  have hX0 : 0 < X := by
    by_contra hc
    have : 2 * X * (1 + 1 / 10 ^ 14) ≤ 0 := by
      have := not_lt.1 hc
      norm_num
      linarith
    linarith
  have hTL : T ^ 2 ≤ L * (1 + 7 / 10 ^ 16) := by
    refine le_trans ?_ hT2
    exact le_mul_of_one_le_right (sq_nonneg T) ha
  -- X / T against a T and 0.014
  have h1 : T * a ≤ X / T * (201 / 100) := by
    rw [div_mul_eq_mul_div, le_div_iff₀ hT]
    have e : T * a * T = T ^ 2 * a := by ring
    rw [e]
    norm_num at *
    linarith
  have h2 : 1 / 100 ≤ X / T := by
    rw [le_div_iff₀ hT]
    by_contra hc
    push Not at hc
    have h3 : X < T / 100 := by linarith
    have h4 : L ≤ T / 100 * (201 / 100) := by norm_num at *; linarith
    have h5 : T ^ 2 ≤ T * (21 / 1000) := by norm_num at *; linarith
    have h6 : T ≤ 21 / 1000 := by
      rw [pow_two] at h5
      exact le_of_mul_le_mul_left h5 hT
    norm_num at *
    linarith
  generalize X / T = Y at *
  norm_num at *
  constructor <;> linarith

/-- The generator of a straight move in binary64. -/
theorem shape64 {c : Cfg} (hc : SaneCfg c) (hm : ∀ ax, c.maxVel.get ax ≤ 60000)
    (ha : c.autoVel = true) {n : V4 ℤ} {w : V4 F64} {v : F64}
    (h : Steps64 c n w) (hn : ∃ ax, n.get ax ≠ 0) (hv : 1 ≤ v.1) {g : LinearGen F64}
    (hg : LinearGen.new c w v = .ok g) (hlim : ∀ ax, (g.maxV.get ax).1 ≤ 1001) :
    ∃ q, Shape64 c n w g q := by
  have hP : ∀ ax, (0 : ℝ) < c.ppm.get ax := fun ax => by exact_mod_cast hc.ppm_pos ax
  have hP2 : ∀ ax, (c.ppm.get ax : ℝ) ≤ 1000 := fun ax => by exact_mod_cast hc.ppm_le ax
  have hA : (1 : ℝ) ≤ c.accel := by exact_mod_cast hc.accel
  have hA1 : (1 : ℝ) ≤ fl (c.accel : ℝ) := by rw [← fl_one]; exact fl_mono hA
  have hA0 : 0 < fl (c.accel : ℝ) := by linarith
  have hM1 : ∀ ax, (60 : ℝ) ≤ c.maxVel.get ax := fun ax => by exact_mod_cast hc.maxVel ax
  have hM2 : ∀ ax, (c.maxVel.get ax : ℝ) ≤ 60000 := fun ax => by exact_mod_cast hm ax
  have hD := abs64 hc h
  have htot : ∀ ax, g.total.get ax = |n.get ax| := fun ax => by
    rw [(linear_new_total hg ax).1]; exact total64 hc h ax
  obtain ⟨fm, hfm'⟩ := get_max64 g.maxV
  have hslow : (Coord.findMax g.maxV).1 ≤ 1001 := by rw [hfm']; exact hlim fm
  set D := Coord.abs w with hDd
  have hD0 : ∀ ax, 0 ≤ (D.get ax).1 := fun ax => (hD ax).2.1
  have hDle : ∀ ax, (D.get ax).1 ≤ 10001 := fun ax => by
    have h1 := (abs_le.1 (hD ax).1).2
    have h2 : |(n.get ax : ℝ)| / c.ppm.get ax ≤ 10 ^ 4 := by
      rw [div_le_iff₀ (hP ax)]; exact h.size ax
    linarith
  have hDge : ∀ ax, n.get ax ≠ 0 → 9 / 10000 ≤ (D.get ax).1 := fun ax hax => by
    have h1 := (abs_le.1 (hD ax).1).1
    have h2 : 1 / 1000 ≤ |(n.get ax : ℝ)| / c.ppm.get ax := by
      rw [le_div_iff₀ (hP ax)]
      have : 1 ≤ |n.get ax| := Int.one_le_abs hax
      have : (1 : ℝ) ≤ |(n.get ax : ℝ)| := by exact_mod_cast this
      have := hP2 ax
      linarith
    linarith
  obtain ⟨a0, ha0⟩ := hn
  have hL1 : 9 / 10000 ≤ (Coord.length D).1 := (hDge a0 ha0).trans (length64 hD0 a0)
  have hL2 := length64_le hD0 hDle
  have hL0 : 0 < (Coord.length D).1 := by linarith
  have hLle := @length_le_two64 _ D
  set L := Coord.length D with hLd
  set P : F64 := v /ₚ secInMin /ₚ L with hPd
  have hPL : 1 / 62 ≤ P.1 * L.1 := by
    rw [hPd, val_div, val_div, sec64]
    have h1 := fl_lo (show 0 ≤ v.1 / 60 by positivity)
    have h2 : 1 / 61 ≤ fl (v.1 / 60) := by linarith
    have h3 : 0 ≤ fl (v.1 / 60) / L.1 := div_nonneg (by linarith) hL0.le
    have h4 := mul_le_mul_of_nonneg_right (fl_lo h3) hL0.le
    have e : (fl (v.1 / 60) / L.1 - fl (v.1 / 60) / L.1 * (1 / 10 ^ 15)) * L.1 =
        fl (v.1 / 60) * (1 - 1 / 10 ^ 15) := by field_simp
    rw [e] at h4
    refine le_trans ?_ h4
    nlinarith
  have hP0 : 0 < P.1 := by
    by_contra hcon
    have h1 : P.1 * L.1 ≤ 0 := mul_nonpos_of_nonpos_of_nonneg (not_lt.1 hcon) hL0.le
    linarith
  have hs0 : ∀ ax, 0 ≤ ((Coord.smul D P).get ax).1 := fun ax => by
    rw [get_smul64]; exact r10_nonneg (fl_nonneg (mul_nonneg (hD0 ax) hP0.le))
  obtain ⟨k, hk, hk0, hk1, hkb, hke⟩ := adjust64_auto hc ha hs0
  set m := Coord.smul (Coord.smul D P) k with hmd
  have hsk : ∀ ax, ((Coord.smul D P).get ax).1 * k.1 ≤
      (c.maxVel.get ax : ℝ) / 60 + c.maxVel.get ax / 60 * (1 / 10 ^ 15) := fun ax =>
    slow_le (hs0 ax) hk1 (hM1 ax) (hkb ax)
  have hm0 : ∀ ax, 0 ≤ (m.get ax).1 := fun ax => by
    rw [hmd, get_smul64]; exact r10_nonneg (fl_nonneg (mul_nonneg (hs0 ax) hk0))
  obtain ⟨f, hf⟩ := get_max64 m
  have hfm : ∀ ax, (m.get ax).1 ≤ (m.get f).1 := fun ax => by
    rw [← hf]; exact findMax64 m ax
  have hMM : ∀ ax, (1 : ℝ) ≤ (c.maxVel.get ax : ℝ) / 60 := fun ax => by
    have := hM1 ax; linarith
  have hMN : ∀ ax, (c.maxVel.get ax : ℝ) / 60 ≤ 1000 := fun ax => by
    have := hM2 ax; linarith
  have hnear : ∀ ax, |(m.get ax).1 - (D.get ax).1 * (P.1 * k.1)| ≤ 2 / 10 ^ 10 := fun ax => by
    rw [hmd, get_smul64, get_smul64]
    refine speed_near64 (hD0 ax) hP0.le hk0 hk1 ?_
    have h1 := hsk ax
    rw [get_smul64] at h1
    have h2 := hMN ax
    have h3 := hMM ax
    linarith
  obtain ⟨mx, hmx⟩ := get_max64 D
  have hmxD : ∀ ax, (D.get ax).1 ≤ (D.get mx).1 := fun ax => by
    rw [← hmx]; exact findMax64 D ax
  have hLmx : L.1 ≤ 2 * (D.get mx).1 * (1 + 1 / 10 ^ 14) :=
    hLle (fun ax => pow_le_pow_left₀ (hD0 ax) (hmxD ax) 2) (hD0 mx)
  have hbig2 : k.1 = 1 ∨ 1 / 2 ≤ (m.get f).1 := by
    rcases hke with hk1 | ⟨a, hb, hk1⟩
    · exact .inl hk1
    · refine .inr (le_trans ?_ (hfm a))
      have hfl60 : fl (c.maxVel.get a) < fl (((Coord.smul D P).get a).1 * fl 60) := by
        rw [fl_60]; exact hb
      have hs : |((Coord.smul D P).get a).1 - fl ((D.get a).1 * P.1)| ≤
          6 / 10 ^ 11 + |fl ((D.get a).1 * P.1)| * (1 / 10 ^ 15) := by
        rw [get_smul64]; exact r10_near _
      obtain ⟨hs1, -⟩ := speed_hi (hD0 a) hP0.le (hM1 a) hs hfl60
      rw [hmd, get_smul64]
      exact slowed_ge (hM1 a) hs1 hk1
  have hbig : 7 / 1000 ≤ (m.get f).1 := by
    rcases hbig2 with hk1 | hb
    · have h1 := (abs_le.1 (hnear mx)).1
      rw [hk1, mul_one] at h1
      have h2 := hfm mx
      have h3 : P.1 * L.1 ≤ P.1 * (2 * (D.get mx).1 * (1 + 1 / 10 ^ 14)) :=
        mul_le_mul_of_nonneg_left hLmx hP0.le
      generalize (m.get f).1 = X at *
      generalize (m.get mx).1 = Y at *
      have e : P.1 * (2 * (D.get mx).1 * (1 + 1 / 10 ^ 14)) =
        (D.get mx).1 * P.1 * (2 * (1 + 1 / 10 ^ 14)) := by ring
      rw [e] at h3
      generalize (D.get mx).1 * P.1 = Z at *
      generalize P.1 * L.1 = W at *
      clear hnear hsk hM1 hM2 hMM hMN hD hkb
      norm_num at *
      linarith
    · linarith
  unfold LinearGen.new at hg
  simp only at hg
  rw [← hDd, ← hLd, pdiv64_ok hL0.ne'] at hg
  change (adjustVelocity c (Coord.smul D P) >>= _) = _ at hg
  rw [hk] at hg
  change (if L <ₚ PyNum.ofRat c.accel *ₚ ((Coord.findMax m /ₚ PyNum.ofRat c.accel) *ₚ
      (Coord.findMax m /ₚ PyNum.ofRat c.accel)) then _ else _) = _ at hg
  split at hg
  · next hshort =>
    have hT : 0 < (PyNum.sqrt (L /ₚ PyNum.ofRat c.accel)).1 :=
      fl_pos (Real.sqrt_pos.2 (fl_pos (div_pos hL0 hA0)))
    have hTT := short_time_le hA0 hL0
    set T := PyNum.sqrt (L /ₚ PyNum.ofRat c.accel) with hTd
    obtain ⟨u, hu, hue⟩ := get_sdiv64 (v := D) hT.ne'
    have hT200 : T.1 ≤ 200 := by
      by_contra hc
      push Not at hc
      have h1 : (200 : ℝ) ^ 2 ≤ T.1 ^ 2 := pow_le_pow_left₀ (by norm_num) hc.le 2
      have h2 : T.1 ^ 2 ≤ T.1 ^ 2 * fl (c.accel : ℝ) := le_mul_of_one_le_right (sq_nonneg _) hA1
      clear hnear hsk hM1 hM2 hMM hMN hD hkb
      norm_num at *
      linarith
    rw [hu] at hg
    cases hg
    simp only at hlim htot hslow
    have hun : ∀ ax, |(u.get ax).1 - (D.get ax).1 * (1 / T.1)| ≤ 2 / 10 ^ 10 := fun ax => by
      have h1 := r10_near (D.get ax /ₚ T)
      rw [← hue, val_div] at h1
      have n0 : 0 ≤ (D.get ax).1 / T.1 := div_nonneg (hD0 ax) hT.le
      have h2 := fl_near ((D.get ax).1 / T.1)
      have h3 := hlim ax
      rw [abs_of_nonneg n0] at h2
      rw [abs_of_nonneg (fl_nonneg n0)] at h1
      rw [mul_one_div]
      generalize (D.get ax).1 / T.1 = X at *
      generalize fl X = Y at *
      generalize (u.get ax).1 = Z at *
      obtain ⟨b1, b2⟩ := abs_le.1 h1
      obtain ⟨b3, b4⟩ := abs_le.1 h2
      rw [abs_le]
      clear hnear hsk hM1 hM2 hMM hMN hD hkb h1 h2
      norm_num at *
      constructor <;> linarith
    have hV : (D.get mx).1 / T.1 - 2 / 10 ^ 10 ≤ (Coord.findMax u).1 := by
      have h1 := (abs_le.1 (hun mx)).1
      rw [mul_one_div] at h1
      have h2 := findMax64 u mx
      linarith
    obtain ⟨s1, s2⟩ := short_fast64 hL1 hA1 hT hTT hLmx hV
    have hV0 : 0 ≤ (Coord.findMax u).1 := by linarith
    obtain ⟨t1, t2⟩ := twoV64 (V := Coord.findMax u) (a := c.accel) hA1 hV0
    have hkk : T.1 ≤ 2 * (PyNum.ofRat 2 *ₚ Coord.findMax u /ₚ PyNum.ofRat c.accel : F64).1 := by
      refine le_of_mul_le_mul_right ?_ hA0
      generalize (PyNum.ofRat 2 *ₚ Coord.findMax u /ₚ PyNum.ofRat c.accel : F64).1 = K at *
      have h0 : 0 ≤ fl (c.accel : ℝ) * K := by linarith
      linarith
    refine ⟨1 / T.1, htot, ?_, hun, s1, hslow, ⟨hT.le, by change T.1 ≤ 1001; linarith⟩, ?_, hkk, ?_, t1,
      .inl ⟨val_zero, rfl, hT, short_time hA0 hL0, hTT, fun ax => (m.get ax).1, P.1 * k.1, f,
        mul_nonneg hP0.le hk0, hm0 f, hnear, fun ax => ?_, ?_⟩⟩
    · rw [le_div_iff₀ hT]; norm_num; linarith
    · change 0 ≤ (zeroF : F64).1 ∧ (zeroF : F64).1 ≤ _
      rw [val_zero]; norm_num
    · change 0 < (PyNum.ofRat 2 *ₚ Coord.findMax u /ₚ PyNum.ofRat c.accel : F64).1
      linarith
    · change (m.get ax).1 ≤ _
      have h2 := hsk ax
      have h3 := hMN ax
      have h4 := mul_nonneg (hs0 ax) hk0
      have h5 := r10_near ((Coord.smul D P).get ax *ₚ k)
      rw [hmd, get_smul64]
      rw [val_mul, abs_of_nonneg (fl_nonneg h4)] at h5
      have h5 := (abs_le.1 h5).2
      have h6 := fl_hi2 h4
      generalize fl (((Coord.smul D P).get ax).1 * k.1) = X at *
      generalize ((Coord.smul D P).get ax).1 * k.1 = Y at *
      generalize (c.maxVel.get ax : ℝ) / 60 = Z at *
      clear hnear
      norm_num at h2 h3 h4 h5 h6 ⊢
      linarith
    · change L.1 * fl (c.accel : ℝ) ≤ (m.get f).1 ^ 2 * _
      rw [lt64_iff, hf] at hshort
      exact short_cond hA0 (hm0 f) hshort
  · next hlong =>
    have hml : 0 < (Coord.length m).1 := by
      have := length64 hm0 f
      linarith
    have hml2 : 7 / 1000 ≤ (Coord.length m).1 := hbig.trans (length64 hm0 f)
    rw [pdiv64_ok hml.ne'] at hg
    cases hg
    simp only at hlim htot hslow
    have hV0 : 0 ≤ (m.get f).1 := by linarith
    obtain ⟨t1, t2⟩ := twoV64 (V := m.get f) (a := c.accel) hA1 hV0
    rw [← hf] at hbig hV0 t1 t2
    have hAn : 0 ≤ (Coord.findMax m).1 / fl (c.accel : ℝ) := div_nonneg hV0 hA0.le
    have hA3 := fl_hi hAn
    have hA4 : (Coord.findMax m).1 / fl (c.accel : ℝ) ≤ (Coord.findMax m).1 := div_le_self hV0 hA1
    have hAv : (Coord.findMax m /ₚ PyNum.ofRat c.accel).1 = fl ((Coord.findMax m).1 / fl (c.accel : ℝ)) := by
      rw [val_div, val_ofRat]
    have hAv0 : 0 ≤ (Coord.findMax m /ₚ PyNum.ofRat c.accel).1 := by rw [hAv]; exact fl_nonneg hAn
    have hkk : (Coord.findMax m /ₚ PyNum.ofRat c.accel).1 ≤
        2 * (PyNum.ofRat 2 *ₚ Coord.findMax m /ₚ PyNum.ofRat c.accel : F64).1 := by
      rw [hAv]
      have h1 : (Coord.findMax m).1 / fl (c.accel : ℝ) ≤
          (PyNum.ofRat 2 *ₚ Coord.findMax m /ₚ PyNum.ofRat c.accel : F64).1 * (51 / 100) := by
        rw [div_le_iff₀ hA0]; linarith
      generalize (PyNum.ofRat 2 *ₚ Coord.findMax m /ₚ PyNum.ofRat c.accel : F64).1 = K at *
      generalize (Coord.findMax m).1 / fl (c.accel : ℝ) = X at *
      generalize fl X = Y at *
      clear hnear hsk hM1 hM2 hMM hMN hD hkb
      norm_num at *
      linarith
    have hq : 8 / 10 ^ 7 ≤ P.1 * k.1 := by
      rcases hbig2 with hk1 | hb
      · rw [hk1, mul_one]
        have h1 : P.1 * L.1 ≤ P.1 * 20010 := mul_le_mul_of_nonneg_left hL2 hP0.le
        norm_num
        linarith
      have h1 := (abs_le.1 (hnear f)).2
      have h2 := hDle f
      by_contra hcq
      push Not at hcq
      have h3 : (D.get f).1 * (P.1 * k.1) ≤ 10001 * (8 / 10 ^ 7) :=
        mul_le_mul h2 hcq.le (mul_nonneg hP0.le hk0) (by norm_num)
      generalize (D.get f).1 * (P.1 * k.1) = X at *
      clear hnear hsk hM1 hM2 hMM hMN hD hkb
      norm_num at *
      linarith
    refine ⟨P.1 * k.1, htot, hq, hnear, by change _ ≤ (Coord.findMax m).1; linarith, hslow,
      ⟨hAv0, ?_⟩, ?_, hkk, ?_, t1, .inr ⟨?_, ?_⟩⟩
    · change (Coord.findMax m /ₚ PyNum.ofRat c.accel).1 ≤ _
      rw [hAv]
      exact (fl_mono hA4).trans (by rw [(Coord.findMax m).2]; exact hslow)
    · set A := Coord.findMax m /ₚ PyNum.ofRat c.accel with hAd
      change 0 ≤ ((L -ₚ A *ₚ A *ₚ PyNum.ofRat c.accel) /ₚ Coord.length m).1 ∧
        ((L -ₚ A *ₚ A *ₚ PyNum.ofRat c.accel) /ₚ Coord.length m).1 ≤ _
      rw [lt64_iff, val_mul, mul_comm, ← val_mul, not_lt] at hlong
      rw [val_div, val_sub]
      have hW : 0 ≤ (A *ₚ A *ₚ PyNum.ofRat c.accel).1 := by
        rw [val_mul, val_mul, val_ofRat]
        exact fl_nonneg (mul_nonneg (fl_nonneg (mul_self_nonneg _)) hA0.le)
      have hsub : 0 ≤ fl (L.1 - (A *ₚ A *ₚ PyNum.ofRat c.accel).1) := fl_nonneg (by linarith)
      have hsub2 : fl (L.1 - (A *ₚ A *ₚ PyNum.ofRat c.accel).1) ≤ L.1 :=
        fl_le_of_le L.2 (by linarith)
      have hn0 : 0 ≤ fl (L.1 - (A *ₚ A *ₚ PyNum.ofRat c.accel).1) / (Coord.length m).1 :=
        div_nonneg hsub hml.le
      refine ⟨fl_nonneg hn0, ?_⟩
      have h1 : fl (L.1 - (A *ₚ A *ₚ PyNum.ofRat c.accel).1) / (Coord.length m).1 ≤
          20010 / (7 / 1000) :=
        div_le_div₀ (by norm_num) (hsub2.trans hL2) (by norm_num) hml2
      have h2 := fl_hi hn0
      generalize fl (L.1 - (A *ₚ A *ₚ PyNum.ofRat c.accel).1) / (Coord.length m).1 = X at *
      generalize fl X = Y at *
      clear hnear hsk hM1 hM2 hMM hMN hD hkb
      norm_num at *
      linarith
    · change 0 < (PyNum.ofRat 2 *ₚ Coord.findMax m /ₚ PyNum.ofRat c.accel : F64).1
      by_contra hcc
      have : fl (c.accel : ℝ) * (PyNum.ofRat 2 *ₚ Coord.findMax m /ₚ PyNum.ofRat c.accel : F64).1 ≤ 0 :=
        mul_nonpos_of_nonneg_of_nonpos hA0.le (not_lt.1 hcc)
      linarith
    · change (PyNum.ofRat 2 *ₚ Coord.findMax m /ₚ PyNum.ofRat c.accel : F64).1 =
        2 * (Coord.findMax m /ₚ PyNum.ofRat c.accel).1
      rw [val_div, val_mul, val_ofRat, val_ofRat, fl_two, fl_double, (Coord.findMax m).2, hAv,
        ← fl_double, mul_div_assoc]
    · rw [lt64_iff, val_mul, mul_comm, ← val_mul, not_lt] at hlong
      refine long_form64 (V := (Coord.findMax m).1) hA0 hV0 ?_ hml hAv ?_ hlong ?_
      · rw [hf]; exact length64 hm0 f
      · rw [hAv]
        exact (fl_mono hA4).trans (by rw [(Coord.findMax m).2]; exact hslow)
      · rfl

end PyCNC
