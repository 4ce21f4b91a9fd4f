import Verif.Lemmas.Invert64

/-!
# The step rate of straight moves in binary64
-/

namespace PyCNC

open Spec

section Reals

/-- A long move ends at the right time. -/
theorem ends_long {q L len S x v d : ℝ} (hq : 8 / 10 ^ 7 ≤ q) (hL0 : 0 ≤ L) (hL : L ≤ 20010)
    (hlen : len ≤ (q * L + 4 / 10 ^ 10) * (1 + 1 / 10 ^ 14)) (hS : 0 ≤ S)
    (hform : L * (1 - 1 / 10 ^ 14) ≤ (S + 1 / 10 ^ 10) * len) (hx : 0 ≤ x) (hxq : x ≤ 1 / q)
    (hxv : x * v ≤ d - 9 / 10 ^ 4) (hv : d * q - 2 / 10 ^ 10 ≤ v) (hdL : d ≤ L) :
    x ≤ S + 1 / 10 ^ 7 := by
  have hq0 : 0 < q := lt_of_lt_of_le (by norm_num) hq
  have hxq1 : x * q ≤ 1 := by rwa [le_div_iff₀ hq0] at hxq
  have hx2 : x ≤ 125 * 10 ^ 4 := by
    refine hxq.trans ?_
    rw [div_le_iff₀ hq0]
    norm_num at *
    linarith
  have h1 : x * (d * q - 2 / 10 ^ 10) ≤ d - 9 / 10 ^ 4 :=
    (mul_le_mul_of_nonneg_left hv hx).trans hxv
  have h2 : 65 / 10 ^ 5 ≤ (1 - x * q) * d := by
    have e : x * (d * q - 2 / 10 ^ 10) = d - (1 - x * q) * d - x * (2 / 10 ^ 10) := by ring
    rw [e] at h1
    generalize (1 - x * q) * d = Y at *
    norm_num at *
    linarith
  have h3 : 65 / 10 ^ 5 ≤ (1 - x * q) * L :=
    h2.trans (mul_le_mul_of_nonneg_left hdL (by linarith))
  by_contra hc
  push Not at hc
  have h4 : (S + 1 / 10 ^ 10) * len ≤ x * ((q * L + 4 / 10 ^ 10) * (1 + 1 / 10 ^ 14)) := by
    have a1 : (S + 1 / 10 ^ 10) * len ≤
        (S + 1 / 10 ^ 10) * ((q * L + 4 / 10 ^ 10) * (1 + 1 / 10 ^ 14)) :=
      mul_le_mul_of_nonneg_left hlen (by positivity)
    refine a1.trans (mul_le_mul_of_nonneg_right ?_ (by positivity))
    norm_num at *
    linarith
  have e : x * ((q * L + 4 / 10 ^ 10) * (1 + 1 / 10 ^ 14)) =
      (L - (1 - x * q) * L + x * (4 / 10 ^ 10)) * (1 + 1 / 10 ^ 14) := by ring
  rw [e] at h4
  generalize (1 - x * q) * L = Y at *
  generalize (S + 1 / 10 ^ 10) * len = Z at *
  clear e hxv hv hlen h1 h2 hc
  norm_num at *
  linarith

/-- A short move accelerates for just as long as it brakes. -/
theorem short_k {a T L V k : ℝ} (ha : 1 ≤ a) (hT : 0 < T) (hT1 : T ≤ 1001)
    (hL : 8 / 10 ^ 4 ≤ L) (hLT : L ≤ T ^ 2 * a * (1 + 7 / 10 ^ 16))
    (hV : V ≤ L * (1 / T) + 2 / 10 ^ 10) (hk : k * a ≤ 2 * V * (1 + 1 / 10 ^ 15)) :
    k ≤ 2 * T + 5 / 10 ^ 10 ∧ k ≤ 2 * T * (1 + 1 / 10 ^ 5) := by
  have ha0 : 0 < a := by linarith
  have h1 : L * (1 / T) ≤ T * a * (1 + 7 / 10 ^ 16) := by
    rw [mul_one_div, div_le_iff₀ hT]
    have e : T * a * (1 + 7 / 10 ^ 16) * T = T ^ 2 * a * (1 + 7 / 10 ^ 16) := by ring
    rwa [e]
  have hTa : 2 / 100 ≤ T * a := by
    by_contra hc
    push Not at hc
    have h0 : 0 ≤ T * a := by positivity
    have h2 : (T * a) * (T * a) ≤ 2 / 100 * (2 / 100) := mul_le_mul hc.le hc.le h0 (by norm_num)
    have h3 : T ^ 2 * a ≤ (T * a) * (T * a) := by
      have e : (T * a) * (T * a) = T ^ 2 * a * a := by ring
      rw [e]
      exact le_mul_of_one_le_right (by positivity) ha
    norm_num at *
    linarith
  have hka : k * a ≤ 2 * (T * a * (1 + 7 / 10 ^ 16) + 2 / 10 ^ 10) * (1 + 1 / 10 ^ 15) := by
    refine hk.trans ?_
    norm_num at *
    linarith
  constructor
  · refine le_of_mul_le_mul_right (hka.trans ?_) ha0
    have h4 : T * a ≤ 1001 * a := mul_le_mul_of_nonneg_right hT1 ha0.le
    have e : (2 * T + 5 / 10 ^ 10) * a = 2 * (T * a) + 5 / 10 ^ 10 * a := by ring
    rw [e]
    generalize T * a = Y at *
    clear hka hk hV hLT
    norm_num at *
    linarith
  · refine le_of_mul_le_mul_right (hka.trans ?_) ha0
    have e : 2 * T * (1 + 1 / 10 ^ 5) * a = 2 * (T * a) * (1 + 1 / 10 ^ 5) := by ring
    rw [e]
    generalize T * a = Y at *
    clear hka hk hV hLT
    norm_num at *
    linarith

/-- A short move ends at the right time. -/
theorem ends_short {T k x : ℝ} (hT : 0 < T) (hk0 : 0 < k) (hTk : T ≤ 2 * k)
    (hk : k ≤ 2 * T + 5 / 10 ^ 10) (hx : x ≤ T) :
    x ≤ 2 * (T * T / k) + 0 + 1 / 10 ^ 7 := by
  have h1 : T * k ≤ T * (2 * T + 5 / 10 ^ 10) := mul_le_mul_of_nonneg_left hk hT.le
  have h2 : T ≤ 2 * (T * T / k) + 1 / 10 ^ 7 := by
    have e : 2 * (T * T / k) + 1 / 10 ^ 7 = (2 * (T * T) + 1 / 10 ^ 7 * k) / k := by field_simp
    rw [e, le_div_iff₀ hk0]
    have e2 : T * (2 * T + 5 / 10 ^ 10) = 2 * (T * T) + T * (5 / 10 ^ 10) := by ring
    rw [e2] at h1
    generalize T * T = Y at *
    norm_num at *
    linarith
  linarith

/-- No axis of a short move is faster than its limit. -/
theorem rate_short {a T L V k d dm mf ma q M v : ℝ} (ha : 1 ≤ a) (hT : 0 < T)
    (hTL : T ^ 2 * a ≤ L * (1 + 7 / 10 ^ 16)) (hL : L ≤ 2 * dm * (1 + 1 / 10 ^ 14))
    (hdm : 9 / 10 ^ 4 ≤ dm) (hd0 : 0 ≤ d) (hd : d ≤ dm) (hmf0 : 0 ≤ mf)
    (hLa : L * a ≤ mf ^ 2 * (1 + 11 / 10 ^ 16)) (hmf : mf ≤ dm * q + 2 / 10 ^ 10)
    (hmf1 : mf ≤ 1001) (hma : d * q - 2 / 10 ^ 10 ≤ ma) (hmaM : ma ≤ M + 1 / 10 ^ 9) (hM : 1 ≤ M)
    (hv : v ≤ d * (1 / T) + 2 / 10 ^ 10) (hV : dm * (1 / T) - 2 / 10 ^ 10 ≤ V)
    (hk : 2 * V * (1 - 1 / 10 ^ 15) ≤ k * a) : 2 * T * v ≤ M * (1 + 2 / 10 ^ 5) * k := by
  have ha0 : 0 < a := by linarith
  have hdm0 : 0 < dm := lt_of_lt_of_le (by norm_num) hdm
  -- the time is short
  have hTd : T ≤ 48 * dm := by
    by_contra hc
    push Not at hc
    have h1 : (48 * dm) ^ 2 ≤ T ^ 2 := pow_le_pow_left₀ (by positivity) hc.le 2
    have h2 : T ^ 2 ≤ T ^ 2 * a := le_mul_of_one_le_right (sq_nonneg _) ha
    have h3 : 9 / 10 ^ 4 * dm ≤ dm * dm := mul_le_mul_of_nonneg_right hdm hdm0.le
    have e : (48 * dm) ^ 2 = 2304 * (dm * dm) := by ring
    rw [e] at h1
    generalize dm * dm = X at *
    generalize T ^ 2 * a = Y at *
    clear hLa hmf hma hv hV hk
    norm_num at *
    linarith
  -- the velocity reached is at most that asked for
  have hTa : T * a ≤ mf * (1 + 2 / 10 ^ 15) := by
    by_contra hc
    push Not at hc
    have h1 : (mf * (1 + 2 / 10 ^ 15)) ^ 2 ≤ (T * a) ^ 2 := pow_le_pow_left₀ (by positivity) hc.le 2
    have h2 : T ^ 2 * a * a ≤ L * (1 + 7 / 10 ^ 16) * a := mul_le_mul_of_nonneg_right hTL ha0.le
    have e1 : (T * a) ^ 2 = T ^ 2 * a * a := by ring
    have e2 : (mf * (1 + 2 / 10 ^ 15)) ^ 2 = mf ^ 2 * (1 + 2 / 10 ^ 15) ^ 2 := by ring
    have e3 : L * (1 + 7 / 10 ^ 16) * a = L * a * (1 + 7 / 10 ^ 16) := by ring
    have h0 : 0 < mf ^ 2 := by
      have h5 : 0 < T * a := mul_pos hT ha0
      have h6 : 0 < L * a := by
        have h7 : 0 < T ^ 2 * a := by positivity
        have h8 : 0 < L := by
          norm_num at hTL
          linarith
        positivity
      norm_num at hLa
      linarith
    rw [e1, e2] at h1
    rw [e3] at h2
    generalize T ^ 2 * a * a = X at *
    generalize L * a = Y at *
    generalize mf ^ 2 = Z at *
    clear hmf hma hv hV hk hTd hTL
    norm_num at *
    linarith
  have hTi : T * (1 / T) = 1 := by field_simp
  -- in units of the distances
  have g1 : T * v ≤ d + T * (2 / 10 ^ 10) := by
    have := mul_le_mul_of_nonneg_left hv hT.le
    have e : T * (d * (1 / T) + 2 / 10 ^ 10) = d * (T * (1 / T)) + T * (2 / 10 ^ 10) := by ring
    rwa [e, hTi, mul_one] at this
  have g2 : dm - T * (2 / 10 ^ 10) ≤ T * V := by
    have := mul_le_mul_of_nonneg_left hV hT.le
    have e : T * (dm * (1 / T) - 2 / 10 ^ 10) = dm * (T * (1 / T)) - T * (2 / 10 ^ 10) := by ring
    rwa [e, hTi, mul_one] at this
  have g3 : mf * d ≤ dm * (M + 14 / 10 ^ 10) := by
    have a1 : mf * d ≤ (dm * q + 2 / 10 ^ 10) * d := mul_le_mul_of_nonneg_right hmf hd0
    have a2 : dm * (d * q) ≤ dm * (M + 12 / 10 ^ 10) :=
      mul_le_mul_of_nonneg_left (by norm_num at *; linarith) hdm0.le
    have e : (dm * q + 2 / 10 ^ 10) * d = dm * (d * q) + 2 / 10 ^ 10 * d := by ring
    have e2 : dm * (M + 14 / 10 ^ 10) = dm * (M + 12 / 10 ^ 10) + 2 / 10 ^ 10 * dm := by ring
    rw [e] at a1
    rw [e2]
    have : 2 / 10 ^ 10 * d ≤ 2 / 10 ^ 10 * dm := mul_le_mul_of_nonneg_left hd (by norm_num)
    linarith
  have g4 : mf * (T * (2 / 10 ^ 10)) ≤ 1001 * (48 * dm * (2 / 10 ^ 10)) :=
    mul_le_mul hmf1 (mul_le_mul_of_nonneg_right hTd (by norm_num)) (by positivity) (by norm_num)
  have hMd : dm ≤ M * dm := le_mul_of_one_le_left hdm0.le hM
  have g5 : T * a * (T * v) ≤ M * dm * (1 + 1 / 10 ^ 5) := by
    have a0 : 0 ≤ d + T * (2 / 10 ^ 10) := by positivity
    have a1 : T * a * (T * v) ≤ T * a * (d + T * (2 / 10 ^ 10)) :=
      mul_le_mul_of_nonneg_left g1 (by positivity)
    have a2 : T * a * (d + T * (2 / 10 ^ 10)) ≤ mf * (1 + 2 / 10 ^ 15) * (d + T * (2 / 10 ^ 10)) :=
      mul_le_mul_of_nonneg_right hTa a0
    have e : mf * (1 + 2 / 10 ^ 15) * (d + T * (2 / 10 ^ 10)) =
      (mf * d + mf * (T * (2 / 10 ^ 10))) * (1 + 2 / 10 ^ 15) := by ring
    rw [e] at a2
    refine (a1.trans a2).trans ?_
    have e2 : dm * (M + 14 / 10 ^ 10) = M * dm + dm * (14 / 10 ^ 10) := by ring
    rw [e2] at g3
    generalize mf * d = X at *
    generalize mf * (T * (2 / 10 ^ 10)) = Y at *
    generalize M * dm = Z at *
    clear a1 a2 e g1 g2 hTa hv hV hk hLa hTL hmf hma hTi
    norm_num at *
    linarith
  have g6 : M * dm * (1 + 1 / 10 ^ 5) ≤ M * (1 + 2 / 10 ^ 5) * (T * V) * (1 - 1 / 10 ^ 15) := by
    have a1 : dm * (1 - 1 / 10 ^ 6) ≤ T * V := by
      refine le_trans ?_ g2
      norm_num at *
      linarith
    have a2 : M * (dm * (1 - 1 / 10 ^ 6)) ≤ M * (T * V) :=
      mul_le_mul_of_nonneg_left a1 (by linarith)
    have e : M * (1 + 2 / 10 ^ 5) * (T * V) * (1 - 1 / 10 ^ 15) =
      M * (T * V) * ((1 + 2 / 10 ^ 5) * (1 - 1 / 10 ^ 15)) := by ring
    have e2 : M * (dm * (1 - 1 / 10 ^ 6)) = M * dm * (1 - 1 / 10 ^ 6) := by ring
    rw [e]
    rw [e2] at a2
    generalize M * (T * V) = Z at *
    have h0 : 0 < M * dm := by positivity
    generalize M * dm = W at *
    clear g5 g4 g3 g2 g1 hTi hTa hTL hLa hmf hma hv hV hk e e2
    norm_num at *
    linarith
  have hTa0 : 0 < T * a := by positivity
  refine le_of_mul_le_mul_right ?_ hTa0
  have g7 : M * (1 + 2 / 10 ^ 5) * T * (2 * V * (1 - 1 / 10 ^ 15)) ≤
      M * (1 + 2 / 10 ^ 5) * T * (k * a) := mul_le_mul_of_nonneg_left hk (by positivity)
  have e1 : 2 * T * v * (T * a) = 2 * (T * a * (T * v)) := by ring
  have e2 : M * (1 + 2 / 10 ^ 5) * k * (T * a) = M * (1 + 2 / 10 ^ 5) * T * (k * a) := by ring
  have e3 : M * (1 + 2 / 10 ^ 5) * T * (2 * V * (1 - 1 / 10 ^ 15)) =
    2 * (M * (1 + 2 / 10 ^ 5) * (T * V) * (1 - 1 / 10 ^ 15)) := by ring
  rw [e1, e2]
  rw [e3] at g7
  linarith

/-- Two uniform times are as far apart as the steps. -/
theorem uniform_gap {x y i P v d : ℝ} (hP : 0 < P) (hv : 0 < v) (hd : d ≤ 175 * 10 ^ 4 * v)
    (h1 : |x * v - i / P| ≤ i / P * (6 / 10 ^ 15))
    (h2 : |y * v - (i + 1) / P| ≤ (i + 1) / P * (6 / 10 ^ 15)) (hi : (i + 1) / P ≤ d) :
    1 / (P * v) - 22 / 10 ^ 9 ≤ y - x := by
  have a1 := (abs_le.1 h1).2
  have a2 := (abs_le.1 h2).1
  refine le_of_mul_le_mul_right ?_ hv
  have e : (1 / (P * v) - 22 / 10 ^ 9) * v = 1 / P - 22 / 10 ^ 9 * v := by field_simp
  rw [e, sub_mul]
  have hP1 : 0 < 1 / P := by positivity
  rw [add_div] at a2 hi
  clear h1 h2 e
  generalize 1 / P = W at *
  generalize i / P = Z at *
  generalize x * v = X at *
  generalize y * v = Y at *
  norm_num at *
  linarith

/-- Real times are as far apart as the rate allows. -/
theorem real_gap {k A B x y σ ρ r s P v M : ℝ} (hk : 0 < k) (hA : 0 < A) (hB : 0 ≤ B) (hP : 0 < P)
    (hP1 : P ≤ 1000) (hv : 0 < v) (hv1 : v ≤ 1001) (hM : 1 ≤ M)
    (hkA : k ≤ 2 * A * (1 + 1 / 10 ^ 5))
    (hrate : 2 * A * v ≤ M * (1 + 2 / 10 ^ 5) * k)
    (hgap : 1 / (P * v) - 22 / 10 ^ 9 ≤ y - x)
    (hσ : 0 ≤ σ ∧ σ ≤ 2 * A + B) (hρ : 0 ≤ ρ ∧ ρ ≤ 2 * A + B)
    (hx : |x - travel k A B σ| ≤ 1 / 10 ^ 7) (hy : |y - travel k A B ρ| ≤ 1 / 10 ^ 7)
    (hr : |σ - r| ≤ 5 / 10 ^ 8) (hs : |ρ - s| ≤ 5 / 10 ^ 8) :
    (1 - 2 / 10 ^ 5) / (P * M) - 4 / 10 ^ 7 ≤ s - r := by
  have x2 := (abs_le.1 hx).1
  have y1 := (abs_le.1 hy).2
  have r1 := (abs_le.1 hr).1
  have s2 := (abs_le.1 hs).2
  have hPv : 0 < P * v := by positivity
  have hbig : 9 / 10 ^ 7 ≤ 1 / (P * v) := by
    rw [le_div_iff₀ hPv]
    have : P * v ≤ 1000 * 1001 := mul_le_mul hP1 hv1 hv.le (by norm_num)
    norm_num at *
    linarith
  have hσρ : σ ≤ ρ := by
    by_contra hc
    push Not at hc
    have := travel_mono (k := k) (A := A) (B := B) hk hA.le hB hρ.1 hc.le hσ.2
    norm_num at *
    linarith
  have hsl := travel_slope (k := k) (A := A) (B := B) hk hA.le hB hσ.1 hσρ
  have h1 : 1 / (P * v) - 222 / 10 ^ 9 ≤ 2 * A / k * (ρ - σ) := by
    norm_num at *
    linarith
  have hA2 : 0 < 2 * A := by linarith
  set κ := k / (2 * A) with hκ
  have hκ0 : 0 < κ := by positivity
  have hκ1 : κ ≤ 1 + 1 / 10 ^ 5 := by
    rw [hκ, div_le_iff₀ hA2]; linarith
  have h2 := mul_le_mul_of_nonneg_left h1 hκ0.le
  have e1 : κ * (2 * A / k * (ρ - σ)) = ρ - σ := by rw [hκ]; field_simp
  rw [e1] at h2
  have h3 : v ≤ M * (1 + 2 / 10 ^ 5) * κ := by
    rw [hκ, ← mul_div_assoc, le_div_iff₀ hA2]; linarith
  have h4 : (1 - 2 / 10 ^ 5) / (P * M) ≤ κ * (1 / (P * v)) := by
    rw [mul_one_div, div_le_div_iff₀ (by positivity) hPv]
    have a1 : (1 - 2 / 10 ^ 5) * P * v ≤ (1 - 2 / 10 ^ 5) * P * (M * (1 + 2 / 10 ^ 5) * κ) :=
      mul_le_mul_of_nonneg_left h3 (mul_nonneg (by norm_num) hP.le)
    have a2 : 0 ≤ P * M * κ := by positivity
    have e2 : (1 - 2 / 10 ^ 5) * P * (M * (1 + 2 / 10 ^ 5) * κ) =
      P * M * κ * ((1 - 2 / 10 ^ 5) * (1 + 2 / 10 ^ 5)) := by ring
    have e3 : κ * (P * M) = P * M * κ := by ring
    have e4 : (1 - 2 / 10 ^ 5) * (P * v) = (1 - 2 / 10 ^ 5) * P * v := by ring
    rw [e3, e4]
    rw [e2] at a1
    refine a1.trans ?_
    generalize P * M * κ = Z at *
    norm_num
    linarith
  rw [mul_sub] at h2
  generalize κ * (1 / (P * v)) = Z at *
  generalize (1 - 2 / 10 ^ 5) / (P * M) = W at *
  clear hx hy hr hs hsl h1 e1 hrate hkA hκ hgap x2 y1
  norm_num at *
  linarith

end Reals

/-! ## The generator -/

section Generator

variable [PyRound]

/-- The length of a vector that is nearly a multiple of another one. -/
theorem length_scaled64 {m D : V4 F64} {q ε : ℝ} (hq : 0 ≤ q) (hε : 0 ≤ ε)
    (hm : ∀ ax, 0 ≤ (m.get ax).1) (hD : ∀ ax, 0 ≤ (D.get ax).1)
    (h : ∀ ax, (m.get ax).1 ≤ (D.get ax).1 * q + ε) :
    (Coord.length m).1 ≤ (q * (Coord.length D).1 + 2 * ε) * (1 + 1 / 10 ^ 14) := by
  obtain ⟨S, hS, eS, -, hShi⟩ := sumsq64 m
  obtain ⟨R, hR, eR, hRlo, -⟩ := sumsq64 D
  have mx := hm .x
  have my := hm .y
  have mz := hm .z
  have me := hm .e
  have dx := hD .x
  have dy := hD .y
  have dz := hD .z
  have de := hD .e
  have hx := h .x
  have hy := h .y
  have hz := h .z
  have he := h .e
  simp only [V4.get] at mx my mz me dx dy dz de hx hy hz he
  rw [eS, eR]
  have f1 := fl_hi2 (Real.sqrt_nonneg S)
  have f2 := fl_lo2 (Real.sqrt_nonneg R)
  set Q := D.x.1 ^ 2 + D.y.1 ^ 2 + D.z.1 ^ 2 + D.e.1 ^ 2 with hQ
  have hQ0 : 0 ≤ Q := by positivity
  -- the exact lengths
  have k1 : √Q * (1 - 10 / 10 ^ 16) ≤ √R := by
    refine Real.le_sqrt_of_sq_le ?_
    rw [mul_pow, Real.sq_sqrt hQ0]
    refine le_trans ?_ hRlo
    exact mul_le_mul_of_nonneg_left (by norm_num) hQ0
  have k2 : √S ≤ (q * √Q + 2 * ε) * (1 + 10 / 10 ^ 16) := by
    rw [Real.sqrt_le_left (by positivity)]
    refine hShi.trans ?_
    have hsum : D.x.1 + D.y.1 + D.z.1 + D.e.1 ≤ 2 * √Q := by
      have : (D.x.1 + D.y.1 + D.z.1 + D.e.1) ^ 2 ≤ (2 * √Q) ^ 2 := by
        rw [mul_pow, Real.sq_sqrt hQ0, hQ]
        nlinarith [sq_nonneg (D.x.1 - D.y.1), sq_nonneg (D.x.1 - D.z.1), sq_nonneg (D.x.1 - D.e.1),
          sq_nonneg (D.y.1 - D.z.1), sq_nonneg (D.y.1 - D.e.1), sq_nonneg (D.z.1 - D.e.1)]
      exact le_of_sq_le_sq this (by positivity)
    have hb : m.x.1 ^ 2 + m.y.1 ^ 2 + m.z.1 ^ 2 + m.e.1 ^ 2 ≤ (q * √Q + 2 * ε) ^ 2 := by
      have a1 := pow_le_pow_left₀ mx hx 2
      have a2 := pow_le_pow_left₀ my hy 2
      have a3 := pow_le_pow_left₀ mz hz 2
      have a4 := pow_le_pow_left₀ me he 2
      have e1 : (D.x.1 * q + ε) ^ 2 + (D.y.1 * q + ε) ^ 2 + (D.z.1 * q + ε) ^ 2 +
          (D.e.1 * q + ε) ^ 2 = q ^ 2 * Q + 2 * q * ε * (D.x.1 + D.y.1 + D.z.1 + D.e.1) +
          4 * ε ^ 2 := by rw [hQ]; ring
      have e2 : (q * √Q + 2 * ε) ^ 2 = q ^ 2 * √Q ^ 2 + 2 * q * ε * (2 * √Q) + 4 * ε ^ 2 := by ring
      rw [e2, Real.sq_sqrt hQ0]
      have a5 := mul_le_mul_of_nonneg_left hsum (show 0 ≤ 2 * q * ε by positivity)
      linarith
    rw [mul_pow]
    exact mul_le_mul hb (by norm_num) (by norm_num) (by positivity)
  have k3 : √Q ≤ fl √R * (1 + 2 / 10 ^ 15) := by
    have h1 := Real.sqrt_nonneg Q
    have h2 := fl_nonneg (Real.sqrt_nonneg R)
    clear k2 f1 hShi hRlo
    generalize √Q = X at *
    generalize fl √R = Y at *
    generalize √R = Z at *
    norm_num at k1 f2 ⊢
    linarith
  have k4 : q * √Q ≤ q * fl √R * (1 + 2 / 10 ^ 15) := by
    have := mul_le_mul_of_nonneg_left k3 hq
    linarith
  have k5 : 0 ≤ q * fl √R := mul_nonneg hq (fl_nonneg (Real.sqrt_nonneg _))
  generalize q * fl √R = X at *
  generalize q * √Q = Y at *
  clear k3 k1 f2 hShi hRlo
  norm_num at *
  linarith

/-- `2 * Vmax / a` in binary64, precisely. -/
theorem twoV64' {V : F64} {a : ℚ} (ha : (1 : ℝ) ≤ fl a) (hV : 0 ≤ V.1) :
    (PyNum.ofRat 2 *ₚ V /ₚ PyNum.ofRat a : F64).1 * fl a ≤ 2 * V.1 * (1 + 1 / 10 ^ 15) ∧
      2 * V.1 * (1 - 1 / 10 ^ 15) ≤ (PyNum.ofRat 2 *ₚ V /ₚ PyNum.ofRat a : F64).1 * fl a := by
  rw [val_div, val_mul, val_ofRat, val_ofRat, fl_two, fl_double, V.2]
  have ha0 : (0 : ℝ) < fl a := by linarith
  generalize fl (a : ℝ) = b at *
  have h0 : 0 ≤ 2 * V.1 / b := by positivity
  have h1 := mul_le_mul_of_nonneg_right (fl_hi h0) ha0.le
  have h2 := mul_le_mul_of_nonneg_right (fl_lo h0) ha0.le
  have e1 : (2 * V.1 / b + 2 * V.1 / b * (1 / 10 ^ 15)) * b = 2 * V.1 * (1 + 1 / 10 ^ 15) := by
    field_simp
  have e2 : (2 * V.1 / b - 2 * V.1 / b * (1 / 10 ^ 15)) * b = 2 * V.1 * (1 - 1 / 10 ^ 15) := by
    field_simp
  rw [e1] at h1
  rw [e2] at h2
  exact ⟨h1, h2⟩

variable {c : Cfg} {n : V4 ℤ} {w : V4 F64} {g : LinearGen F64} {q : ℝ}

/-- The uniform times of one axis. -/
structure AxisTimes (c : Cfg) (g : LinearGen F64) (q d v P : ℝ) (ax : Axis) (i : Nat) : Prop where
  pos : 0 < v
  near : |g.ut c ax i * v - i / P| ≤ i / P * (6 / 10 ^ 15)
  le : (i : ℝ) / P ≤ d
  dist : d ≤ 175 * 10 ^ 4 * v
  before : g.ut c ax i * v ≤ d - 9 / 10 ^ 4
  last : g.ut c ax i ≤ 1 / q

theorem axisTimes (hc : SaneCfg c) (hw : Steps64 c n w) (hs : Shape64 c n w g q) (hg : g.Good64 c)
    {ax : Axis} {i : Nat} (hi : i < (g.total.get ax).toNat) :
    AxisTimes c g q ((Coord.abs w).get ax).1 (g.maxV.get ax).1 (c.ppm.get ax) ax i := by
  have hq0 : 0 < q := lt_of_lt_of_le (by norm_num) hs.q_ge
  have hmv : 0 < (g.maxV.get ax).1 := hg.moving ax (by omega)
  have hp : (0 : ℝ) < c.ppm.get ax := by exact_mod_cast hc.ppm_pos ax
  have hp1 : (c.ppm.get ax : ℝ) ≤ 1000 := by exact_mod_cast hc.ppm_le ax
  have hpi : 1 / (1000 : ℝ) ≤ 1 / c.ppm.get ax := one_div_le_one_div_of_le hp hp1
  have hN : (((g.total.get ax).toNat : ℕ) : ℝ) = |(n.get ax : ℝ)| := by
    rw [hs.total ax]
    have : ((|n.get ax|.toNat : ℤ) : ℝ) = ((|n.get ax| : ℤ) : ℝ) := by
      rw [Int.toNat_of_nonneg (abs_nonneg _)]
    rw [Int.cast_natCast] at this
    rw [this, Int.cast_abs]
  have hut : |g.ut c ax i * (g.maxV.get ax).1 - (i : ℝ) / c.ppm.get ax| ≤
      (i : ℝ) / c.ppm.get ax * (6 / 10 ^ 15) := by
    unfold LinearGen.ut
    rw [Int.cast_natCast]
    exact ut_near (Nat.cast_nonneg _) hp hmv
  have h1 := (abs_le.1 hut).2
  have h2 := (abs_le.1 (hs.near ax)).1
  obtain ⟨h3, h0, -⟩ := abs64 hc hw ax
  obtain ⟨h3, h3'⟩ := abs_le.1 h3
  have h4 : ((i : ℝ) + 1) / c.ppm.get ax ≤ |(n.get ax : ℝ)| / c.ppm.get ax := by
    refine div_le_div_of_nonneg_right ?_ hp.le
    rw [← hN]
    exact_mod_cast hi
  rw [add_div] at h4
  have h8 : |(n.get ax : ℝ)| / c.ppm.get ax ≤ 10 ^ 4 := by
    rw [div_le_iff₀ hp]; exact hw.size ax
  have hi0 : 0 ≤ (i : ℝ) / c.ppm.get ax := div_nonneg (Nat.cast_nonneg _) hp.le
  have h6 : g.ut c ax i * (g.maxV.get ax).1 ≤ ((Coord.abs w).get ax).1 - 9 / 10 ^ 4 := by
    generalize g.ut c ax i * (g.maxV.get ax).1 = X at *
    generalize (i : ℝ) / c.ppm.get ax = Z at *
    generalize 1 / (c.ppm.get ax : ℝ) = W at *
    generalize |(n.get ax : ℝ)| / c.ppm.get ax = T at *
    generalize ((Coord.abs w).get ax).1 = D at *
    clear hut
    norm_num at *
    linarith
  have hD9 : 9 / 10 ^ 4 ≤ ((Coord.abs w).get ax).1 := by
    have h9 := mul_nonneg (ut_nonneg hg ax i) hmv.le
    linarith
  have hDq : 9 / 10 ^ 4 * (8 / 10 ^ 7) ≤ ((Coord.abs w).get ax).1 * q :=
    mul_le_mul hD9 hs.q_ge (by norm_num) h0
  have hDq2 : ((Coord.abs w).get ax).1 * (8 / 10 ^ 7) ≤ ((Coord.abs w).get ax).1 * q :=
    mul_le_mul_of_nonneg_left hs.q_ge h0
  refine ⟨hmv, hut, ?_, ?_, h6, ?_⟩
  · generalize (i : ℝ) / c.ppm.get ax = Z at *
    generalize 1 / (c.ppm.get ax : ℝ) = W at *
    generalize |(n.get ax : ℝ)| / c.ppm.get ax = T at *
    generalize ((Coord.abs w).get ax).1 = D at *
    clear hut
    norm_num at *
    linarith
  · generalize ((Coord.abs w).get ax).1 * q = Y at *
    generalize ((Coord.abs w).get ax).1 = D at *
    generalize (g.maxV.get ax).1 = v at *
    clear hut h1 h6 hs
    norm_num at *
    linarith
  · rw [le_div_iff₀ hq0]
    have h7 := mul_le_mul_of_nonneg_right h6 hq0.le
    have h8 := hs.q_ge
    have h9 : g.ut c ax i * q * (g.maxV.get ax).1 ≤ 1 * (g.maxV.get ax).1 := by
      have e : g.ut c ax i * q * (g.maxV.get ax).1 = g.ut c ax i * (g.maxV.get ax).1 * q := by ring
      rw [e]
      rw [sub_mul] at h7
      generalize g.ut c ax i * (g.maxV.get ax).1 * q = X at *
      generalize ((Coord.abs w).get ax).1 * q = Y at *
      clear hut h6 h1
      norm_num at *
      linarith
    exact le_of_mul_le_mul_right h9 hmv

/-- What is known of a straight move one of whose axes moves. -/
structure Facts64 (c : Cfg) (n : V4 ℤ) (w : V4 F64) (v : F64) (g : LinearGen F64) (q : ℝ) : Prop where
  sane : SaneCfg c
  limits : DecimalLimits c
  vel : ∀ ax, c.maxVel.get ax ≤ 60000
  auto : c.autoVel = true
  steps : Steps64 c n w
  moves : ∃ ax, n.get ax ≠ 0
  feed : 1 ≤ v.1
  new : LinearGen.new c w v = .ok g
  shape : Shape64 c n w g q
  good : g.Good64 c

namespace Facts64

variable {v : F64} (h : Facts64 c n w v g q)

include h

theorem accel1 : (1 : ℝ) ≤ fl (c.accel : ℝ) := by
  have hA : (1 : ℝ) ≤ c.accel := by exact_mod_cast h.sane.accel
  rw [← fl_one]; exact fl_mono hA

theorem dist_nonneg (ax : Axis) : 0 ≤ ((Coord.abs w).get ax).1 := (abs64 h.sane h.steps ax).2.1

theorem maxV_nonneg (ax : Axis) : 0 ≤ (g.maxV.get ax).1 := h.good.nonneg ax

theorem length_le : (Coord.length (Coord.abs w)).1 ≤ 20010 := by
  refine length64_le h.dist_nonneg fun ax => ?_
  have hp : (0 : ℝ) < c.ppm.get ax := by exact_mod_cast h.sane.ppm_pos ax
  have h1 := (abs_le.1 (abs64 h.sane h.steps ax).1).2
  have h2 : |(n.get ax : ℝ)| / c.ppm.get ax ≤ 10 ^ 4 := by
    rw [div_le_iff₀ hp]; exact h.steps.size ax
  linarith

theorem dist_ge {ax : Axis} {i : Nat} (hi : i < (g.total.get ax).toNat) :
    9 / 10 ^ 4 ≤ ((Coord.abs w).get ax).1 := by
  have h1 := axisTimes h.sane h.steps h.shape h.good hi
  have h2 := mul_nonneg (ut_nonneg h.good ax i) h1.pos.le
  have h3 := h1.before
  linarith

/-- A bound on `2 * Vmax / a` in moves that do not reach their velocity. -/
theorem short_bound {ax : Axis} {i : Nat} (hi : i < (g.total.get ax).toNat) (hT : 0 < g.accT.1)
    (hq : q = 1 / g.accT.1) (hL : (Coord.length (Coord.abs w)).1 ≤
      g.accT.1 ^ 2 * fl c.accel * (1 + 7 / 10 ^ 16)) :
    ((Gen.linear g).twoVmaxPerA c).1 ≤ 2 * g.accT.1 + 5 / 10 ^ 10 ∧
      ((Gen.linear g).twoVmaxPerA c).1 ≤ 2 * g.accT.1 * (1 + 1 / 10 ^ 5) := by
  obtain ⟨f, hf⟩ := get_max64 g.maxV
  have hV0 : 0 ≤ (Coord.findMax g.maxV).1 := by rw [hf]; exact h.maxV_nonneg f
  have hq0 : 0 < q := by rw [hq]; positivity
  refine short_k (V := (Coord.findMax g.maxV).1) h.accel1 hT h.shape.accT.2 ?_ hL ?_
    (twoV64' h.accel1 hV0).1
  · have h1 := h.dist_ge hi
    have h2 := length64 h.dist_nonneg ax
    norm_num at *
    linarith
  · rw [hf, ← hq]
    have h1 := (abs_le.1 (h.shape.near f)).2
    have h2 := mul_le_mul_of_nonneg_right (length64 h.dist_nonneg f) hq0.le
    linarith

/-- The uniform times end with the acceleration profile. -/
theorem ends {ax : Axis} {i : Nat} (hi : i < (g.total.get ax).toNat) :
    g.ut c ax i ≤ 2 * (g.accT.1 * g.accT.1 / ((Gen.linear g).twoVmaxPerA c).1) + g.linT.1 +
      1 / 10 ^ 7 := by
  have h1 := axisTimes h.sane h.steps h.shape h.good hi
  have hq0 : 0 < q := lt_of_lt_of_le (by norm_num) h.shape.q_ge
  have hk := h.shape.k_pos
  rcases h.shape.form with ⟨f1, f2, f3, f4, -⟩ | ⟨f1, f2⟩
  · rw [f1]
    refine ends_short f3 hk h.shape.accK (h.short_bound hi f3 f2 f4).1 ?_
    have := h1.last
    rw [f2, one_div_one_div] at this
    exact this
  · have hA : 0 < g.accT.1 := by linarith
    have e : 2 * (g.accT.1 * g.accT.1 / ((Gen.linear g).twoVmaxPerA c).1) = g.accT.1 := by
      rw [f1]; field_simp
    rw [e]
    have hlen := length_scaled64 (m := g.maxV) (D := Coord.abs w) (q := q) (ε := 2 / 10 ^ 10) hq0.le
      (by norm_num) h.maxV_nonneg h.dist_nonneg
      (fun a => by have := (abs_le.1 (h.shape.near a)).2; linarith)
    have e2 : (2 : ℝ) * (2 / 10 ^ 10) = 4 / 10 ^ 10 := by norm_num
    rw [e2] at hlen
    refine ends_long (L := (Coord.length (Coord.abs w)).1) h.shape.q_ge ?_ h.length_le hlen
      (add_nonneg h.shape.accT.1 h.shape.linT.1) f2 (ut_nonneg h.good ax i) h1.last h1.before ?_
      (length64 h.dist_nonneg ax)
    · exact (h.dist_nonneg ax).trans (length64 h.dist_nonneg ax)
    · have := (abs_le.1 (h.shape.near ax)).1; linarith

/-- The velocity at the top of the profile. -/
theorem rate {ax : Axis} {i : Nat} (hi : i < (g.total.get ax).toNat) :
    0 < g.accT.1 ∧ ((Gen.linear g).twoVmaxPerA c).1 ≤ 2 * g.accT.1 * (1 + 1 / 10 ^ 5) ∧
    2 * g.accT.1 * (g.maxV.get ax).1 ≤
      c.maxVel.get ax / 60 * (1 + 2 / 10 ^ 5) * ((Gen.linear g).twoVmaxPerA c).1 := by
  have hM : (1 : ℝ) ≤ c.maxVel.get ax / 60 := by
    have : (60 : ℝ) ≤ c.maxVel.get ax := by exact_mod_cast h.sane.maxVel ax
    linarith
  have hk := h.shape.k_pos
  rcases h.shape.form with ⟨f1, f2, f3, f4, f5, m, q', f, m1, m2, m3, m4, m5⟩ | ⟨f1, f2⟩
  · refine ⟨f3, (h.short_bound hi f3 f2 f4).2, ?_⟩
    obtain ⟨mx, hmx⟩ := get_max64 (Coord.abs w)
    have hmxD : ∀ a, ((Coord.abs w).get a).1 ≤ ((Coord.abs w).get mx).1 := fun a => by
      rw [← hmx]; exact findMax64 _ a
    have hV0 : 0 ≤ (Coord.findMax g.maxV).1 := le_trans (by norm_num) h.shape.fast
    have hMf : (c.maxVel.get f : ℝ) ≤ 60000 := by exact_mod_cast h.vel f
    refine rate_short (dm := ((Coord.abs w).get mx).1) (mf := m f) (ma := m ax) (q := q')
      (V := (Coord.findMax g.maxV).1) (d := ((Coord.abs w).get ax).1) h.accel1 f3 f5
      (length_le_two64 (fun a => pow_le_pow_left₀ (h.dist_nonneg a) (hmxD a) 2) (h.dist_nonneg mx))
      ((h.dist_ge hi).trans (hmxD ax)) (h.dist_nonneg ax) (hmxD ax) m2 m5 ?_ ?_ ?_ (m4 ax) hM ?_ ?_
      (twoV64' h.accel1 hV0).2
    · have h1 := (abs_le.1 (m3 f)).2
      have h2 := mul_le_mul_of_nonneg_right (hmxD f) m1
      linarith
    · have := m4 f
      norm_num at *
      linarith
    · have := (abs_le.1 (m3 ax)).1
      linarith
    · have := (abs_le.1 (h.shape.near ax)).2
      rw [← f2]
      linarith
    · have h1 := (abs_le.1 (h.shape.near mx)).1
      have h2 := findMax64 g.maxV mx
      rw [← f2]
      linarith
  · refine ⟨by linarith, by rw [f1]; nlinarith, ?_⟩
    have h1 := limit64 h.sane h.limits h.vel h.auto h.steps h.moves h.feed h.new ax
    have h2 := fl_hi2 (show (0 : ℝ) ≤ c.maxVel.get ax / 60 by linarith)
    rw [← f1]
    have h3 : (g.maxV.get ax).1 ≤ c.maxVel.get ax / 60 * (1 + 2 / 10 ^ 5) := by
      norm_num at *
      linarith
    have := mul_le_mul_of_nonneg_left h3 hk.le
    linarith

/-- The real time of a step. -/
theorem real {ax : Axis} {i : Nat} (hi : i < (g.total.get ax).toNat) {m r : F64}
    (hm : m.1 = g.ut c ax i) (hr : (Gen.linear g).toAccelerated c m = .ok r) :
    ∃ σ, 0 ≤ σ ∧ σ ≤ 2 * g.accT.1 + g.linT.1 ∧ |σ - r.1| ≤ 5 / 10 ^ 8 ∧
      |m.1 - travel ((Gen.linear g).twoVmaxPerA c).1 g.accT.1 g.linT.1 σ| ≤ 1 / 10 ^ 7 := by
  have h1 := axisTimes h.sane h.steps h.shape h.good hi
  have hq0 : 0 < q := lt_of_lt_of_le (by norm_num) h.shape.q_ge
  refine travel64 (g := .linear g) h.shape.k_pos h.shape.accT h.shape.linT h.shape.accK ?_ ?_ ?_ hr
  · rcases h.shape.form with ⟨f1, -⟩ | ⟨f1, -⟩
    · exact .inr f1
    · exact .inl f1
  · rw [hm]
    refine ⟨ut_nonneg h.good ax i, h1.last.trans ?_⟩
    rw [div_le_iff₀ hq0]
    have := h.shape.q_ge
    norm_num at *
    linarith
  · rw [hm]; exact h.ends hi

/-- Successive pulses of an axis are as far apart as its maximum velocity asks. -/
theorem gap {ax : Axis} {i : Nat} (hi : i + 1 < (g.total.get ax).toNat) {m m' r r' : F64}
    (hm : m.1 = g.ut c ax i) (hm' : m'.1 = g.ut c ax (i + 1))
    (hr : (Gen.linear g).toAccelerated c m = .ok r) (hr' : (Gen.linear g).toAccelerated c m' = .ok r') :
    (1 - 2 / 10 ^ 5) / (c.ppm.get ax * (c.maxVel.get ax / 60)) - 4 / 10 ^ 7 ≤ r'.1 - r.1 := by
  have hi' : i < (g.total.get ax).toNat := by omega
  obtain ⟨σ, s1, s2, s3, s4⟩ := h.real hi' hm hr
  obtain ⟨ρ, t1, t2, t3, t4⟩ := h.real hi hm' hr'
  have a1 := axisTimes h.sane h.steps h.shape h.good hi'
  have a2 := axisTimes h.sane h.steps h.shape h.good hi
  obtain ⟨r1, r2, r3⟩ := h.rate hi'
  have hp : (0 : ℝ) < c.ppm.get ax := by exact_mod_cast h.sane.ppm_pos ax
  have hp1 : (c.ppm.get ax : ℝ) ≤ 1000 := by exact_mod_cast h.sane.ppm_le ax
  have hM : (1 : ℝ) ≤ c.maxVel.get ax / 60 := by
    have : (60 : ℝ) ≤ c.maxVel.get ax := by exact_mod_cast h.sane.maxVel ax
    linarith
  have hn := a2.near
  have hl := a2.le
  push_cast at hn hl
  exact real_gap h.shape.k_pos r1 h.shape.linT.1 hp hp1 a1.pos ((findMax64 _ _).trans h.shape.slow) hM
    r2 r3 (by rw [hm, hm']; exact uniform_gap hp a1.pos a1.dist a1.near hn hl) ⟨s1, s2⟩ ⟨t1, t2⟩ s4 t4
    s3 t3

end Facts64

end Generator

end PyCNC
