import Verif.Lemmas.LinearRun

/-!
# Speed limits, straightness and acceleration of linear moves
-/

set_option linter.unusedSectionVars false

namespace PyCNC

open Spec

variable [PyRound] {c : Cfg} {delta : V4 ℝ} {v : ℝ}

theorem limit_grid (hd : DecimalLimits c) (ax : Axis) : Grid ((c.maxVel.get ax : ℝ) / 60) := hd ax

theorem limit_ge (hc : SaneCfg c) (ax : Axis) : 1 ≤ (c.maxVel.get ax : ℝ) / 60 := by
  have : (60 : ℝ) ≤ c.maxVel.get ax := by exact_mod_cast hc.maxVel ax
  linarith

theorem limit_le (hc : SaneCfg c) (ax : Axis) : (c.maxVel.get ax : ℝ) / 60 ≤ 10000 := by
  have : (c.maxVel.get ax : ℝ) ≤ 600000 := by exact_mod_cast hc.maxVel_le ax
  linarith

theorem InitVel.le_limit {w : V4 ℝ} {q : ℝ} (h : InitVel c delta v w q) (hd : DecimalLimits c)
    (ha : c.autoVel = true) (ax : Axis) : w.get ax ≤ (c.maxVel.get ax : ℝ) / 60 := by
  have := h.limit ha ax
  rwa [round10_grid (limit_grid hd ax)] at this

theorem sq_two_le_norm4 (u : V4 ℝ) {i j : Axis} (hij : i ≠ j) :
    u.get i ^ 2 + u.get j ^ 2 ≤ norm4 u ^ 2 := by
  rw [norm4_sq]
  cases i <;> cases j <;> simp only [V4.get] <;>
    first
    | exact absurd rfl hij
    | nlinarith [sq_nonneg u.x, sq_nonneg u.y, sq_nonneg u.z, sq_nonneg u.e]

/-- The arithmetic behind `linear_limit`. -/
theorem short_limit_aux {d df L q wf w M Mf : ℝ} (hd : 0 ≤ d) (hdf : 0 < df) (hL : 0 < L)
    (h2 : d ^ 2 + df ^ 2 ≤ L ^ 2) (hLdf : df ≤ L) (hdL : d ≤ L) (hhalf : L ≤ 21 / 10 * df)
    (hq : 0 < q) (h3 : wf ≤ df * q + 1 / 10 ^ 10) (h4 : df * q ≤ wf + 1 / 10 ^ 10)
    (h5 : d * q ≤ w + 1 / 10 ^ 10) (hw : w ≤ M) (hwf : wf ≤ Mf) (hM : 1 ≤ M) (hMf : Mf ≤ 10000) :
    d * wf ≤ M * L := by
  have hηL : d * (1 / 10 ^ 10) ≤ L * (1 / 10 ^ 10) := by nlinarith
  have h6 : d * wf ≤ d * q * df + d * (1 / 10 ^ 10) := by
    have := mul_le_mul_of_nonneg_left h3 hd
    linarith
  rcases le_total (d * q) (M / 2) with h7 | h7
  · have h8 : d * q * df ≤ M / 2 * L := by
      apply mul_le_mul h7 hLdf hdf.le (by linarith)
    nlinarith
  · -- the move has a noticeable part along this axis
    have h8 : 1 / 2 ≤ d * q := by linarith
    have h9 : df * q ≤ 10001 := by norm_num at h4 ⊢; linarith
    have h10 : df ≤ 20002 * d := by
      have : df * q ≤ 20002 * d * q := by linarith
      exact le_of_mul_le_mul_right this hq
    have h11 : L ≤ 42005 * d := by linarith
    have hsq : L ^ 2 ≤ 42005 ^ 2 * d ^ 2 := by
      rw [← mul_pow]; exact pow_le_pow_left₀ hL.le h11 2
    -- `df ≤ L - d²/(2L)`
    have h12 : 2 * df * L ≤ 2 * L ^ 2 - d ^ 2 := by nlinarith [sq_nonneg (L - df)]
    have h13 : d * q * df ≤ (M + 1 / 10 ^ 10) * df :=
      mul_le_mul_of_nonneg_right (by linarith) hdf.le
    have h14 : d * wf ≤ (M + 1 / 10 ^ 10) * df + L * (1 / 10 ^ 10) := by linarith
    have h15 : d * wf * (2 * L) ≤ (M + 1 / 10 ^ 10) * (2 * L ^ 2 - d ^ 2) +
        2 * L ^ 2 * (1 / 10 ^ 10) := by
      have := mul_le_mul_of_nonneg_right h14 (by linarith : 0 ≤ 2 * L)
      have h16 := mul_le_mul_of_nonneg_left h12 (by positivity : 0 ≤ M + 1 / 10 ^ 10)
      linear_combination this + h16
    have h17 : M * L ^ 2 * 2 ≥ d * wf * (2 * L) := by
      have h18 : d ^ 2 ≤ M * d ^ 2 := le_mul_of_one_le_left (sq_nonneg d) hM
      have h19 := sq_nonneg d
      generalize d ^ 2 = D at *
      generalize d * wf * (2 * L) = X at *
      norm_num at *
      linarith
    have : d * wf * (2 * L) ≤ M * L * (2 * L) := by linear_combination h17
    exact le_of_mul_le_mul_right this (by linarith)

/-- When the velocities before acceleration are within the limits, no axis of a linear move is faster
than its limit. -/
theorem linear_limit_of (hc : SaneCfg c) (hd : DecimalLimits c)
    (hlim : ∀ w q, InitVel c delta v w q → ∀ ax, w.get ax ≤ (c.maxVel.get ax : ℝ) / 60)
    (hm : OrdinaryMove delta v) {g : LinearGen ℝ} (hg : LinearGen.new c delta v = .ok g)
    (ax : Axis) : g.maxV.get ax ≤ (c.maxVel.get ax : ℝ) / 60 := by
  obtain ⟨g', w, q, h1, hi, _, _, _, h⟩ := linear_new hc hm
  rw [h1] at hg
  cases hg
  rcases h with h | h
  · rw [h.maxV]; exact hlim _ _ hi ax
  · rw [h.maxV]
    refine round10_le_grid (limit_grid hd ax) ?_
    have hA := h.accT_pos hc hm
    have hAsq := h.accT_sq hc hm
    have ha0 : (0 : ℝ) < c.accel := by have := accel_ge hc; linarith
    have hL0 : 0 < norm4 (Coord.abs delta) := by have := norm_ge hm; linarith
    have hwm := hi.max_ge hm
    obtain ⟨f, hf⟩ := findMax_mem w
    rw [hf] at hwm
    have hcond := h.cond
    rw [hf] at hcond
    -- `L ≤ A * wf`
    have hLA : norm4 (Coord.abs delta) ≤ g.accT * w.get f := by
      refine le_of_sq_le_sq ?_ (by positivity)
      rw [mul_pow, hAsq, div_mul_eq_mul_div, le_div_iff₀ ha0]
      nlinarith
    rw [div_le_iff₀ hA]
    have hd0 := dist_nonneg hm ax
    have hM := limit_ge hc ax
    suffices hs : (Coord.abs delta).get ax * w.get f ≤
        (c.maxVel.get ax : ℝ) / 60 * norm4 (Coord.abs delta) by
      have h2 : (Coord.abs delta).get ax * w.get f ≤
          (c.maxVel.get ax : ℝ) / 60 * g.accT * w.get f := by
        refine hs.trans ?_
        rw [mul_assoc]
        exact mul_le_mul_of_nonneg_left hLA (by linarith)
      exact le_of_mul_le_mul_right h2 (by linarith)
    by_cases hfa : ax = f
    · subst hfa
      have h2 := hlim _ _ hi ax
      have h3 := dist_le hm ax
      rw [mul_comm]
      exact mul_le_mul h2 h3 hd0 (by linarith)
    · have e1 : (1 : ℝ) / E10 = 1 / 10 ^ 10 := by rw [e10_val]
      have n1 := abs_le.1 (hi.near f)
      have n2 := abs_le.1 (hi.near ax)
      rw [e1] at n1 n2
      have hlf := hlim _ _ hi f
      have hdf : 0 < (Coord.abs delta).get f := by
        rcases (dist_nonneg hm f).lt_or_eq with h2 | h2
        · exact h2
        · rw [← h2, zero_mul] at n1
          norm_num at n1 hwm
          linarith [n1.2]
      -- the fastest axis is also (nearly) the longest
      obtain ⟨mx, hmx⟩ := findMax_mem (Coord.abs delta)
      have hhalf := half_norm_le hm
      rw [hmx] at hhalf
      have hwmx := le_findMax w mx
      rw [hf] at hwmx
      have n3 := abs_le.1 (hi.near mx)
      rw [e1] at n3
      have hq := hi.q_pos
      have hhf : norm4 (Coord.abs delta) ≤ 21 / 10 * (Coord.abs delta).get f := by
        have h2 := hi.q_ge
        have h3 : (Coord.abs delta).get mx * q ≤ (Coord.abs delta).get f * q + 2 * (1 / 10 ^ 10) := by
          linarith [n3.1, n1.2]
        have h4 : q * norm4 (Coord.abs delta) ≤ q * (2 * (Coord.abs delta).get mx) :=
          mul_le_mul_of_nonneg_left hhalf hq.le
        have h5 : norm4 (Coord.abs delta) * q ≤ 21 / 10 * (Coord.abs delta).get f * q := by
          norm_num at h2 h3 h4 ⊢
          linarith
        exact le_of_mul_le_mul_right h5 hq
      exact short_limit_aux hd0 hdf hL0 (sq_two_le_norm4 _ hfa) (dist_le hm f) (dist_le hm ax)
        hhf hq (by linarith [n1.2]) (by linarith [n1.1]) (by linarith [n2.1])
        (hlim _ _ hi ax) hlf hM (limit_le hc f)

/-- With automatic adjustment no axis of a linear move is faster than its limit. -/
theorem linear_limit (hc : SaneCfg c) (hd : DecimalLimits c) (ha : c.autoVel = true)
    (hm : OrdinaryMove delta v) {g : LinearGen ℝ} (hg : LinearGen.new c delta v = .ok g)
    (ax : Axis) : g.maxV.get ax ≤ (c.maxVel.get ax : ℝ) / 60 :=
  linear_limit_of hc hd (fun _ _ hi => hi.le_limit hd ha) hm hg ax

/-- Without adjustment the same holds of moves whose programmed velocities are within the limits. -/
theorem linear_limit_manual (hc : SaneCfg c) (hd : DecimalLimits c) (ha : c.autoVel = false)
    (hm : OrdinaryMove delta v) (hv : ∀ ax, v * |delta.get ax| ≤ c.maxVel.get ax * norm4 delta)
    {g : LinearGen ℝ} (hg : LinearGen.new c delta v = .ok g)
    (ax : Axis) : g.maxV.get ax ≤ (c.maxVel.get ax : ℝ) / 60 := by
  refine linear_limit_of hc hd (fun w q hi ax => ?_) hm hg ax
  have hw := hi.manual ha
  rw [norm_abs hm] at hw
  rw [hw, get_smul, abs_get hm]
  refine round10_le_grid (limit_grid hd ax) ?_
  have hN : 0 < norm4 delta := by rw [← norm_abs hm]; have := norm_ge hm; linarith
  rw [← mul_div_assoc, div_le_iff₀ hN]
  have := hv ax
  linarith


/-- The arithmetic behind `linear_gap`. -/
theorem gap_aux {A P M ρ g : ℝ} (hA : 0 < A) (hP : 0 < P) (hM : 0 < M) (hρ : 0 < ρ)
    (hg : 0 ≤ g) (h1 : 1 / (P * ρ) ≤ g - g ^ 2 / (4 * A)) (h2 : (ρ - M) * A * P * 4 ≤ 1) :
    1 / (P * M) ≤ g := by
  rcases le_total ρ M with h | h
  · have h3 : 1 / (P * M) ≤ 1 / (P * ρ) := by gcongr
    have : 0 ≤ g ^ 2 / (4 * A) := by positivity
    linarith
  · by_contra hcon
    push Not at hcon
    rw [lt_div_iff₀ (by positivity)] at hcon
    rw [div_le_iff₀ (by positivity)] at h1
    have e : (g - g ^ 2 / (4 * A)) * (P * ρ) * (4 * A) = (4 * A * g - g ^ 2) * (P * ρ) := by
      field_simp
    have h3 : 4 * A ≤ (4 * A * g - g ^ 2) * (P * ρ) := by
      rw [← e]
      have := mul_le_mul_of_nonneg_right h1 (by linarith : 0 ≤ 4 * A)
      linarith
    -- with `x = P * g` and `y = A * P`
    have hx : 0 ≤ P * g := by positivity
    have hy : 0 < A * P := by positivity
    have h4 : 4 * (A * P) ≤ (4 * (A * P) * (P * g) - (P * g) ^ 2) * ρ := by
      have := mul_le_mul_of_nonneg_right h3 hP.le
      nlinarith
    have h5 : P * g * M < 1 := by nlinarith
    have h6 : (ρ - M) * (A * P) * 4 ≤ 1 := by linarith
    generalize P * g = x at *
    generalize A * P = y at *
    have h7 : 0 < ρ * x := by
      by_contra h0
      have : ρ * x = 0 := le_antisymm (not_lt.1 h0) (by positivity)
      nlinarith
    have hx0 : 0 < x := by
      rcases hx.lt_or_eq with h | h
      · exact h
      · rw [← h] at h7; simp at h7
    -- `4 y (ρ x - 1) ≥ ρ x²`, `ρ x - 1 < (ρ - M) x`
    have h8 : ρ * x ^ 2 ≤ 4 * y * (ρ * x - 1) := by nlinarith
    have h9 : 4 * y * (ρ * x - 1) ≤ 4 * y * ((ρ - M) * x) := by
      apply mul_le_mul_of_nonneg_left _ (by linarith); nlinarith
    have h10 : 4 * y * ((ρ - M) * x) ≤ x := by nlinarith
    have h11 : ρ * x ≤ 1 := by
      have : ρ * x * x ≤ 1 * x := by nlinarith
      exact le_of_mul_le_mul_right this hx0
    nlinarith

/-- With automatic adjustment two pulses of one axis are never closer than at maximum speed. -/
theorem linear_gap (hc : SaneCfg c) (hd : DecimalLimits c) (ha : c.autoVel = true)
    (hm : OrdinaryMove delta v) {g : LinearGen ℝ} (hg : LinearGen.new c delta v = .ok g)
    (ax : Axis) {i : Nat} (hi1 : i + 1 < (g.total.get ax).toNat) :
    1 / ((c.ppm.get ax : ℝ) * ((c.maxVel.get ax : ℝ) / 60)) ≤
      g.at c (g.pt c ax (i + 1)) - g.at c (g.pt c ax i) := by
  have hlf := linear_facts hc hm hg
  obtain ⟨g', w, q, h1, hi, _, ht, _, h⟩ := linear_new hc hm
  rw [h1] at hg
  cases hg
  have hM := limit_ge hc ax
  have hP : (0 : ℝ) < c.ppm.get ax := by exact_mod_cast hc.ppm_pos ax
  have hax : delta.get ax ≠ 0 := total_pos (ht ax) (by omega)
  have hmv := hlf.moving ax hax
  have hpt := pt_succ (c := c) (g := g) ax i
  rcases h with h | h
  · have hk : (Gen.linear g).twoVmaxPerA c = 2 * g.accT := by
      rw [twoVmaxPerA_eq, h.maxV, h.accT]; ring
    have h2 := warp_gap hlf.k_pos hlf.good.accT hlf.good.linT (.inl hk) (pt_nonneg hlf.good ax i)
      (pt_mono hlf.good ax (Nat.le_succ i)) (hlf.ends ax (i + 1) hi1)
    have h3 : 2 * g.accT / (Gen.linear g).twoVmaxPerA c = 1 := by
      rw [hk]; exact div_self (by have := hlf.k_pos; rw [hk] at this; exact this.ne')
    rw [h3, one_mul, Nat.succ_eq_add_one, hpt, add_sub_cancel_left] at h2
    unfold LinearGen.at
    rw [hpt]
    refine le_trans ?_ h2
    have h4 := hi.le_limit hd ha ax
    rw [h.maxV] at hmv ⊢
    gcongr
  · have hA := h.accT_pos hc hm
    have hAsq := h.accT_sq hc hm
    have ha1 := accel_ge hc
    have ha0 : (0 : ℝ) < c.accel := by linarith
    have hk := hlf.k_pos
    have hL := norm_ge hm
    have h2 := warp_gap2 (A := g.accT) hk hA.le (pt_nonneg hlf.good ax i)
      (pt_mono hlf.good ax (Nat.le_succ i)) (by
        have := hlf.ends ax (i + 1) hi1
        rw [h.linT, add_zero] at this
        exact this)
    have hmono := warp_mono (B := 0) hk.le hA.le le_rfl (pt_nonneg hlf.good ax i)
      (pt_mono hlf.good ax (Nat.le_succ i))
    rw [Nat.succ_eq_add_one] at h2 hmono
    unfold LinearGen.at
    rw [h.linT]
    have hgap : g.pt c ax (i + 1) - g.pt c ax i = 1 / ((c.ppm.get ax : ℝ) * g.maxV.get ax) := by
      rw [hpt]; ring
    rw [hgap] at h2
    generalize hG : warp ((Gen.linear g).twoVmaxPerA c) g.accT 0 (g.pt c ax (i + 1)) -
      warp ((Gen.linear g).twoVmaxPerA c) g.accT 0 (g.pt c ax i) = G at h2 ⊢
    have hG0 : 0 ≤ G := by linarith
    have hvm : 0 < Coord.findMax g.maxV := hmv.trans_le (le_findMax _ _)
    rw [twoVmaxPerA_eq] at h2
    obtain ⟨mx, hmx⟩ := findMax_mem (Coord.abs delta)
    set vm := Coord.findMax g.maxV with hvmdef
    set v' := g.maxV.get ax with hv'
    set ρ := (c.accel : ℝ) * g.accT * v' / vm with hρ
    have hρ0 : 0 < ρ := by rw [hρ]; positivity
    refine gap_aux hA hP (by linarith) hρ0 hG0 ?_ ?_
    · have e1 : (2 * g.accT * G - G ^ 2 / 2) / (2 * vm / (c.accel : ℝ)) =
          (G - G ^ 2 / (4 * g.accT)) * ((c.accel : ℝ) * g.accT / vm) := by
        field_simp; ring
      rw [e1] at h2
      have e2 : 1 / ((c.ppm.get ax : ℝ) * ρ) = 1 / ((c.ppm.get ax : ℝ) * v') /
          ((c.accel : ℝ) * g.accT / vm) := by
        rw [hρ]; field_simp
      rw [e2, div_le_iff₀ (by positivity)]
      exact h2
    · -- the top speed exceeds the limit at most by a rounding error
      have hPle : (c.ppm.get ax : ℝ) ≤ 1000 := by exact_mod_cast hc.ppm_le ax
      have n1 := (abs_le.1 (h.near ax)).2
      have n2 := (abs_le.1 (h.near mx)).1
      have hvmx := le_findMax g.maxV mx
      rw [← hvmdef] at hvmx
      rw [← hv'] at n1
      obtain ⟨f, hf⟩ := findMax_mem w
      have hlimf := hi.le_limit hd ha f
      have hlim := hi.le_limit hd ha ax
      have hMf := limit_le hc f
      have hMax := limit_le hc ax
      have hcond := h.cond
      have hwm := hi.max_ge hm
      rw [hf] at hcond hwm
      have e1 : (1 : ℝ) / E10 = 1 / 10 ^ 10 := by rw [e10_val]
      have e2 : (1 : ℝ) / 2 / E10 = 1 / (2 * 10 ^ 10) := by rw [e10_val]; norm_num
      have n3 := (abs_le.1 (hi.near f)).2
      have n4 := (abs_le.1 (hi.near ax)).1
      rw [e1] at n3 n4
      rw [e2] at n1 n2
      have hdf : (Coord.abs delta).get f ≤ (Coord.abs delta).get mx := by
        rw [← hmx]; exact le_findMax _ _
      have hda : (Coord.abs delta).get ax ≤ (Coord.abs delta).get mx := by
        rw [← hmx]; exact le_findMax _ _
      have hd0 := dist_nonneg hm ax
      have hhalf := half_norm_le hm
      rw [hmx] at hhalf
      have hq := hi.q_pos
      have hA2 := h.accT_le hc hm
      -- `a * A ≤ wf`
      have haA : (c.accel : ℝ) * g.accT ≤ w.get f := by
        refine le_of_sq_le_sq ?_ (by linarith)
        rw [mul_pow, hAsq, pow_two (c.accel : ℝ), mul_assoc, mul_div_assoc']
        rw [mul_div_cancel_left₀ _ ha0.ne']
        exact hcond.le
      set d := (Coord.abs delta).get ax
      set dm := (Coord.abs delta).get mx
      set A := g.accT
      have hdm : 0 < dm := by linarith
      have hAA : A ^ 2 ≤ 2 * dm := by
        rw [hAsq]
        refine (div_le_self (by linarith) ha1).trans hhalf
      have f1 : v' * A ≤ d + A / (2 * 10 ^ 10) := by
        have e : d / A * A = d := by field_simp
        have := mul_le_mul_of_nonneg_right (sub_le_iff_le_add'.1 n1) hA.le
        rw [add_mul, e] at this
        linarith
      have f2 : dm - A / (2 * 10 ^ 10) ≤ vm * A := by
        have e : dm / A * A = dm := by field_simp
        have h3 : dm / A - 1 / (2 * 10 ^ 10) ≤ vm := by linarith
        have := mul_le_mul_of_nonneg_right h3 hA.le
        rw [sub_mul, e] at this
        linarith
      have f3 : ρ * vm = (c.accel : ℝ) * A * v' := by rw [hρ]; field_simp
      set x := A / (2 * 10 ^ 10) / dm with hx
      have hx0 : 0 ≤ x := by positivity
      have hxd : x * dm = A / (2 * 10 ^ 10) := by rw [hx]; field_simp
      have hxA : x * A ≤ 1 / 10 ^ 10 := by
        have : x * A * dm ≤ 1 / 10 ^ 10 * dm := by
          have e : x * A * dm = A ^ 2 / (2 * 10 ^ 10) := by
            rw [mul_right_comm, hxd]; ring
          rw [e, div_le_iff₀ (by norm_num)]
          norm_num
          linarith
        exact le_of_mul_le_mul_right this hdm
      have hx1 : x ≤ 1 / 1000 := by
        have : x * dm ≤ 1 / 1000 * dm := by
          rw [hxd]
          norm_num
          linarith
        exact le_of_mul_le_mul_right this hdm
      have f4 : ρ * (dm - x * dm) ≤ w.get f * (d + x * dm) := by
        rw [hxd]
        calc ρ * (dm - A / (2 * 10 ^ 10)) ≤ ρ * (vm * A) :=
              mul_le_mul_of_nonneg_left f2 hρ0.le
          _ = (c.accel : ℝ) * A * (v' * A) := by rw [← mul_assoc, f3]; ring
          _ ≤ w.get f * (v' * A) := mul_le_mul_of_nonneg_right haA (by positivity)
          _ ≤ _ := mul_le_mul_of_nonneg_left f1 (by linarith)
      have f5 : w.get f * d ≤ ((c.maxVel.get ax : ℝ) / 60 + 2 / 10 ^ 10) * dm := by
        have g1 : w.get f * d ≤ (dm * q + 1 / 10 ^ 10) * d := by
          refine mul_le_mul_of_nonneg_right ?_ hd0
          have := mul_le_mul_of_nonneg_right hdf hq.le
          linarith
        have g2 : dm * (d * q) ≤ dm * ((c.maxVel.get ax : ℝ) / 60 + 1 / 10 ^ 10) :=
          mul_le_mul_of_nonneg_left (by linarith) hdm.le
        have g3 : 1 / 10 ^ 10 * d ≤ 1 / 10 ^ 10 * dm := by
          refine mul_le_mul_of_nonneg_left hda (by positivity)
        linear_combination g1 + g2 + g3
      have f6 : ρ * (1 - x) ≤ (c.maxVel.get ax : ℝ) / 60 + 2 / 10 ^ 10 + 10000 * x := by
        have g1 : w.get f * (x * dm) ≤ 10000 * (x * dm) :=
          mul_le_mul_of_nonneg_right (by linarith) (by positivity)
        have : ρ * (1 - x) * dm ≤
            ((c.maxVel.get ax : ℝ) / 60 + 2 / 10 ^ 10 + 10000 * x) * dm := by
          linear_combination f4 + f5 + g1
        exact le_of_mul_le_mul_right this hdm
      have f7 : ρ ≤ 30000 := by
        have : ρ * (1 - 1 / 1000) ≤ ρ * (1 - x) := mul_le_mul_of_nonneg_left (by linarith) hρ0.le
        norm_num at f6 this ⊢
        linarith
      have f8 : ρ - (c.maxVel.get ax : ℝ) / 60 ≤ 2 / 10 ^ 10 + 40000 * x := by
        have : ρ * x ≤ 30000 * x := mul_le_mul_of_nonneg_right f7 hx0
        linarith
      have f9 : (ρ - (c.maxVel.get ax : ℝ) / 60) * A ≤ 1 / 100000 := by
        have := mul_le_mul_of_nonneg_right f8 hA.le
        norm_num at this hxA ⊢
        linarith
      have f10 : (ρ - (c.maxVel.get ax : ℝ) / 60) * A * c.ppm.get ax ≤
          1 / 100000 * c.ppm.get ax := mul_le_mul_of_nonneg_right f9 hP.le
      linarith

end PyCNC
