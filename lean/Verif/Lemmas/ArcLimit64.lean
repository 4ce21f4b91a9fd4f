import Verif.Lemmas.ArcEnd64
import Verif.Lemmas.ArcPts64

/-!
# The speed limits of flat circular moves in binary64
-/

set_option linter.unusedSectionVars false

namespace PyCNC

open Spec

variable [PyRound] {c : Cfg}

theorem fl_lo3 {x : ℝ} (h : 0 ≤ x) : x * (1 - 112 / 10 ^ 18) ≤ fl x := by
  have := (abs_le.1 (fl_near3 x)).1
  rw [abs_of_nonneg h] at this
  linarith

theorem fl_hi3 {x : ℝ} (h : 0 ≤ x) : fl x ≤ x * (1 + 112 / 10 ^ 18) := by
  have := (abs_le.1 (fl_near3 x)).2
  rw [abs_of_nonneg h] at this
  linarith

/-- Rounding to ten decimals does not pass a ten-decimal number that is nearly reached. -/
theorem r10_close64 {a : F64} {k : ℤ} (h : a.1 ≤ (k : ℝ) / 10 ^ 10 + 49 / 10 ^ 12) :
    (PyNum.round10 a).1 ≤ fl ((k : ℝ) / 10 ^ 10) := by
  rw [val_round10]
  have e : E10 = 10 ^ 10 := e10_val
  rw [e]
  apply fl_mono
  have h1 := PyRound.near (a.1 * 10 ^ 10)
  have h2 : PyRound.rnd (a.1 * 10 ^ 10) ≤ k := by
    by_contra hc
    have hc : k + 1 ≤ PyRound.rnd (a.1 * 10 ^ 10) := by omega
    have hc : (k : ℝ) + 1 ≤ PyRound.rnd (a.1 * 10 ^ 10) := by exact_mod_cast hc
    have h3 := (abs_le.1 h1).2
    have h4 : a.1 * 10 ^ 10 ≤ k + 49 / 100 := by
      have := mul_le_mul_of_nonneg_right h (by norm_num : (0 : ℝ) ≤ 10 ^ 10)
      have e : ((k : ℝ) / 10 ^ 10 + 49 / 10 ^ 12) * 10 ^ 10 = k + 49 / 100 := by
        field_simp
        ring
      linarith
    generalize PyRound.rnd (a.1 * 10 ^ 10) = R at *
    generalize a.1 * 10 ^ 10 = x at *
    norm_num at *
    linarith
  have h3 : (PyRound.rnd (a.1 * 10 ^ 10) : ℝ) ≤ k := by exact_mod_cast h2
  gcongr

/-- The condition for a short arc. -/
theorem short_cond3 {L W : F64} {a : ℚ} (hA0 : 0 < fl (a : ℝ)) (w0 : 0 ≤ W.1)
    (hshort : L.1 < (PyNum.ofRat a *ₚ ((W /ₚ PyNum.ofRat a) *ₚ (W /ₚ PyNum.ofRat a)) : F64).1) :
    L.1 * fl (a : ℝ) ≤ W.1 ^ 2 * (1 + 449 / 10 ^ 18) := by
  rw [val_mul, val_mul, val_div, val_ofRat] at hshort
  have n0 : 0 ≤ W.1 / fl (a : ℝ) := div_nonneg w0 hA0.le
  have f0 := fl_hi3 n0
  have p0 := fl_nonneg n0
  have f1 := fl_hi3 (mul_nonneg p0 p0)
  have p1 := fl_nonneg (mul_nonneg p0 p0)
  have f2 := fl_hi3 (mul_nonneg hA0.le p1)
  generalize W.1 = W at *
  generalize fl (a : ℝ) = a at *
  have q0 : fl (W / a) * fl (W / a) ≤ (W / a) ^ 2 * (1 + 112 / 10 ^ 18) ^ 2 := by
    rw [← mul_pow, pow_two]
    exact mul_self_le_mul_self p0 f0
  have q1 : fl (fl (W / a) * fl (W / a)) ≤ (W / a) ^ 2 * (1 + 112 / 10 ^ 18) ^ 3 := by
    refine f1.trans ?_
    have := mul_le_mul_of_nonneg_right q0 (by norm_num : (0 : ℝ) ≤ 1 + 112 / 10 ^ 18)
    refine this.trans (le_of_eq ?_); ring
  have q2 : a * fl (fl (W / a) * fl (W / a)) ≤ a * ((W / a) ^ 2 * (1 + 112 / 10 ^ 18) ^ 3) :=
    mul_le_mul_of_nonneg_left q1 hA0.le
  have q3 : L.1 ≤ a * (W / a) ^ 2 * (1 + 112 / 10 ^ 18) ^ 4 := by
    refine hshort.le.trans (f2.trans ?_)
    have := mul_le_mul_of_nonneg_right q2 (by norm_num : (0 : ℝ) ≤ 1 + 112 / 10 ^ 18)
    refine this.trans (le_of_eq ?_); ring
  have q4 := mul_le_mul_of_nonneg_right q3 hA0.le
  have e : a * (W / a) ^ 2 * (1 + 112 / 10 ^ 18) ^ 4 * a = W ^ 2 * (1 + 112 / 10 ^ 18) ^ 4 := by
    field_simp
  rw [e] at q4
  refine q4.trans ?_
  exact mul_le_mul_of_nonneg_left (by norm_num) (sq_nonneg W)

/-- The time of a short arc. -/
theorem short_time3 {L : F64} {a : ℚ} (hA0 : 0 < fl (a : ℝ)) (hL0 : 0 < L.1) :
    L.1 ≤ (PyNum.sqrt (L /ₚ PyNum.ofRat a)).1 ^ 2 * fl (a : ℝ) * (1 + 337 / 10 ^ 18) := by
  rw [val_sqrt, val_div, val_ofRat]
  generalize fl (a : ℝ) = a at *
  have n0 : 0 ≤ L.1 / a := div_nonneg hL0.le hA0.le
  have f0 := fl_lo3 n0
  have p0 := fl_nonneg n0
  have f1 := fl_lo3 (Real.sqrt_nonneg (fl (L.1 / a)))
  have p1 := Real.sqrt_nonneg (fl (L.1 / a))
  have s1 := Real.sq_sqrt p0
  generalize fl √(fl (L.1 / a)) = T at *
  have q1 : (√(fl (L.1 / a)) * (1 - 112 / 10 ^ 18)) ^ 2 ≤ T ^ 2 :=
    pow_le_pow_left₀ (mul_nonneg p1 (by norm_num)) f1 2
  rw [mul_pow, s1] at q1
  have q2 : L.1 / a * (1 - 112 / 10 ^ 18) ^ 3 ≤ T ^ 2 := by
    refine le_trans ?_ q1
    have := mul_le_mul_of_nonneg_right f0 (by norm_num : (0 : ℝ) ≤ (1 - 112 / 10 ^ 18) ^ 2)
    refine le_trans (le_of_eq ?_) this
    ring
  have q3 := mul_le_mul_of_nonneg_right q2 hA0.le
  have e : L.1 / a * (1 - 112 / 10 ^ 18) ^ 3 * a = L.1 * (1 - 112 / 10 ^ 18) ^ 3 := by
    field_simp
  rw [e] at q3
  have q4 := mul_le_mul_of_nonneg_right q3 (by norm_num : (0 : ℝ) ≤ 1 + 337 / 10 ^ 18)
  refine le_trans ?_ q4
  rw [mul_assoc]
  exact le_mul_of_one_le_right hL0.le (by norm_num)

/-- The speed of a short arc. -/
theorem short_arc3 {L W : F64} {a : ℚ} (hA0 : 0 < fl (a : ℝ)) (w0 : 0 ≤ W.1) (hL0 : 0 < L.1)
    (hshort : L.1 < (PyNum.ofRat a *ₚ ((W /ₚ PyNum.ofRat a) *ₚ (W /ₚ PyNum.ofRat a)) : F64).1) :
    (L /ₚ PyNum.sqrt (L /ₚ PyNum.ofRat a) : F64).1 ≤ W.1 * (1 + 507 / 10 ^ 18) := by
  have h1 := short_cond3 hA0 w0 hshort
  have h2 := short_time3 hA0 hL0
  have hT : 0 < (PyNum.sqrt (L /ₚ PyNum.ofRat a)).1 :=
    fl_pos (Real.sqrt_pos.2 (fl_pos (div_pos hL0 hA0)))
  rw [val_div]
  generalize (PyNum.sqrt (L /ₚ PyNum.ofRat a)).1 = T at *
  have g1 : L.1 ^ 2 ≤ (W.1 * T * (1 + 394 / 10 ^ 18)) ^ 2 := by
    have g2 := mul_le_mul_of_nonneg_left h2 hL0.le
    have g3 := mul_le_mul_of_nonneg_right h1
      (by positivity : 0 ≤ T ^ 2 * (1 + 337 / 10 ^ 18))
    have g4 : W.1 ^ 2 * (1 + 449 / 10 ^ 18) * (T ^ 2 * (1 + 337 / 10 ^ 18)) ≤
        (W.1 * T * (1 + 394 / 10 ^ 18)) ^ 2 := by
      have e : W.1 ^ 2 * (1 + 449 / 10 ^ 18) * (T ^ 2 * (1 + 337 / 10 ^ 18)) =
        (W.1 * T) ^ 2 * ((1 + 449 / 10 ^ 18) * (1 + 337 / 10 ^ 18)) := by ring
      rw [e, mul_pow (W.1 * T)]
      exact mul_le_mul_of_nonneg_left (by norm_num) (sq_nonneg _)
    linarith
  have g5 : L.1 ≤ W.1 * T * (1 + 394 / 10 ^ 18) :=
    (abs_le_of_sq_le_sq' g1 (by positivity)).2
  have g6 : L.1 / T ≤ W.1 * (1 + 394 / 10 ^ 18) := by
    rw [div_le_iff₀ hT]; linarith
  have g7 := fl_hi3 (div_nonneg hL0.le hT.le)
  have g8 := mul_le_mul_of_nonneg_right g6 (by norm_num : (0 : ℝ) ≤ 1 + 112 / 10 ^ 18)
  refine (g7.trans g8).trans ?_
  rw [mul_assoc]
  exact mul_le_mul_of_nonneg_left (by norm_num) w0

theorem planeVel64 (p : Plane) (a b e : F64) :
    (planeVel p a b e).get (axisA p) = PyNum.round10 a ∧
    (planeVel p a b e).get (axisB p) = PyNum.round10 a ∧
    (planeVel p a b e).get (axis3 p) = PyNum.round10 b ∧
    (planeVel p a b e).get .e = PyNum.round10 e := by
  cases p <;> exact ⟨rfl, rfl, rfl, rfl⟩

theorem arcRad_nonneg64 {q : ℚ} (hq : 0 < q) (plane : Plane) (radius : V4 F64) :
    0 ≤ (arcRad q plane radius).1 := by
  have hq' : (0 : ℝ) < q := by exact_mod_cast hq
  unfold arcRad
  rw [val_div, val_ofRat, val_ofInt]
  refine fl_nonneg (div_nonneg (fl_nonneg ?_) (fl_pos hq').le)
  have : 0 ≤ PyNum.roundI (PyNum.sqrt (arcSA plane radius *ₚ arcSA plane radius +ₚ
    arcSB plane radius *ₚ arcSB plane radius) *ₚ PyNum.ofRat q) := by
    change 0 ≤ PyRound.rnd _
    rw [← rnd_zero]
    refine rnd_mono ?_
    rw [val_mul, val_sqrt, val_ofRat]
    exact fl_nonneg (mul_nonneg (fl_nonneg (Real.sqrt_nonneg _)) (fl_pos hq').le)
  exact_mod_cast this

/-- With automatic adjustment no axis of a flat arc is faster than its limit, in binary64, up to
rounding. -/
theorem arcLimit64 (hc : SaneCfg c) (hd : DecimalLimits c)
    (hm : ∀ ax, c.maxVel.get ax ≤ 60000) (ha : c.autoVel = true) {delta radius : V4 F64}
    {plane : Plane} {rot : Rot} {v : F64} (h3 : (delta.get (axis3 plane)).1 = 0)
    (he : delta.e.1 = 0) (hv : 0 ≤ v.1) {g : CircGen F64}
    (hg : CircGen.new c delta radius plane rot v = .ok g) (ax : Axis) :
    (g.maxV.get ax).1 ≤ c.maxVel.get ax / 60 * (1 + 620 / 10 ^ 18) := by
  have hA : (1 : ℝ) ≤ c.accel := by exact_mod_cast hc.accel
  have hA0 : 0 < fl (c.accel : ℝ) := fl_pos (by linarith)
  have hM1 : ∀ ax, (60 : ℝ) ≤ c.maxVel.get ax := fun ax => by exact_mod_cast hc.maxVel ax
  have hM2 : ∀ ax, (c.maxVel.get ax : ℝ) ≤ 60000 := fun ax => by exact_mod_cast hm ax
  have hpos : ∀ ax, 0 ≤ (c.maxVel.get ax : ℝ) / 60 * (1 + 620 / 10 ^ 18) := fun ax => by
    have := hM1 ax
    positivity
  obtain ⟨-, φs, φe, maxV, q, -, -, hk, -, ht⟩ := new_ok hg
  have hmpm : 0 < arcMpm c plane := by
    unfold arcMpm
    rw [planeAxes_eq]
    split
    exacts [hc.ppm_pos _, hc.ppm_pos _]
  have harc : 0 ≤ (arcArc c radius plane rot φs φe).1 := by
    unfold arcArc
    rw [val_mul, val_abs]
    exact fl_nonneg (mul_nonneg (abs_nonneg _) (arcRad_nonneg64 hmpm _ _))
  have hfull : 0 ≤ (arcFull c delta radius plane rot φs φe).1 := by
    unfold arcFull
    rw [val_sqrt]
    exact fl_nonneg (Real.sqrt_nonneg _)
  unfold arcTimes at ht
  simp only at ht
  unfold arcVel at hk
  simp only at hk
  split at ht
  · cases ht
    change ((Coord.zero : V4 F64).get ax).1 ≤ _
    rw [get_zeroF, r10_zero val_zero]
    exact hpos ax
  next hf0 =>
  rw [if_neg hf0, if_neg hf0, if_neg hf0] at hk
  rw [eq64_iff, val_zero] at hf0
  have hL0 : 0 < (arcFull c delta radius plane rot φs φe).1 := lt_of_le_of_ne hfull (Ne.symm hf0)
  generalize arcFull c delta radius plane rot φs φe = L at *
  generalize arcArc c radius plane rot φs φe = A at *
  have hv' : 0 ≤ (v /ₚ secInMin).1 := by
    rw [val_div, sec64]; exact fl_nonneg (by positivity)
  generalize v /ₚ secInMin = u at *
  have hcirc : 0 ≤ (A /ₚ L *ₚ u).1 := by
    rw [val_mul, val_div]
    exact fl_nonneg (mul_nonneg (fl_nonneg (div_nonneg harc hfull)) hv')
  have hz : ∀ x : F64, x.1 = 0 → (PyNum.abs x /ₚ L *ₚ u).1 = 0 := fun x hx => by
    rw [val_mul, val_div, val_abs, hx, abs_zero, zero_div, fl_zero, zero_mul, fl_zero]
  have z3 : (PyNum.abs (planeAxes plane delta).2.2 /ₚ L *ₚ u).1 = 0 := hz _ (by
    rw [planeAxes_eq]; exact h3)
  have ze := hz _ he
  obtain ⟨vA, vB, v3, vE⟩ := planeVel64 plane (A /ₚ L *ₚ u)
    (PyNum.abs (planeAxes plane delta).2.2 /ₚ L *ₚ u) (PyNum.abs delta.e /ₚ L *ₚ u)
  generalize planeVel plane (A /ₚ L *ₚ u)
    (PyNum.abs (planeAxes plane delta).2.2 /ₚ L *ₚ u) (PyNum.abs delta.e /ₚ L *ₚ u) = V at *
  have hs0 : ∀ ax, 0 ≤ (V.get ax).1 := fun ax => by
    rcases axis_cases plane ax with rfl | rfl | rfl | rfl
    · rw [vA]; exact r10_nonneg hcirc
    · rw [vB]; exact r10_nonneg hcirc
    · rw [v3]; exact r10_nonneg z3.ge
    · rw [vE]; exact r10_nonneg ze.ge
  obtain ⟨k, hk', hk0, hk1, hkb, -⟩ := adjust64_auto hc ha hs0
  rw [hk'] at hk
  cases hk
  have hsk : ∀ ax, (V.get ax).1 * k.1 ≤
      (c.maxVel.get ax : ℝ) / 60 + c.maxVel.get ax / 60 * (1 / 10 ^ 15) := fun ax =>
    slow_le (hs0 ax) hk1 (hM1 ax) (hkb ax)
  have hmle : ∀ ax, ((Coord.smul V k).get ax).1 ≤ fl (c.maxVel.get ax / 60) := fun ax => by
    obtain ⟨K, hK⟩ := hd ax
    rw [get_smul64, hK]
    refine r10_le64 ?_
    rw [← hK, val_mul]
    have h1 := fl_hi (mul_nonneg (hs0 ax) hk0)
    have h2 := hsk ax
    have h3 := hM2 ax
    have h4 := hM1 ax
    norm_num at *
    linarith
  have hle : ∀ ax, ((Coord.smul V k).get ax).1 ≤ c.maxVel.get ax / 60 * (1 + 112 / 10 ^ 18) :=
    fun ax => (hmle ax).trans (fl_hi3 (by have := hM1 ax; positivity))
  have hm0 : ∀ ax, 0 ≤ ((Coord.smul V k).get ax).1 := fun ax => by
    rw [get_smul64]; exact r10_nonneg (fl_nonneg (mul_nonneg (hs0 ax) hk0))
  have hsame : (Coord.smul V k).get (axisA plane) = (Coord.smul V k).get (axisB plane) := by
    rw [get_smul64, get_smul64, vA, vB]
  have m3 : ((Coord.smul V k).get (axis3 plane)).1 = 0 := by
    rw [get_smul64, v3]
    exact r10_zero (by rw [val_mul, r10_zero z3, zero_mul, fl_zero])
  have mE : ((Coord.smul V k).get .e).1 = 0 := by
    rw [get_smul64, vE]
    exact r10_zero (by rw [val_mul, r10_zero ze, zero_mul, fl_zero])
  generalize Coord.smul V k = m at *
  have hW : ∀ ax, ax = axisA plane ∨ ax = axisB plane →
      (Coord.findMax m).1 ≤ c.maxVel.get ax / 60 * (1 + 112 / 10 ^ 18) := by
    intro ax hax
    obtain ⟨ax', e⟩ := get_max64 m
    rw [e]
    have hnn : 0 ≤ (c.maxVel.get ax : ℝ) / 60 * (1 + 112 / 10 ^ 18) := by
      have := hM1 ax
      positivity
    rcases axis_cases plane ax' with rfl | rfl | rfl | rfl
    · rcases hax with rfl | rfl
      · exact hle _
      · rw [hsame]; exact hle _
    · rcases hax with rfl | rfl
      · rw [← hsame]; exact hle _
      · exact hle _
    · rw [m3]; exact hnn
    · rw [mE]; exact hnn
  have hW0 : 0 ≤ (Coord.findMax m).1 := by
    obtain ⟨ax', e⟩ := get_max64 m
    rw [e]; exact hm0 _
  have hmono : ∀ {x : ℝ} (ax : Axis), x ≤ c.maxVel.get ax / 60 * (1 + 112 / 10 ^ 18) →
      x ≤ c.maxVel.get ax / 60 * (1 + 620 / 10 ^ 18) := fun ax h => by
    refine h.trans (mul_le_mul_of_nonneg_left (by norm_num) ?_)
    have := hM1 ax
    positivity
  split at ht
  · next hshort =>
    rw [lt64_iff] at hshort
    have hT : 0 < (PyNum.sqrt (L /ₚ PyNum.ofRat c.accel)).1 :=
      fl_pos (Real.sqrt_pos.2 (fl_pos (div_pos hL0 hA0)))
    rw [pdiv64_ok hT.ne'] at ht
    cases ht
    change ((m.map fun w => if zeroF <ₚ w then L /ₚ PyNum.sqrt (L /ₚ PyNum.ofRat c.accel) else w).get
      ax).1 ≤ _
    rw [get_map64]
    split
    · next hw =>
      rw [lt64_iff, val_zero] at hw
      have hax : ax = axisA plane ∨ ax = axisB plane := by
        rcases axis_cases plane ax with h | h | rfl | rfl
        · exact .inl h
        · exact .inr h
        · rw [m3] at hw; exact absurd hw (lt_irrefl _)
        · rw [mE] at hw; exact absurd hw (lt_irrefl _)
      refine (short_arc3 hA0 hW0 hL0 hshort).trans ?_
      have := mul_le_mul_of_nonneg_right (hW ax hax) (by norm_num : (0 : ℝ) ≤ 1 + 507 / 10 ^ 18)
      refine this.trans ?_
      rw [mul_assoc]
      refine mul_le_mul_of_nonneg_left (by norm_num) ?_
      have := hM1 ax
      positivity
    · exact hmono ax (hle ax)
  · generalize pdiv (F := F64) _ _ = r at ht
    rcases r with e | q
    · cases ht
    · cases ht
      exact hmono ax (hle ax)

/-- The speed of a flat arc passes the check of the machine. -/
theorem arcVelocity64 (hc : SaneCfg c) (hd : DecimalLimits c)
    (hf : ∀ ax, c.maxVel.get ax ≤ 60000) {g : CircGen F64}
    (h : ∀ ax, (g.maxV.get ax).1 ≤ c.maxVel.get ax / 60 * (1 + 620 / 10 ^ 18)) :
    checkVelocity c (Gen.circular g).maxVelocity = .ok () := by
  have key : ∀ ax, ((Gen.circular g).maxVelocity.get ax).1 ≤ fl (c.maxVel.get ax) := by
    intro ax
    unfold Gen.maxVelocity
    rw [get_smul64]
    obtain ⟨k, hk⟩ := hd ax
    have hM : (60 : ℝ) ≤ c.maxVel.get ax := by exact_mod_cast hc.maxVel ax
    have hM2 : (c.maxVel.get ax : ℝ) ≤ 60000 := by exact_mod_cast hf ax
    have e : (c.maxVel.get ax : ℝ) = ((60 * k : ℤ) : ℝ) / 10 ^ 10 := by
      push_cast
      rw [mul_div_assoc, ← hk]; ring
    have hw := h ax
    have key : (g.maxV.get ax *ₚ secInMin).1 ≤ c.maxVel.get ax + 49 / 10 ^ 12 := by
      rw [val_mul, sec64]
      generalize (c.maxVel.get ax : ℝ) = M at *
      have h2 : (g.maxV.get ax).1 * 60 ≤ M * (1 + 620 / 10 ^ 18) := by linarith
      have h3 := fl_mono h2
      have h4 := fl_hi3 (show 0 ≤ M * (1 + 620 / 10 ^ 18) by positivity)
      generalize fl (M * (1 + 620 / 10 ^ 18)) = A at *
      generalize fl ((g.maxV.get ax).1 * 60) = B at *
      norm_num at *
      linarith
    rw [e] at key ⊢
    exact r10_close64 key
  unfold checkVelocity
  rw [if_neg]
  simp only [Bool.or_eq_true, lt64_iff, val_ofRat, not_or, not_lt]
  exact ⟨⟨⟨key .x, key .y⟩, key .z⟩, key .e⟩

end PyCNC
