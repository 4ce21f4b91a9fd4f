import Verif.Lemmas.Turn64

/-!
# The shares of the axes in the velocity of a helix in binary64
-/

set_option linter.unusedSectionVars false

namespace PyCNC

open Spec

variable [PyRound]

/-- The length of a vector is at most the sum of its components. -/
theorem norm3_le (a b d : F64) :
    (PyNum.sqrt (a *ₚ a +ₚ b *ₚ b +ₚ d *ₚ d)).1 ≤ (|a.1| + |b.1| + |d.1|) * (1 + 1 / 10 ^ 6) := by
  rw [val_sqrt, val_add, val_add, val_mul, val_mul, val_mul]
  have qa := mul_self_nonneg a.1
  have qb := mul_self_nonneg b.1
  have qd := mul_self_nonneg d.1
  have ha := fl_hi qa
  have hb := fl_hi qb
  have hd := fl_hi qd
  have ha0 := fl_nonneg qa
  have hb0 := fl_nonneg qb
  have hd0 := fl_nonneg qd
  have hab := fl_hi (add_nonneg ha0 hb0)
  have hab0 := fl_nonneg (add_nonneg ha0 hb0)
  have habd := fl_hi (add_nonneg hab0 hd0)
  have habd0 := fl_nonneg (add_nonneg hab0 hd0)
  have hs := fl_hi (Real.sqrt_nonneg (fl (fl (fl (a.1 * a.1) + fl (b.1 * b.1)) + fl (d.1 * d.1))))
  have e : a.1 * a.1 + b.1 * b.1 + d.1 * d.1 ≤ (|a.1| + |b.1| + |d.1|) ^ 2 := by
    have := abs_nonneg a.1
    have := abs_nonneg b.1
    have := abs_nonneg d.1
    have k1 := abs_mul_abs_self a.1
    have k2 := abs_mul_abs_self b.1
    have k3 := abs_mul_abs_self d.1
    have := mul_nonneg (abs_nonneg a.1) (abs_nonneg b.1)
    have := mul_nonneg (abs_nonneg a.1) (abs_nonneg d.1)
    have := mul_nonneg (abs_nonneg b.1) (abs_nonneg d.1)
    nlinarith
  have hq : fl (fl (fl (a.1 * a.1) + fl (b.1 * b.1)) + fl (d.1 * d.1)) ≤
      ((|a.1| + |b.1| + |d.1|) * (1 + 1 / 10 ^ 7)) ^ 2 := by
    rw [mul_pow]
    have : fl (fl (fl (a.1 * a.1) + fl (b.1 * b.1)) + fl (d.1 * d.1)) ≤
        (a.1 * a.1 + b.1 * b.1 + d.1 * d.1) * (1 + 1 / 10 ^ 13) := by linarith
    nlinarith [sq_nonneg (|a.1| + |b.1| + |d.1|)]
  have hS : 0 ≤ |a.1| + |b.1| + |d.1| := by positivity
  have hr := Real.sqrt_le_iff.2 ⟨(by positivity : 0 ≤ (|a.1| + |b.1| + |d.1|) * (1 + 1 / 10 ^ 7)), hq⟩
  generalize |a.1| + |b.1| + |d.1| = S at *
  generalize √(fl (fl (fl (a.1 * a.1) + fl (b.1 * b.1)) + fl (d.1 * d.1))) = y at *
  linarith

/-- A part that is not tiny is at least 9 / 10000 of the computed length. -/
theorem part64 {x L : F64} {W : ℝ} (hW : 0 < W) (hx : W / 1010 ≤ x.1) (hL : 0 < L.1)
    (hL' : L.1 ≤ W * (101 / 100)) : 9 / 10000 ≤ (x /ₚ L).1 := by
  rw [val_div]
  have h1 : 95 / 100000 ≤ x.1 / L.1 := by
    rw [le_div_iff₀ hL]; linarith
  have h2 := fl_lo (show 0 ≤ x.1 / L.1 by linarith)
  linarith

/-- The arc in the plane, in real numbers: the chord bounds the turn. -/
theorem arc_chord {r r' Q C P t : ℝ} (hr : 0 < r) (hr' : 0 ≤ r') (hQ1 : 2 / 3 * r ≤ Q)
    (hQ2 : Q ≤ 2 * r) (ht0 : 0 ≤ t) (h2 : r' ≤ 3 / 2 * Q)
    (hk : C ^ 2 - (r - r') ^ 2 ≤ r * r' * t ^ 2) (hd : (r - r') ^ 2 ≤ (1 / P) ^ 2) (hC : (2 / P) ^ 2 ≤ C ^ 2)
    {W : ℝ} (hW : W ≤ 400 * C) (hWr : 13 * r ≤ W) : C / 2 ≤ t * Q ∧ 1 / 200 ≤ t := by
  have hQ : 0 < Q := by linarith
  have hk2 : 3 / 4 * C ^ 2 ≤ r * r' * t ^ 2 := by
    have : (2 / P) ^ 2 = 4 * (1 / P) ^ 2 := by ring
    linarith
  have h6 : r * r' ≤ 9 / 4 * Q ^ 2 := by
    calc r * r' ≤ (3 / 2 * Q) * (3 / 2 * Q) := by gcongr; linarith
      _ = 9 / 4 * Q ^ 2 := by ring
  have h7 : (C / 2) ^ 2 ≤ (t * Q) ^ 2 := by
    have h8 : r * r' * t ^ 2 ≤ 9 / 4 * Q ^ 2 * t ^ 2 := by gcongr
    nlinarith [sq_nonneg C]
  have h8 : C / 2 ≤ t * Q := le_of_sq_le_sq h7 (by positivity)
  refine ⟨h8, ?_⟩
  have : 13 * r ≤ 800 * (t * Q) := by linarith
  have : t * Q ≤ t * (2 * r) := by gcongr
  have : 13 * r ≤ (1600 * t) * r := by linarith
  have := le_of_mul_le_mul_right this hr
  linarith

variable {c : Cfg} {delta radius : V4 ℝ} {plane : Plane} {v : ℝ}
variable {rot : Rot} {g : CircGen ℝ} {φs φe : ℝ} {p : ℚ} {R A B EA EB : ℤ}

/-- Distances of start and end, and the radius. -/
theorem Pts64.dists (h : Pts64 c delta radius plane rot g φs φe p R A B EA EB) :
    0 < startDist plane radius ∧ 0 ≤ endDist plane delta radius ∧
    2 / 3 * startDist plane radius ≤ R / p ∧ (R / p : ℝ) ≤ 2 * startDist plane radius ∧
    endDist plane delta radius ≤ 3 / 2 * (R / p : ℝ) ∧
    (startDist plane radius - endDist plane delta radius) ^ 2 ≤ (1 / (p : ℝ)) ^ 2 := by
  have hP := h.p_pos
  have dS : startDist plane radius = √((A : ℝ) ^ 2 + (B : ℝ) ^ 2) / p := by
    rw [eq_div_iff hP.ne', startDist, ← h.ints.hA, ← h.ints.hB, mul_pow, mul_pow, ← add_mul,
      Real.sqrt_mul (by positivity), Real.sqrt_sq hP.le]
  have dE : endDist plane delta radius = √((EA : ℝ) ^ 2 + (EB : ℝ) ^ 2) / p := by
    rw [eq_div_iff hP.ne', endDist, ← h.ints.hEA, ← h.ints.hEB, mul_pow, mul_pow, ← add_mul,
      Real.sqrt_mul (by positivity), Real.sqrt_sq hP.le]
  rw [dS, dE]
  have hR : (1 : ℝ) ≤ R := by exact_mod_cast h.pos
  have n1 := abs_le.1 (PyRound.near √((A : ℝ) ^ 2 + (B : ℝ) ^ 2))
  have n2 := abs_le.1 (PyRound.near √((EA : ℝ) ^ 2 + (EB : ℝ) ^ 2))
  rw [h.distS] at n1
  rw [h.distE] at n2
  have z2 := Real.sqrt_nonneg ((EA : ℝ) ^ 2 + (EB : ℝ) ^ 2)
  generalize √((A : ℝ) ^ 2 + (B : ℝ) ^ 2) = x at *
  generalize √((EA : ℝ) ^ 2 + (EB : ℝ) ^ 2) = y at *
  refine ⟨div_pos (by linarith) hP, by positivity, ?_, ?_, ?_, ?_⟩
  · rw [← mul_div_assoc]; gcongr; linarith
  · rw [← mul_div_assoc]; gcongr; linarith
  · rw [← mul_div_assoc]; gcongr; linarith
  · rw [← sub_div, ← sq_abs, abs_div, abs_of_pos hP]
    have : |x - y| ≤ 1 := by rw [abs_le]; constructor <;> linarith
    gcongr

/-- The turn: near the exact one, and not tiny. -/
theorem Pts64.turned (h : Pts64 c delta radius plane rot g φs φe p R A B EA EB)
    (hord : OrdinaryArc c delta radius plane v) (hflat : ¬ (delta.get (axis3 plane) = 0 ∧ delta.e = 0))
    (hbal : Balanced plane delta radius) {ψs ψe : F64}
    (as : angle (arcSA plane (radius.map F64.of)) (arcSB plane (radius.map F64.of)) = .ok ψs)
    (ae : angle (arcEA plane (delta.map F64.of) (radius.map F64.of))
        (arcEB plane (delta.map F64.of) (radius.map F64.of)) = .ok ψe) :
    reach plane delta radius / 1005 ≤ |(arcTurn rot ψs ψe).1| * (R / p) ∧
    |(arcTurn rot ψs ψe).1| ≤ 63 / 10 := by
  obtain ⟨hr, hr', q1, q2, q3, q4⟩ := h.dists
  obtain ⟨xSA, xSB, xEA, xEB⟩ := axes64 plane delta radius
  rw [xSA, xSB] at as
  rw [xEA, xEB] at ae
  have hP := h.p_pos
  have hang := h.facts.angS
  have hang' := h.facts.angE
  have hs := hang
  have he := hang'
  rw [arcSA_eq, arcSB_eq] at hs
  rw [arcEA_eq, arcEB_eq] at he
  obtain ⟨s0, s1, sA, sB, sr⟩ := angle_ok hs
  obtain ⟨e0, e1, eA, eB, er⟩ := angle_ok he
  obtain ⟨t0, t1, t2, t3⟩ := turn_bounds (rot := rot) s0 s1 e0 e1
  have ns := angle64_near h.ps h.ints.hA h.ints.hB hs as
  have ne := angle64_near h.pe h.ints.hEA h.ints.hEB he ae
  have hreach : 13 * startDist plane radius ≤ reach plane delta radius := by
    unfold reach
    linarith [abs_nonneg (delta.get (axis3 plane)), abs_nonneg delta.e]
  have hpi := Real.pi_lt_d4
  have hpi3 := Real.pi_gt_d2
  have up : ∀ {x : ℝ}, |x - arcTurn rot φs φe| ≤ 2 / 10 ^ 6 →
      abs (|x| - |arcTurn rot φs φe|) ≤ 2 / 10 ^ 6 := fun hx =>
    (abs_abs_sub_abs_le_abs_sub _ _).trans hx
  have closed : delta.get (axisA plane) = 0 ∧ delta.get (axisB plane) = 0 →
      reach plane delta radius ≤ 1000 * startDist plane radius →
      reach plane delta radius / 1005 ≤ |(arcTurn rot ψs ψe).1| * (R / p) ∧
        |(arcTurn rot ψs ψe).1| ≤ 63 / 10 := by
    rintro ⟨zA, zB⟩ hle
    have c1 : EA = A := by
      have := h.cEA; rw [zA, zero_mul] at this
      have : EA - A = 0 := by exact_mod_cast this.symm
      omega
    have c2 : EB = B := by
      have := h.cEB; rw [zB, zero_mul] at this
      have : EB - B = 0 := by exact_mod_cast this.symm
      omega
    have k1 := (end_on_step (ρ := |(EA : ℝ)| + |(A : ℝ)|) h.p_pos h.cA h.cEA
        (by linarith [abs_nonneg (EA : ℝ), abs_nonneg (A : ℝ)]) (by linarith [abs_nonneg (A : ℝ)])).2.2 c1
    have k2 := (end_on_step (ρ := |(EB : ℝ)| + |(B : ℝ)|) h.p_pos h.cB h.cEB
        (by linarith [abs_nonneg (EB : ℝ), abs_nonneg (B : ℝ)]) (by linarith [abs_nonneg (B : ℝ)])).2.2 c2
    rw [k1, k2] at ae
    have hψ : ψs = ψe := Except.ok.inj (as.symm.trans ae)
    have ea : endA plane delta radius = startA plane radius := by
      unfold endA startA; rw [zA]; ring
    have eb : endB plane delta radius = startB plane radius := by
      unfold endB startB; rw [zB]; ring
    rw [ea, eb] at he
    have hφ : φs = φe := Except.ok.inj (hs.symm.trans he)
    have hn := up (turn64_near rot s0 s1 e0 e1 ns ne (.inl ⟨hφ, hψ⟩))
    rw [t3 hφ] at hn
    obtain ⟨n1, n2⟩ := abs_le.1 hn
    refine ⟨?_, by linarith⟩
    have : 6 * (2 / 3 * startDist plane radius) ≤ |(arcTurn rot ψs ψe).1| * (R / p) := by
      gcongr; linarith
    linarith
  rcases hbal.turn with ⟨zA, zB, hle⟩ | hle
  · exact closed ⟨zA, zB⟩ hle
  have hch : (2 / (p : ℝ)) ^ 2 ≤ √(delta.get (axisA plane) ^ 2 + delta.get (axisB plane) ^ 2) ^ 2 := by
    rw [Real.sq_sqrt (by positivity)]
    rcases hord.helix with hx | ⟨zA, zB⟩ | hx
    · exact absurd hx hflat
    · exfalso
      rw [zA, zB] at hle
      norm_num at hle
      linarith
    · rwa [h.pA] at hx
  have chord : ∀ t : ℝ, Real.cos t = Real.cos (φe - φs) →
      √(delta.get (axisA plane) ^ 2 + delta.get (axisB plane) ^ 2) ^ 2 -
        (startDist plane radius - endDist plane delta radius) ^ 2 ≤
      startDist plane radius * endDist plane delta radius * t ^ 2 := by
    intro t ht
    have hk := chord_turn (r := startDist plane radius) (r' := endDist plane delta radius) hr.le hr' ht
    have r1 : endDist plane delta radius * Real.sin φe = endA plane delta radius := eA.symm
    have r2 : endDist plane delta radius * Real.cos φe = endB plane delta radius := eB.symm
    have r3 : startDist plane radius * Real.sin φs = startA plane radius := sA.symm
    have r4 : startDist plane radius * Real.cos φs = startB plane radius := sB.symm
    rw [r1, r2, r3, r4] at hk
    have e1 : endA plane delta radius - startA plane radius = delta.get (axisA plane) := by
      unfold endA startA; ring
    have e2 : endB plane delta radius - startB plane radius = delta.get (axisB plane) := by
      unfold endB startB; ring
    rw [e1, e2] at hk
    rwa [Real.sq_sqrt (by positivity)]
  have a1 := arc_chord hr hr' q1 q2 (abs_nonneg (φe - φs)) q3
    (chord |φe - φs| (Real.cos_abs _)) q4 hch hle hreach
  have a2 := arc_chord hr hr' q1 q2 t0.le q3 (chord _ t2) q4 hch hle hreach
  have hn := up (turn64_near rot s0 s1 e0 e1 ns ne (.inr (le_trans (by norm_num) a1.2)))
  obtain ⟨n1, n2⟩ := abs_le.1 hn
  refine ⟨?_, by linarith⟩
  have h10 : 999 / 1000 * |arcTurn rot φs φe| ≤ |(arcTurn rot ψs ψe).1| := by linarith [a2.2]
  have : 999 / 1000 * |arcTurn rot φs φe| * (R / p) ≤ |(arcTurn rot ψs ψe).1| * (R / p) := by
    gcongr
    linarith
  have := a2.1
  nlinarith

/-- No axis is too slow for the table of speeds. -/
theorem Pts64.shares (h : Pts64 c delta radius plane rot g φs φe p R A B EA EB) (hfp : fl p = p)
    (hord : OrdinaryArc c delta radius plane v) (hflat : ¬ (delta.get (axis3 plane) = 0 ∧ delta.e = 0))
    (hbal : Balanced plane delta radius) {ψs ψe : F64}
    (as : angle (arcSA plane (radius.map F64.of)) (arcSB plane (radius.map F64.of)) = .ok ψs)
    (ae : angle (arcEA plane (delta.map F64.of) (radius.map F64.of))
        (arcEB plane (delta.map F64.of) (radius.map F64.of)) = .ok ψe) :
    let full := arcFull c (delta.map F64.of) (radius.map F64.of) plane rot ψs ψe
    9 / 10000 ≤ (arcArc c (radius.map F64.of) plane rot ψs ψe /ₚ full).1 ∧
    (delta.get (axis3 plane) ≠ 0 →
      9 / 10000 ≤ (PyNum.abs ((delta.map F64.of).get (axis3 plane)) /ₚ full).1) ∧
    (delta.e ≠ 0 → 9 / 10000 ≤ (PyNum.abs (delta.map F64.of).e /ₚ full).1) := by
  obtain ⟨m1, m2⟩ := h.turned hord hflat hbal as ae
  obtain ⟨hr, hr', q1, q2, q3, q4⟩ := h.dists
  have harc : (arcArc c (radius.map F64.of) plane rot ψs ψe).1 =
      fl (|(arcTurn rot ψs ψe).1| * fl (R / p)) := by
    unfold arcArc
    rw [val_mul, val_abs, h.mpm, (h.rad hfp).1, (h.rad hfp).2]
    rfl
  have hQ : 0 ≤ (R / p : ℝ) := by linarith
  have l1 := fl_lo hQ
  have l2 := fl_hi hQ
  have hQ' := fl_nonneg hQ
  have k0 : 0 ≤ |(arcTurn rot ψs ψe).1| * fl (R / p) := mul_nonneg (abs_nonneg _) hQ'
  have l3 := fl_lo k0
  have l4 := fl_hi k0
  have k1 : |(arcTurn rot ψs ψe).1| * (R / p - R / p * (1 / 10 ^ 15)) ≤
      |(arcTurn rot ψs ψe).1| * fl (R / p) := by gcongr
  have k2 : |(arcTurn rot ψs ψe).1| * fl (R / p) ≤
      63 / 10 * (R / p + R / p * (1 / 10 ^ 15)) := by gcongr
  rw [← harc] at l3 l4
  have hW : 13 * startDist plane radius + |delta.get (axis3 plane)| + |delta.e| =
    reach plane delta radius := rfl
  have hW0 : 0 < reach plane delta radius := by
    rw [← hW]; positivity
  have a1 : reach plane delta radius / 1010 ≤ (arcArc c (radius.map F64.of) plane rot ψs ψe).1 := by
    nlinarith
  have a2 : (arcArc c (radius.map F64.of) plane rot ψs ψe).1 ≤ 13 * startDist plane radius := by
    linarith
  have v3 : |((delta.map F64.of).get (axis3 plane)).1| = |fl (delta.get (axis3 plane))| := by
    rw [get_map64]; rfl
  have vE : |(delta.map F64.of).e.1| = |fl delta.e| := rfl
  have near : ∀ x : ℝ, |x| - |x| * (1 / 10 ^ 15) ≤ |fl x| ∧ |fl x| ≤ |x| + |x| * (1 / 10 ^ 15) := by
    intro x
    have h1 := fl_near x
    have h2 := abs_sub_abs_le_abs_sub (fl x) x
    have h3 := abs_sub_abs_le_abs_sub x (fl x)
    rw [abs_sub_comm x] at h3
    constructor <;> linarith
  obtain ⟨b1, b2⟩ := near (delta.get (axis3 plane))
  obtain ⟨b3, b4⟩ := near delta.e
  have hfe : arcFull c (delta.map F64.of) (radius.map F64.of) plane rot ψs ψe =
      PyNum.sqrt (arcArc c (radius.map F64.of) plane rot ψs ψe *ₚ
          arcArc c (radius.map F64.of) plane rot ψs ψe +ₚ
        (delta.map F64.of).get (axis3 plane) *ₚ (delta.map F64.of).get (axis3 plane) +ₚ
        (delta.map F64.of).e *ₚ (delta.map F64.of).e) := by
    unfold arcFull; rw [planeAxes_eq]
  have n1 := norm3_le (arcArc c (radius.map F64.of) plane rot ψs ψe)
    ((delta.map F64.of).get (axis3 plane)) (delta.map F64.of).e
  have n2 := (norm3_ge (arcArc c (radius.map F64.of) plane rot ψs ψe)
    ((delta.map F64.of).get (axis3 plane)) (delta.map F64.of).e).1
  rw [← hfe] at n1 n2
  have a0 : 0 < (arcArc c (radius.map F64.of) plane rot ψs ψe).1 := by
    have : 0 < reach plane delta radius / 1010 := by positivity
    linarith
  rw [abs_of_pos a0, v3, vE] at n1
  rw [abs_of_pos a0] at n2
  have p3 := abs_nonneg (delta.get (axis3 plane))
  have pE := abs_nonneg delta.e
  have hL : (arcFull c (delta.map F64.of) (radius.map F64.of) plane rot ψs ψe).1 ≤
      reach plane delta radius * (101 / 100) := by
    rw [← hW]
    linarith
  have hL0 := a0.trans_le n2
  refine ⟨part64 hW0 a1 hL0 hL, fun hne => part64 hW0 ?_ hL0 hL, fun hne => part64 hW0 ?_ hL0 hL⟩
  · rw [val_abs, v3]
    have := hbal.third hne
    linarith
  · rw [val_abs, vE]
    have := hbal.extr hne
    linarith

end PyCNC
