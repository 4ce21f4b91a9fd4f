import Verif.Lemmas.Convert64

/-!
# The speeds of arcs in binary64
-/

set_option linter.unusedSectionVars false

namespace PyCNC

open Spec

variable [PyRound]

/-- A length of three components is not shorter than any of them. -/
theorem norm3_ge (a b d : F64) :
    let L := PyNum.sqrt (a *ₚ a +ₚ b *ₚ b +ₚ d *ₚ d)
    |a.1| ≤ L.1 ∧ |b.1| ≤ L.1 ∧ |d.1| ≤ L.1 := by
  have sq : ∀ x : F64, 0 ≤ (x *ₚ x).1 := fun x => fl_nonneg (mul_self_nonneg _)
  have key : ∀ x : F64, (x *ₚ x).1 ≤ (a *ₚ a +ₚ b *ₚ b +ₚ d *ₚ d).1 →
      |x.1| ≤ (PyNum.sqrt (a *ₚ a +ₚ b *ₚ b +ₚ d *ₚ d)).1 := fun x hx => by
    rw [← fl_sqrt_sq x.2, val_sqrt]
    exact fl_mono (Real.sqrt_le_sqrt hx)
  have e1 : (a *ₚ a).1 ≤ (a *ₚ a +ₚ b *ₚ b).1 := by
    rw [val_add]; exact le_fl_of_le (a *ₚ a).2 (by linarith [sq b])
  have e2 : (b *ₚ b).1 ≤ (a *ₚ a +ₚ b *ₚ b).1 := by
    rw [val_add]; exact le_fl_of_le (b *ₚ b).2 (by linarith [sq a])
  have e3 : (a *ₚ a +ₚ b *ₚ b).1 ≤ (a *ₚ a +ₚ b *ₚ b +ₚ d *ₚ d).1 := by
    rw [val_add (a *ₚ a +ₚ b *ₚ b)]; exact le_fl_of_le (a *ₚ a +ₚ b *ₚ b).2 (by linarith [sq d])
  have e4 : (d *ₚ d).1 ≤ (a *ₚ a +ₚ b *ₚ b +ₚ d *ₚ d).1 := by
    rw [val_add (a *ₚ a +ₚ b *ₚ b)]
    exact le_fl_of_le (d *ₚ d).2 (by linarith [(sq a).trans e1])
  exact ⟨key a (e1.trans e3), key b (e2.trans e3), key d e4⟩

/-- A quotient by such a length. -/
theorem ratio64 {x L : F64} (h0 : 0 ≤ x.1) (h : x.1 ≤ L.1) : 0 ≤ (x /ₚ L).1 ∧ (x /ₚ L).1 ≤ 1 := by
  have hL : 0 ≤ L.1 := h0.trans h
  rw [val_div]
  refine ⟨fl_nonneg (div_nonneg h0 hL), ?_⟩
  rw [← fl_one]
  exact fl_mono (div_le_one_of_le₀ h hL)

variable {c : Cfg} {delta radius : V4 F64} {plane : Plane} {rot : Rot} {v φs φe : F64}

/-- The speeds of an arc and its times. -/
theorem times64 (hc : SaneCfg c) (hv : 1 ≤ v.1)
    (hrad : 0 < (arcRad (arcMpm c plane) plane radius).1)
    (hA : (arcFull c delta radius plane rot φs φe).1 ≠ 0 → 9 / 10000 ≤
      (arcArc c radius plane rot φs φe /ₚ arcFull c delta radius plane rot φs φe).1)
    (h3 : (delta.get (axis3 plane)).1 ≠ 0 → (arcFull c delta radius plane rot φs φe).1 ≠ 0 →
      9 / 10000 ≤ (PyNum.abs (delta.get (axis3 plane)) /ₚ arcFull c delta radius plane rot φs φe).1)
    (hE : delta.e.1 ≠ 0 → (arcFull c delta radius plane rot φs φe).1 ≠ 0 →
      9 / 10000 ≤ (PyNum.abs delta.e /ₚ arcFull c delta radius plane rot φs φe).1) :
    ∃ maxV q mV aT lT, adjustVelocity c (arcVel c delta radius plane rot v φs φe) = .ok maxV ∧
      pdiv (arcRad (arcMpm c plane) plane radius) (arcCirc plane maxV) = .ok q ∧
      arcTimes c delta radius plane rot φs φe maxV q =
        .ok (arcMk c delta radius plane rot φs φe (planeAxes plane maxV).2.2 maxV.e q mV aT lT) ∧
      0 ≤ q.1 ∧ 0 ≤ aT.1 ∧ 0 ≤ (Coord.findMax mV).1 ∧
      ((delta.get (axis3 plane)).1 ≠ 0 → 0 < (planeAxes plane maxV).2.2.1) ∧
      (delta.e.1 ≠ 0 → 0 < maxV.e.1) := by
  have ha : (1 : ℝ) ≤ c.accel := by exact_mod_cast hc.accel
  have ha0 : 0 < fl (c.accel : ℝ) := fl_pos (by linarith)
  set full := arcFull c delta radius plane rot φs φe with hfull
  set arc := arcArc c radius plane rot φs φe with harc
  have hone : (ofInt 1 : F64).1 = 1 := by
    rw [val_ofInt, Int.cast_one, fl_one]
  have harc0 : 0 ≤ arc.1 := by
    rw [harc]; unfold arcArc
    rw [val_mul, val_abs]
    exact fl_nonneg (mul_nonneg (abs_nonneg _) hrad.le)
  have hn := norm3_ge arc (delta.get (axis3 plane)) delta.e
  have hfe : PyNum.sqrt (arc *ₚ arc +ₚ delta.get (axis3 plane) *ₚ delta.get (axis3 plane) +ₚ
      delta.e *ₚ delta.e) = full := by
    rw [hfull]; unfold arcFull; rw [planeAxes_eq]
  simp only [hfe] at hn
  obtain ⟨n1, n2, n3⟩ := hn
  have hfull0 : 0 ≤ full.1 := (abs_nonneg _).trans n1
  rw [abs_of_nonneg harc0] at n1
  -- the components of the direction
  set dA : F64 := if full =ₚ zeroF then ofInt 1 else arc /ₚ full with hdA
  set d3 : F64 := if full =ₚ zeroF then ofInt 1 else PyNum.abs (delta.get (axis3 plane)) /ₚ full
    with hd3
  set dE : F64 := if full =ₚ zeroF then ofInt 1 else PyNum.abs delta.e /ₚ full with hdE
  have hz : ∀ {b : Bool}, b = (full =ₚ zeroF) → (b = true ↔ full.1 = 0) := by
    rintro b rfl
    rw [eq64_iff, val_zero]
  have b1 : 0 ≤ dA.1 ∧ dA.1 ≤ 1 := by
    rw [hdA]; split
    · rw [hone]; norm_num
    · exact ratio64 harc0 n1
  have b3 : 0 ≤ d3.1 ∧ d3.1 ≤ 1 := by
    rw [hd3]; split
    · rw [hone]; norm_num
    · exact ratio64 (by rw [val_abs]; exact abs_nonneg _) (by rw [val_abs]; exact n2)
  have bE : 0 ≤ dE.1 ∧ dE.1 ≤ 1 := by
    rw [hdE]; split
    · rw [hone]; norm_num
    · exact ratio64 (by rw [val_abs]; exact abs_nonneg _) (by rw [val_abs]; exact n3)
  have g1 : 9 / 10000 ≤ dA.1 := by
    rw [hdA]; split
    · rw [hone]; norm_num
    · next h => exact hA (fun h0 => h ((hz rfl).2 h0))
  have g3 : (delta.get (axis3 plane)).1 ≠ 0 → 9 / 10000 ≤ d3.1 := fun hx => by
    rw [hd3]; split
    · rw [hone]; norm_num
    · next h => exact h3 hx (fun h0 => h ((hz rfl).2 h0))
  have gE : delta.e.1 ≠ 0 → 9 / 10000 ≤ dE.1 := fun hx => by
    rw [hdE]; split
    · rw [hone]; norm_num
    · next h => exact hE hx (fun h0 => h ((hz rfl).2 h0))
  have hsec : (secInMin : F64).1 = 60 := by
    change fl ((60 : ℚ) : ℝ) = _
    have := fl_int 60 (by norm_num)
    simpa using this
  have hP : 4 / 10 ^ 7 ≤ (v /ₚ secInMin).1 := by
    rw [val_div, hsec]
    have h1 := fl_lo (show 0 ≤ v.1 / 60 by positivity)
    linarith
  set P := v /ₚ secInMin with hPd
  have hmul1 : ofInt 1 *ₚ P = P := ext64 (by rw [val_mul, hone, one_mul]; exact P.2)
  set D : V4 F64 := match plane with
    | .xy => ⟨dA, dA, d3, dE⟩
    | .yz => ⟨d3, dA, dA, dE⟩
    | .zx => ⟨dA, d3, dA, dE⟩ with hD
  have hDA : D.get (axisA plane) = dA ∧ D.get (axisB plane) = dA ∧ D.get (axis3 plane) = d3 ∧
      D.e = dE := by
    rw [hD]; cases plane <;> exact ⟨rfl, rfl, rfl, rfl⟩
  have hD01 : ∀ ax, 0 ≤ (D.get ax).1 ∧ (D.get ax).1 ≤ 1 := by
    rw [hD]
    intro ax
    cases plane <;> cases ax <;> first | exact b1 | exact b3 | exact bE
  have hvel : arcVel c delta radius plane rot v φs φe = Coord.smul D P := by
    have m1 : (if full =ₚ zeroF then P else arc /ₚ full *ₚ P) = dA *ₚ P := by
      rw [hdA]; split
      · exact hmul1.symm
      · rfl
    have m3 : (if full =ₚ zeroF then P else PyNum.abs (delta.get (axis3 plane)) /ₚ full *ₚ P) =
        d3 *ₚ P := by
      rw [hd3]; split
      · exact hmul1.symm
      · rfl
    have mE : (if full =ₚ zeroF then P else PyNum.abs delta.e /ₚ full *ₚ P) = dE *ₚ P := by
      rw [hdE]; split
      · exact hmul1.symm
      · rfl
    unfold arcVel
    simp only [planeAxes_eq]
    rw [← hfull, ← harc, ← hPd, m1, m3, mE, hD]
    cases plane <;> rfl
  obtain ⟨w, w1, w2, w3⟩ := speeds64 hc (fun ax => (hD01 ax).1)
    (fun ax => (hD01 ax).2.trans (by norm_num)) hP
  have wA : 0 < (w.get (axisA plane)).1 := w3 _ (by rw [hDA.1]; exact g1)
  have wB : 0 < (w.get (axisB plane)).1 := w3 _ (by rw [hDA.2.1]; exact g1)
  have hcirc : 0 < (arcCirc plane w).1 := by
    unfold arcCirc
    rw [planeAxes_eq]
    rcases pmin64 (w.get (axisA plane)) (w.get (axisB plane)) with h | h <;> simp only [h]
    exacts [wA, wB]
  have hmax : 0 ≤ (Coord.findMax w).1 := (w2 .x).trans (findMax64 w .x)
  have v3 : (delta.get (axis3 plane)).1 ≠ 0 → 0 < (planeAxes plane w).2.2.1 := fun hx => by
    rw [planeAxes_eq]; exact w3 _ (by rw [hDA.2.2.1]; exact g3 hx)
  have vE : delta.e.1 ≠ 0 → 0 < w.e.1 := fun hx => w3 .e (by
    change 9 / 10000 ≤ D.e.1
    rw [hDA.2.2.2]; exact gE hx)
  have hq : 0 ≤ (arcRad (arcMpm c plane) plane radius /ₚ arcCirc plane w).1 :=
    fl_nonneg (div_nonneg hrad.le hcirc.le)
  have hacc : 0 ≤ (Coord.findMax w /ₚ PyNum.ofRat c.accel : F64).1 :=
    fl_nonneg (div_nonneg hmax ha0.le)
  suffices ht : ∃ mV aT lT, arcTimes c delta radius plane rot φs φe w
      (arcRad (arcMpm c plane) plane radius /ₚ arcCirc plane w) =
        .ok (arcMk c delta radius plane rot φs φe (planeAxes plane w).2.2 w.e
          (arcRad (arcMpm c plane) plane radius /ₚ arcCirc plane w) mV aT lT) ∧
      0 ≤ aT.1 ∧ 0 ≤ (Coord.findMax mV).1 by
    obtain ⟨mV, aT, lT, t1, t2, t3⟩ := ht
    exact ⟨w, _, mV, aT, lT, by rw [hvel]; exact w1, pdiv64_ok hcirc.ne', t1, hq, t2, t3, v3, vE⟩
  unfold arcTimes
  simp only
  rw [← hfull]
  by_cases hne : (full =ₚ zeroF) = true
  · rw [if_pos hne]
    refine ⟨_, _, _, rfl, hacc, ?_⟩
    have : ((Coord.zero : V4 F64).get .x).1 = 0 := r10_zero val_zero
    exact this.ge.trans (findMax64 _ .x)
  rw [if_neg hne]
  have hpos : 0 < full.1 := lt_of_le_of_ne hfull0 fun h => hne ((hz rfl).2 h.symm)
  split
  · have hsq : 0 < (PyNum.sqrt (full /ₚ PyNum.ofRat c.accel)).1 :=
      fl_pos (Real.sqrt_pos.2 (fl_pos (div_pos hpos ha0)))
    rw [pdiv64_ok hsq.ne']
    refine ⟨_, _, _, rfl, hsq.le, ?_⟩
    refine le_trans ?_ (findMax64 _ (axisA plane))
    have : ∀ f : F64 → F64, (w.map f).get (axisA plane) = f (w.get (axisA plane)) := by
      cases plane <;> intro f <;> rfl
    rw [this, if_pos (by rw [lt64_iff, val_zero]; exact wA)]
    exact fl_nonneg (div_nonneg hpos.le hsq.le)
  · have hge := (norm3_ge (arcCirc plane w) (planeAxes plane w).2.2 w.e).1
    rw [abs_of_pos hcirc] at hge
    rw [pdiv64_ok (lt_of_lt_of_le hcirc hge).ne']
    exact ⟨_, _, _, rfl, hacc, hmax⟩

end PyCNC
