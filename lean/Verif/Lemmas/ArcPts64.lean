import Verif.Lemmas.ArcVel64
import Verif.Lemmas.ArcNet

/-!
# Arcs in binary64
-/

set_option linter.unusedSectionVars false

namespace PyCNC

open Spec

variable [PyRound]

theorem get_map64 {α β : Type} (f : α → β) (w : V4 α) (ax : Axis) : (w.map f).get ax = f (w.get ax) := by
  cases ax <;> rfl

/-- The integers of a generator of arcs that decide about its pulses, except for the start. -/
structure SameInts (g : CircGen ℝ) (g' : CircGen F64) : Prop where
  plane : g'.plane = g.plane
  radA : g'.radiusAP = g.radiusAP
  radB : g'.radiusBP = g.radiusBP
  dirA : g'.dirA = g.dirA
  dirB : g'.dirB = g.dirB
  itA : g'.itA = g.itA
  itB : g'.itB = g.itB

variable {c : Cfg} {delta radius : V4 ℝ} {plane : Plane} {v : ℝ}

/-- The points of an arc in binary64. -/
structure Pts64 (c : Cfg) (delta radius : V4 ℝ) (plane : Plane) (rot : Rot) (g : CircGen ℝ)
    (φs φe : ℝ) (p : ℚ) (R A B EA EB : ℤ) : Prop where
  facts : NewFacts c delta radius plane rot g φs φe
  pA : c.ppm.get (axisA plane) = p
  pB : c.ppm.get (axisB plane) = p
  p_pos : (0 : ℝ) < p
  ints : ArcInts (startA plane radius) (startB plane radius) (endA plane delta radius)
    (endB plane delta radius) p p R R A B EA EB
  cA : radius.get (axisA plane) * (p : ℝ) = (-A : ℤ)
  cB : radius.get (axisB plane) * (p : ℝ) = (-B : ℤ)
  cEA : delta.get (axisA plane) * (p : ℝ) = (EA - A : ℤ)
  cEB : delta.get (axisB plane) * (p : ℝ) = (EB - B : ℤ)
  radA : g.radiusAP = R
  radB : g.radiusBP = R
  pos : 0 < R
  le : (R : ℝ) ≤ 10 ^ 5
  its : (g.itA, g.itB) = arcIterations rot φs φe R R |A| |B| |EA| |EB| |A - EA| |B - EB|
  distS : PyRound.rnd √((A : ℝ) ^ 2 + (B : ℝ) ^ 2) = R
  distE : PyRound.rnd √((EA : ℝ) ^ 2 + (EB : ℝ) ^ 2) = R
  ps : Pt64 p (PyNum.neg (F64.of (radius.get (axisA plane)))) (PyNum.neg (F64.of (radius.get (axisB plane)))) A B
  pe : Pt64 p (PyNum.neg (F64.of (radius.get (axisA plane))) +ₚ F64.of (delta.get (axisA plane)))
    (PyNum.neg (F64.of (radius.get (axisB plane))) +ₚ F64.of (delta.get (axisB plane))) EA EB

theorem pts64 (hc : SaneCfg c) (h : OrdinaryArc c delta radius plane v)
    (hpq : c.ppm.get (axisA plane) = c.ppm.get (axisB plane))
    (hsz : startDist plane radius * c.ppm.get (axisA plane) ≤ 10000) (rot : Rot) :
    ∃ g φs φe R A B EA EB, CircGen.new c delta radius plane rot v = .ok g ∧
      PyRound.rnd (startDist plane radius * c.ppm.get (axisA plane)) = R ∧
      Pts64 c delta radius plane rot g φs φe (c.ppm.get (axisA plane)) R A B EA EB := by
  obtain ⟨g, φs, φe, hnew, _, hf⟩ := arc_new hc (ordinary_sized hc h) rot
  obtain ⟨R, RB, A, B, EA, EB, hi, r1, r2, r3, r4, p1, p2, hits, q1, q2, _, _⟩ := arc_ints h.grid hf
  have hP : (0 : ℝ) < c.ppm.get (axisA plane) := by exact_mod_cast h.grid.posA
  have hends := h.ends
  have hco : coarse c plane = c.ppm.get (axisA plane) := by
    unfold coarse; rw [← hpq, min_self]
  rw [hco] at hends
  set p : ℚ := c.ppm.get (axisA plane) with hp
  rw [← hpq] at hi q2
  -- coordinates in steps
  have cA : radius.get (axisA plane) * (p : ℝ) = (-A : ℤ) := by
    have := hi.hA; unfold startA at this; push_cast; linarith
  have cB : radius.get (axisB plane) * (p : ℝ) = (-B : ℤ) := by
    have := hi.hB; unfold startB at this; push_cast; linarith
  have cEA : delta.get (axisA plane) * (p : ℝ) = (EA - A : ℤ) := by
    have := hi.hEA; unfold endA at this; push_cast at cA ⊢; linarith
  have cEB : delta.get (axisB plane) * (p : ℝ) = (EB - B : ℤ) := by
    have := hi.hEB; unfold endB at this; push_cast at cB ⊢; linarith
  have dS : startDist plane radius * (p : ℝ) = √((A : ℝ) ^ 2 + (B : ℝ) ^ 2) := by
    rw [startDist, ← hi.hA, ← hi.hB, mul_pow, mul_pow, ← add_mul, Real.sqrt_mul (by positivity),
      Real.sqrt_sq hP.le]
  have dE : endDist plane delta radius * (p : ℝ) = √((EA : ℝ) ^ 2 + (EB : ℝ) ^ 2) := by
    rw [endDist, ← hi.hEA, ← hi.hEB, mul_pow, mul_pow, ← add_mul, Real.sqrt_mul (by positivity),
      Real.sqrt_sq hP.le]
  rw [dS, dE] at hends
  have hq1 := q1
  rw [dS] at hsz q1 q2
  have hRB : RB = R := by rw [← q1, ← q2]
  rw [q1] at hends
  have hge := (abs_le.1 (PyRound.near √((A : ℝ) ^ 2 + (B : ℝ) ^ 2)))
  have hge' := (abs_le.1 (PyRound.near √((EA : ℝ) ^ 2 + (EB : ℝ) ^ 2)))
  rw [q1] at hge
  rw [hends] at hge'
  have nzS : A ≠ 0 ∨ B ≠ 0 := by
    by_contra hc'
    push Not at hc'
    rw [hc'.1, hc'.2] at hge
    have : (1 : ℝ) ≤ R := by exact_mod_cast p1
    norm_num at hge
    linarith [hge.2]
  have nzE : EA ≠ 0 ∨ EB ≠ 0 := by
    by_contra hc'
    push Not at hc'
    rw [hc'.1, hc'.2] at hge'
    have : (1 : ℝ) ≤ R := by exact_mod_cast p1
    norm_num at hge'
    linarith [hge'.2]
  have szS : √((A : ℝ) ^ 2 + (B : ℝ) ^ 2) ≤ 10001 := by linarith
  have szE : √((EA : ℝ) ^ 2 + (EB : ℝ) ^ 2) ≤ 10001 := by linarith [hge.1, hge.2, hge'.1, hge'.2]
  have geE : 1 ≤ √((EA : ℝ) ^ 2 + (EB : ℝ) ^ 2) := by
    apply Real.le_sqrt_of_sq_le
    have h1 : 1 ≤ EA ^ 2 + EB ^ 2 := by
      rcases nzE with h | h
      · have := sq_nonneg EB; have : 0 < EA ^ 2 := by positivity
        omega
      · have := sq_nonneg EA; have : 0 < EB ^ 2 := by positivity
        omega
    rw [one_pow]; exact_mod_cast h1
  have hr2 : √((A : ℝ) ^ 2 + (B : ℝ) ^ 2) ≤ 2 * √((EA : ℝ) ^ 2 + (EB : ℝ) ^ 2) := by
    linarith [hge.1, hge.2, hge'.1, hge'.2]
  have ps := pt_start hP cA cB nzS szS
  have pe := pt_end hP cA cB cEA cEB nzE szE hr2
  subst hRB
  exact ⟨g, φs, φe, RB, A, B, EA, EB, hnew, hq1, hf, rfl, hpq.symm, hP, hi, cA, cB, cEA, cEB, r1, r2, p1,
    by linarith [hge.1, hge.2], hits, q1, hends, ps, pe⟩

variable {rot : Rot} {g : CircGen ℝ} {φs φe : ℝ} {p : ℚ} {R A B EA EB : ℤ}


/-- The coordinates of start and end as the constructor computes them. -/
theorem axes64 (plane : Plane) (delta radius : V4 ℝ) :
    arcSA plane (radius.map F64.of) = PyNum.neg (F64.of (radius.get (axisA plane))) ∧
    arcSB plane (radius.map F64.of) = PyNum.neg (F64.of (radius.get (axisB plane))) ∧
    arcEA plane (delta.map F64.of) (radius.map F64.of) =
      PyNum.neg (F64.of (radius.get (axisA plane))) +ₚ F64.of (delta.get (axisA plane)) ∧
    arcEB plane (delta.map F64.of) (radius.map F64.of) =
      PyNum.neg (F64.of (radius.get (axisB plane))) +ₚ F64.of (delta.get (axisB plane)) := by
  unfold arcEA arcEB arcSA arcSB
  simp only [planeAxes_eq, get_map64, and_self]

/-- The radius. -/
theorem Pts64.rad (h : Pts64 c delta radius plane rot g φs φe p R A B EA EB) (hfp : fl p = p) :
    arcRad p plane (radius.map F64.of) = ofInt R /ₚ PyNum.ofRat p ∧
    (ofInt R /ₚ PyNum.ofRat p : F64) = F64.of (R / p) := by
  obtain ⟨xSA, xSB, xEA, xEB⟩ := axes64 plane delta radius
  have kS := dist64 hfp h.ps
  rw [h.distS] at kS
  constructor
  · unfold arcRad
    rw [xSA, xSB, kS]
  · apply ext64
    rw [val_div, val_ofInt, val_ofRat, hfp, fl_int]
    · rfl
    · rw [abs_of_pos h.pos]
      have : R ≤ 10 ^ 5 := by exact_mod_cast h.le
      omega

theorem Pts64.mpm (h : Pts64 c delta radius plane rot g φs φe p R A B EA EB) : arcMpm c plane = p := by
  rw [arcMpm_eq, h.pA, h.pB, min_self]

/-- The check of the end point. -/
theorem Pts64.endOk (h : Pts64 c delta radius plane rot g φs φe p R A B EA EB) (hfp : fl p = p) :
    arcEndOk c (delta.map F64.of) (radius.map F64.of) plane = true := by
  obtain ⟨xSA, xSB, xEA, xEB⟩ := axes64 plane delta radius
  have kE := dist64 hfp h.pe
  rw [h.distE] at kE
  unfold arcEndOk
  rw [xEA, xEB, h.mpm, kE, (h.rad hfp).1, eq64_iff]

/-- The angles, and what depends on them. -/
theorem Pts64.angles (h : Pts64 c delta radius plane rot g φs φe p R A B EA EB) :
    ∃ ψs ψe, angle (arcSA plane (radius.map F64.of)) (arcSB plane (radius.map F64.of)) = .ok ψs ∧
      angle (arcEA plane (delta.map F64.of) (radius.map F64.of))
        (arcEB plane (delta.map F64.of) (radius.map F64.of)) = .ok ψe ∧
      0 ≤ ψs.1 ∧ ψs.1 ≤ 2 * fl Real.pi ∧
      startDirs rot ψs = startDirs rot φs ∧ ∀ a b d e f g h i,
        arcIterations rot ψs ψe a b d e f g h i = arcIterations rot φs φe a b d e f g h i := by
  obtain ⟨xSA, xSB, xEA, xEB⟩ := axes64 plane delta radius
  have hang := h.facts.angS
  have hang' := h.facts.angE
  rw [arcSA_eq, arcSB_eq] at hang
  rw [arcEA_eq, arcEB_eq] at hang'
  have hi := h.ints
  obtain ⟨ψs, as, qqs⟩ := quart64 h.ps (arcQuarter_signs (angle_ne hang) hi.hp hi.hq hi.hA hi.hB)
  obtain ⟨ψe, ae, qqe⟩ := quart64 h.pe (arcQuarter_signs (angle_ne hang') hi.hp hi.hq hi.hEA hi.hEB)
  have iters := fun a b d e f g k i => iters64 hi rfl hang hang' h.ps h.pe
    (fun h1 h2 => ⟨(end_on_step (ρ := |(EA : ℝ)| + |(A : ℝ)|) h.p_pos h.cA h.cEA
        (by linarith [abs_nonneg (EA : ℝ), abs_nonneg (A : ℝ)]) (by linarith [abs_nonneg (A : ℝ)])).2.2 h1,
      (end_on_step (ρ := |(EB : ℝ)| + |(B : ℝ)|) h.p_pos h.cB h.cEB
        (by linarith [abs_nonneg (EB : ℝ), abs_nonneg (B : ℝ)]) (by linarith [abs_nonneg (B : ℝ)])).2.2 h2⟩)
    as ae rot a b d e f g k i
  have l := halfPi_lo
  have hqr : 0 ≤ ψs.1 ∧ ψs.1 ≤ 2 * fl Real.pi := by
    have h1 := qqs.le
    have h2 := qqs.lt
    have : 0 ≤ arcQuarter (startA plane radius) (startB plane radius) ∧
        arcQuarter (startA plane radius) (startB plane radius) ≤ 3 := by
      rcases arcQuarter_cases (startA plane radius) (startB plane radius) with h | h | h | h <;> omega
    have c1 : (0 : ℝ) ≤ arcQuarter (startA plane radius) (startB plane radius) := by
      exact_mod_cast this.1
    have c2 : (arcQuarter (startA plane radius) (startB plane radius) : ℝ) ≤ 3 := by
      exact_mod_cast this.2
    rw [pi64]
    constructor <;> nlinarith
  rw [xSA, xSB, xEA, xEB]
  exact ⟨ψs, ψe, as, ae, hqr.1, hqr.2, (iters 0 0 0 0 0 0 0 0).2, fun a b d e f g k i =>
    (iters a b d e f g k i).1⟩

/-- The numbers of steps the constructor computes. -/
theorem Pts64.counts (h : Pts64 c delta radius plane rot g φs φe p R A B EA EB) (hfp : fl p = p) :
    PyNum.roundI (arcRad p plane (radius.map F64.of) *ₚ PyNum.ofRat p) = R ∧
    PyNum.roundI (PyNum.abs (arcSA plane (radius.map F64.of)) *ₚ PyNum.ofRat p) = |A| ∧
    PyNum.roundI (PyNum.abs (arcSB plane (radius.map F64.of)) *ₚ PyNum.ofRat p) = |B| ∧
    PyNum.roundI (PyNum.abs (arcEA plane (delta.map F64.of) (radius.map F64.of)) *ₚ
      PyNum.ofRat p) = |EA| ∧
    PyNum.roundI (PyNum.abs (arcEB plane (delta.map F64.of) (radius.map F64.of)) *ₚ
      PyNum.ofRat p) = |EB| ∧
    PyNum.roundI (PyNum.abs (arcSA plane (radius.map F64.of) -ₚ
      arcEA plane (delta.map F64.of) (radius.map F64.of)) *ₚ PyNum.ofRat p) = |A - EA| ∧
    PyNum.roundI (PyNum.abs (arcSB plane (radius.map F64.of) -ₚ
      arcEB plane (delta.map F64.of) (radius.map F64.of)) *ₚ PyNum.ofRat p) = |B - EB| := by
  obtain ⟨xSA, xSB, xEA, xEB⟩ := axes64 plane delta radius
  have hP := h.p_pos
  have hR0 : (0 : ℝ) < R := by exact_mod_cast h.pos
  have hAle : |(A : ℝ)| ≤ √((A : ℝ) ^ 2 + (B : ℝ) ^ 2) :=
    Real.abs_le_sqrt (by nlinarith [sq_nonneg (B : ℝ)])
  have hBle : |(B : ℝ)| ≤ √((A : ℝ) ^ 2 + (B : ℝ) ^ 2) :=
    Real.abs_le_sqrt (by nlinarith [sq_nonneg (A : ℝ)])
  have hEAle : |(EA : ℝ)| ≤ √((EA : ℝ) ^ 2 + (EB : ℝ) ^ 2) :=
    Real.abs_le_sqrt (by nlinarith [sq_nonneg (EB : ℝ)])
  have hEBle : |(EB : ℝ)| ≤ √((EA : ℝ) ^ 2 + (EB : ℝ) ^ 2) :=
    Real.abs_le_sqrt (by nlinarith [sq_nonneg (EA : ℝ)])
  have szS := h.ps.size
  have szE := h.pe.size
  have nA := h.ps.a_near
  have nB := h.ps.b_near
  have nEA := h.pe.a_near
  have nEB := h.pe.b_near
  have hrad := h.rad hfp
  rw [hrad.1, hrad.2, xSA, xSB, xEA, xEB]
  generalize PyNum.neg (F64.of (radius.get (axisA plane))) +ₚ F64.of (delta.get (axisA plane)) = ea at *
  generalize PyNum.neg (F64.of (radius.get (axisB plane))) +ₚ F64.of (delta.get (axisB plane)) = eb at *
  generalize PyNum.neg (F64.of (radius.get (axisA plane))) = sa at *
  generalize PyNum.neg (F64.of (radius.get (axisB plane))) = sb at *
  replace nA : |sa.1 * p - A| ≤ 1 / 10 ^ 9 := nA.trans (by linarith)
  replace nB : |sb.1 * p - B| ≤ 1 / 10 ^ 9 := nB.trans (by linarith)
  replace nEA : |ea.1 * p - EA| ≤ 1 / 10 ^ 9 := nEA.trans (by linarith)
  replace nEB : |eb.1 * p - EB| ≤ 1 / 10 ^ 9 := nEB.trans (by linarith)
  have rd : ∀ {x : F64} {N : ℤ}, |(N : ℝ)| ≤ 10 ^ 5 → |x.1 * p - N| ≤ 1 / 10 ^ 8 →
      PyNum.roundI (PyNum.abs x *ₚ PyNum.ofRat p) = |N| := by
    intro x N h1 h2
    exact round_near64 hfp (by push_cast; rw [abs_abs]; exact h1) (abs_near64 hP h2)
  refine ⟨?_, rd (by linarith) (nA.trans (by norm_num)), rd (by linarith) (nB.trans (by norm_num)),
    rd (by linarith) (nEA.trans (by norm_num)), rd (by linarith) (nEB.trans (by norm_num)),
    rd ?_ (sub_near64 hP (by linarith) (by linarith) nA nEA),
    rd ?_ (sub_near64 hP (by linarith) (by linarith) nB nEB)⟩
  · refine round_near64 hfp (by rw [abs_of_pos hR0]; exact h.le) ?_
    have := of_on_step (x := R / p) (n := R) hP (div_mul_cancel₀ _ hP.ne')
    rw [abs_of_pos hR0] at this
    linarith [h.le]
  · push_cast; have := abs_sub (A : ℝ) EA; linarith
  · push_cast; have := abs_sub (B : ℝ) EB; linarith

/-- The start in steps is not outside the circle, however it is rounded. -/
theorem Pts64.inside (h : Pts64 c delta radius plane rot g φs φe p R A B EA EB) (hfp : fl p = p) :
    (-R ≤ PyNum.truncI (PyNum.neg (F64.of (radius.get (axisA plane))) *ₚ PyNum.ofRat p) ∧
      PyNum.truncI (PyNum.neg (F64.of (radius.get (axisA plane))) *ₚ PyNum.ofRat p) ≤ R) ∧
    -R ≤ PyNum.truncI (PyNum.neg (F64.of (radius.get (axisB plane))) *ₚ PyNum.ofRat p) ∧
      PyNum.truncI (PyNum.neg (F64.of (radius.get (axisB plane))) *ₚ PyNum.ofRat p) ≤ R := by
  have szS := h.ps.size
  have nA : |(PyNum.neg (F64.of (radius.get (axisA plane)))).1 * p - A| ≤ 1 / 10 ^ 9 :=
    h.ps.a_near.trans (by linarith)
  have nB : |(PyNum.neg (F64.of (radius.get (axisB plane)))).1 * p - B| ≤ 1 / 10 ^ 9 :=
    h.ps.b_near.trans (by linarith)
  have hRl := h.le
  have inside : ∀ {x : F64} {N : ℤ}, |(N : ℝ)| ≤ R → |x.1 * p - N| ≤ 1 / 10 ^ 9 →
      -R ≤ PyNum.truncI (x *ₚ PyNum.ofRat p) ∧ PyNum.truncI (x *ₚ PyNum.ofRat p) ≤ R := by
    intro x N hN hx
    have hv : (x *ₚ PyNum.ofRat p).1 = fl (x.1 * p) := by rw [val_mul, val_ofRat, hfp]
    have h1 := fl_near (x.1 * p)
    have h2 : |x.1 * (p : ℝ)| ≤ R + 1 := by
      have := abs_sub_abs_le_abs_sub (x.1 * (p : ℝ)) N
      linarith
    have h3 := abs_sub_le (fl (x.1 * p)) (x.1 * p) N
    have h4 : |fl (x.1 * p) - N| ≤ 1 / 10 := by linarith
    obtain ⟨m1, m2⟩ := abs_le.1 h4
    obtain ⟨n1, n2⟩ := abs_le.1 hN
    change -R ≤ (if 0 ≤ (x *ₚ PyNum.ofRat p : F64).1 then ⌊(x *ₚ PyNum.ofRat p : F64).1⌋ else
      ⌈(x *ₚ PyNum.ofRat p : F64).1⌉) ∧ (if 0 ≤ (x *ₚ PyNum.ofRat p : F64).1 then
      ⌊(x *ₚ PyNum.ofRat p : F64).1⌋ else ⌈(x *ₚ PyNum.ofRat p : F64).1⌉) ≤ R
    rw [hv]
    split
    · next h0 =>
      have f0 : 0 ≤ ⌊fl (x.1 * p)⌋ := Int.floor_nonneg.2 h0
      have f1 : ⌊fl (x.1 * p)⌋ < R + 1 := Int.floor_lt.2 (by push_cast; linarith)
      omega
    · next h0 =>
      push Not at h0
      have f0 : ⌈fl (x.1 * p)⌉ ≤ 0 := Int.ceil_le.2 (by push_cast; exact h0.le)
      have f1 : -R - 1 < ⌈fl (x.1 * p)⌉ := Int.lt_ceil.2 (by push_cast; linarith)
      omega
  have rangeA : |(A : ℝ)| ≤ R := by
    rw [abs_le]; exact ⟨by exact_mod_cast h.ints.rA.1, by exact_mod_cast h.ints.rA.2⟩
  have rangeB : |(B : ℝ)| ≤ R := by
    have := h.ints.rB
    rw [abs_le]; exact ⟨by exact_mod_cast this.1, by exact_mod_cast this.2⟩
  exact ⟨inside rangeA nA, inside rangeB nB⟩

end PyCNC
