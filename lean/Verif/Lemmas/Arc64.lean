import Verif.Lemmas.Share64

/-!
# Arcs in binary64
-/

set_option linter.unusedSectionVars false

namespace PyCNC

open Spec

variable [PyRound]

variable {c : Cfg} {delta radius : V4 ℝ} {plane : Plane} {v : ℝ}
variable {rot : Rot} {g : CircGen ℝ} {φs φe : ℝ} {p : ℚ} {R A B EA EB : ℤ}

/-- The conditions on the shares of the axes, for flat arcs and for helices. -/
theorem Pts64.conds (h : Pts64 c delta radius plane rot g φs φe p R A B EA EB) (hfp : fl p = p)
    (hord : OrdinaryArc c delta radius plane v)
    (hbal : (delta.get (axis3 plane) = 0 ∧ delta.e = 0) ∨ Balanced plane delta radius) {ψs ψe : F64}
    (as : angle (arcSA plane (radius.map F64.of)) (arcSB plane (radius.map F64.of)) = .ok ψs)
    (ae : angle (arcEA plane (delta.map F64.of) (radius.map F64.of))
        (arcEB plane (delta.map F64.of) (radius.map F64.of)) = .ok ψe)
    (hradpos : 0 < (arcRad (arcMpm c plane) plane (radius.map F64.of)).1) :
    let full := arcFull c (delta.map F64.of) (radius.map F64.of) plane rot ψs ψe
    (full.1 ≠ 0 → 9 / 10000 ≤ (arcArc c (radius.map F64.of) plane rot ψs ψe /ₚ full).1) ∧
    (((delta.map F64.of).get (axis3 plane)).1 ≠ 0 → full.1 ≠ 0 →
      9 / 10000 ≤ (PyNum.abs ((delta.map F64.of).get (axis3 plane)) /ₚ full).1) ∧
    ((delta.map F64.of).e.1 ≠ 0 → full.1 ≠ 0 →
      9 / 10000 ≤ (PyNum.abs (delta.map F64.of).e /ₚ full).1) := by
  have zero : ∀ {x : ℝ}, fl x ≠ 0 → x ≠ 0 := fun hx h0 => hx (by rw [h0, fl_zero])
  by_cases hflat : delta.get (axis3 plane) = 0 ∧ delta.e = 0
  · have z3 : ((delta.map F64.of).get (axis3 plane)).1 = 0 := by
      rw [get_map64, hflat.1]; exact fl_zero
    have zE : (delta.map F64.of).e.1 = 0 := by
      change fl delta.e = 0
      rw [hflat.2, fl_zero]
    generalize delta.map F64.of = dl at *
    generalize radius.map F64.of = rd at *
    have hfull : (arcFull c dl rd plane rot ψs ψe).1 = (arcArc c rd plane rot ψs ψe).1 := by
      have h0 : 0 ≤ (arcArc c rd plane rot ψs ψe).1 := by
        unfold arcArc
        rw [val_mul, val_abs]
        exact fl_nonneg (mul_nonneg (abs_nonneg _) hradpos.le)
      unfold arcFull
      rw [planeAxes_eq]
      simp only
      rw [val_sqrt, val_add, val_add, val_mul, val_mul, val_mul, z3, zE, mul_zero, fl_zero, add_zero,
        fl_idem, add_zero, fl_idem, fl_sqrt_sq (arcArc c rd plane rot ψs ψe).2, abs_of_nonneg h0]
    refine ⟨fun hne => ?_, fun hne => absurd z3 hne, fun hne => absurd zE hne⟩
    rw [val_div, hfull, div_self (by rwa [hfull] at hne), fl_one]; norm_num
  · obtain ⟨s1, s2, s3⟩ := h.shares hfp hord hflat (hbal.resolve_left hflat) as ae
    refine ⟨fun _ => s1, fun hne _ => s2 (zero ?_), fun hne _ => s3 (zero hne)⟩
    rwa [get_map64] at hne

/-- The constructor succeeds. -/
theorem Pts64.make (h : Pts64 c delta radius plane rot g φs φe p R A B EA EB) (hc : SaneCfg c)
    (hfp : fl p = p) (hord : OrdinaryArc c delta radius plane v)
    (hbal : (delta.get (axis3 plane) = 0 ∧ delta.e = 0) ∨ Balanced plane delta radius) :
    ∃ g' ψs ψe, CircGen.new c (delta.map F64.of) (radius.map F64.of) plane rot (F64.of v) = .ok g' ∧
      NewFacts c (delta.map F64.of) (radius.map F64.of) plane rot g' ψs ψe ∧
      0 ≤ ψs.1 ∧ ψs.1 ≤ 2 * fl Real.pi ∧ startDirs rot ψs = startDirs rot φs ∧
      (∀ a b d e f g h i,
        arcIterations rot ψs ψe a b d e f g h i = arcIterations rot φs φe a b d e f g h i) ∧
      0 ≤ g'.rDivV.1 ∧ 0 ≤ g'.deltaAngle.1 ∧ 0 ≤ ((Gen.circular g').twoVmaxPerA c).1 ∧
      0 ≤ g'.accT.1 ∧ (0 < g'.it3.1 → 0 < g'.vel3.1) ∧ (0 < g'.itE.1 → 0 < g'.velE.1) := by
  obtain ⟨ψs, ψe, as, ae, s0, s1, sd, iters⟩ := h.angles
  have hv1 : 1 ≤ (F64.of v).1 := by
    change 1 ≤ fl v
    rw [← fl_one]; exact fl_mono hord.feed
  have hR0 : (0 : ℝ) < R := by exact_mod_cast h.pos
  have hradpos : 0 < (arcRad (arcMpm c plane) plane (radius.map F64.of)).1 := by
    rw [h.mpm, (h.rad hfp).1, (h.rad hfp).2]
    exact fl_pos (div_pos hR0 h.p_pos)
  obtain ⟨cA, c3, cE⟩ := h.conds hfp hord hbal as ae hradpos
  have hend := h.endOk hfp
  generalize delta.map F64.of = dl at *
  generalize radius.map F64.of = rd at *
  obtain ⟨maxV, q, mV, aT, lT, t1, t2, t3, t4, t5, t6, t7, t8⟩ :=
    times64 (φs := ψs) (φe := ψe) (rot := rot) hc hv1 hradpos cA c3 cE
  have hf' := mk_facts (c := c) (rot := rot) as ae hend (planeAxes plane maxV).2.2 maxV.e q mV aT lT
  refine ⟨_, ψs, ψe, ?_, hf', s0, s1, sd, iters, t4, ?_, ?_, t5, ?_, ?_⟩
  · rw [new_eq, hend]
    simp only [Bool.not_true, Bool.false_eq_true, if_false, as, ae, Except.bind, t1, t2]
    exact t3
  · change 0 ≤ (PyNum.abs (arcTurn rot ψs ψe)).1
    rw [val_abs]; exact abs_nonneg _
  · unfold Gen.twoVmaxPerA
    have ha : (1 : ℝ) ≤ c.accel := by exact_mod_cast hc.accel
    have h2 : 0 ≤ fl ((2 : ℚ) : ℝ) := fl_nonneg (by norm_num)
    exact fl_nonneg (div_nonneg (fl_nonneg (mul_nonneg h2 t6)) (fl_nonneg (by linarith)))
  · rw [hf'.it3, planeAxes_eq, val_mul, val_abs]
    intro hx
    refine t7 fun h0 => ?_
    simp only [h0, abs_zero, zero_mul, fl_zero, lt_irrefl] at hx
  · rw [hf'.itE, val_mul, val_abs]
    intro hx
    refine t8 fun h0 => ?_
    simp only [h0, abs_zero, zero_mul, fl_zero, lt_irrefl] at hx

/-- The constructor in binary64 and in exact arithmetic. -/
theorem arc64_new (hc : SaneCfg c) (h : OrdinaryArc c delta radius plane v)
    (hpq : c.ppm.get (axisA plane) = c.ppm.get (axisB plane))
    (hfp : fl (c.ppm.get (axisA plane)) = c.ppm.get (axisA plane))
    (hsz : startDist plane radius * c.ppm.get (axisA plane) ≤ 10000)
    (hbal : (delta.get (axis3 plane) = 0 ∧ delta.e = 0) ∨ Balanced plane delta radius)
    (hR : Survives (c.ppm.get (axisA plane))
      (PyRound.rnd (startDist plane radius * c.ppm.get (axisA plane)))) (rot : Rot) :
    ∃ g g', CircGen.new c delta radius plane rot v = .ok g ∧
      CircGen.new c (delta.map F64.of) (radius.map F64.of) plane rot (F64.of v) = .ok g' ∧
      SameInts g g' ∧ CircGood64 c g' ∧
      g'.startAP = PyNum.truncI (PyNum.neg (F64.of (radius.get (axisA plane))) *ₚ
        PyNum.ofRat (c.ppm.get (axisA plane))) ∧
      g'.startBP = PyNum.truncI (PyNum.neg (F64.of (radius.get (axisB plane))) *ₚ
        PyNum.ofRat (c.ppm.get (axisB plane))) ∧
      g'.it3 = PyNum.abs (F64.of (delta.get (axis3 plane))) *ₚ
        PyNum.ofRat (c.ppm.get (axis3 plane)) ∧
      g'.itE = PyNum.abs (F64.of delta.e) *ₚ PyNum.ofRat c.ppm.e ∧
      g'.dir3 = sign1 (F64.of (delta.get (axis3 plane))) ∧ g'.dirE = sign1 (F64.of delta.e) := by
  obtain ⟨g, φs, φe, R, A, B, EA, EB, hnew, hq1, hp⟩ := pts64 hc h hpq hsz rot
  rw [hq1] at hR
  clear hq1 hsz
  obtain ⟨_, R', RB', A', B', EA', EB', hi', e1, e2, e3, e4, _, _, _, _, -, oA, oB, b1, b2, -, -⟩ :=
    arc_gen h.grid hnew
  rw [hp.radA] at e1
  rw [hp.radB] at e2
  rw [← e1] at b1
  rw [← e2] at b2
  clear hi' e3 e4 e1 e2
  obtain ⟨g', ψs, ψe, hnew', hf', s0, s1, sd, iters, t1, t2, t3, t4, i3, iE⟩ :=
    hp.make hc hfp h hbal
  refine ⟨g, g', hnew, hnew', ?_⟩
  clear hnew hnew' h
  have hf := hp.facts
  have hin := hp.inside hfp
  obtain ⟨k1, k2, k3, k4, k5, k6, k7⟩ := hp.counts hfp
  obtain ⟨xSA, xSB, xEA, xEB⟩ := axes64 plane delta radius
  have hmpm := hp.mpm
  have hrad := hp.rad hfp
  have hP := hp.p_pos
  have hR0 : (0 : ℝ) < R := by exact_mod_cast hp.pos
  have hsurv := (trunc_survives (x := R / c.ppm.get (axisA plane)) (n := R) hP hfp
    (div_mul_cancel₀ _ hP.ne') (by rw [abs_of_pos hR0]; exact hp.le) hR).1
  rw [← hrad.2, ← hrad.1] at hsurv
  have hits' := hf'.its
  rw [hmpm, planeAxes_eq] at hits'
  simp only [← hpq] at hits'
  rw [k1, k2, k3, k4, k5, k6, k7, iters] at hits'
  have hit : (g'.itA, g'.itB) = (g.itA, g.itB) := hits'.trans hp.its.symm
  have hdirs : (g'.dirA, g'.dirB) = (g.dirA, g.dirB) := by rw [hf'.dirs, hf.dirs, sd]
  have hradA : g'.radiusAP = R := by
    rw [hf'.radA, hmpm, planeAxes_eq]; exact hsurv
  have hradB : g'.radiusBP = R := by
    rw [hf'.radB, hmpm, planeAxes_eq]
    simp only [← hpq]
    exact hsurv
  have hsame : SameInts g g' := ⟨by rw [hf'.plane_eq, hf.plane_eq], by rw [hradA, hp.radA],
    by rw [hradB, hp.radB], congrArg Prod.fst hdirs, congrArg Prod.snd hdirs,
    congrArg Prod.fst hit, congrArg Prod.snd hit⟩
  have stA : g'.startAP = PyNum.truncI (PyNum.neg (F64.of (radius.get (axisA plane))) *ₚ
      PyNum.ofRat (c.ppm.get (axisA plane))) := by
    rw [hf'.startA, xSA, planeAxes_eq]
  have stB : g'.startBP = PyNum.truncI (PyNum.neg (F64.of (radius.get (axisB plane))) *ₚ
      PyNum.ofRat (c.ppm.get (axisB plane))) := by
    rw [hf'.startB, xSB, planeAxes_eq]
  have inA := hin.1
  have inB := hin.2
  rw [← stA] at inA
  rw [hpq, ← stB] at inB
  have hpl : g'.plane = plane := hf'.plane_eq
  have rad2 : ∀ r : ℚ, r = c.ppm.get (axisA plane) → (arcRad r plane (radius.map F64.of) *ₚ
      arcRad r plane (radius.map F64.of)).1 = fl (fl (fl R / fl r) * fl (fl R / fl r)) := by
    rintro r rfl
    rw [val_mul, hrad.1, val_div, val_ofInt, val_ofRat]
  refine ⟨hsame, ⟨hc.ppm_pos, t1, by rw [hf'.angStart]; exact ⟨s0, s1⟩, t2, i3, iE, t3, t4,
    ⟨R, hp.pos, ?_, ?_⟩, ⟨R, hp.pos, ?_, ?_⟩⟩, stA, stB, ?_, hf'.itE, ?_, hf'.dirE⟩
  · rw [hf'.rad2A, hpl, planeAxes_eq]; exact rad2 _ rfl
  · rw [hradA]
    exact helper_inside inA hp.pos (by rw [hsame.dirA]; exact oA) (by rw [hsame.itA]; exact b1)
  · rw [hf'.rad2B, hpl, planeAxes_eq]; exact rad2 _ hpq.symm
  · rw [hradB]
    exact helper_inside inB hp.pos (by rw [hsame.dirB]; exact oB) (by rw [hsame.itB]; exact b2)
  · rw [hf'.it3, planeAxes_eq, planeAxes_eq]; simp only [get_map64]
  · rw [hf'.dir3, planeAxes_eq]; simp only [get_map64]

end PyCNC
