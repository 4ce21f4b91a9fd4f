import Verif.Lemmas.ArcNet64
import Verif.Lemmas.ArcWitness

/-!
# An arc that ends two steps away from its end in binary64

Clockwise from (0.57, 0.76) to (0.76, -0.57) around the origin, 100 pulses per mm:
`0.57 * 100` is `56.99999999999999`, which `pulses.py:379` truncates to 56.
-/

set_option linter.unusedSectionVars false

namespace PyCNC

namespace Drift

open Spec

variable [PyRound]

theorem x_val : fl (57 / 100) = 5134103575202365 * 2 ^ (-53 : ℤ) := by
  have := fl_val (x := 57 / 100) (k := -53) (m := 5134103575202365)
    (by rw [abs_of_pos (by norm_num)]; norm_num) (by rw [abs_of_pos (by norm_num)]; norm_num)
    (by rw [abs_lt]; constructor <;> norm_num)
  rw [this]; norm_num

theorem xt_val : fl (fl (57 / 100) * 100) = 8022036836253695 * 2 ^ (-47 : ℤ) := by
  have := fl_val (x := fl (57 / 100) * 100) (k := -47) (m := 8022036836253695)
    (by rw [x_val, abs_of_pos (by norm_num)]; norm_num)
    (by rw [x_val, abs_of_pos (by norm_num)]; norm_num)
    (by rw [x_val, abs_lt]; constructor <;> norm_num)
  rw [this]; norm_num

theorem r_val : fl (95 / 100) = 8556839292003942 * 2 ^ (-53 : ℤ) := by
  have := fl_val (x := 95 / 100) (k := -53) (m := 8556839292003942)
    (by rw [abs_of_pos (by norm_num)]; norm_num) (by rw [abs_of_pos (by norm_num)]; norm_num)
    (by rw [abs_lt]; constructor <;> norm_num)
  rw [this]; norm_num

theorem rt_val : fl (fl (95 / 100) * 100) = 95 := by
  have := fl_val (x := fl (95 / 100) * 100) (k := -46) (m := 6685030696878080)
    (by rw [r_val, abs_of_pos (by norm_num)]; norm_num)
    (by rw [r_val, abs_of_pos (by norm_num)]; norm_num)
    (by rw [r_val, abs_lt]; constructor <;> norm_num)
  rw [this]; norm_num

theorem y_val : fl (76 / 100) = 6845471433603154 * 2 ^ (-53 : ℤ) := by
  have := fl_val (x := 76 / 100) (k := -53) (m := 6845471433603154)
    (by rw [abs_of_pos (by norm_num)]; norm_num) (by rw [abs_of_pos (by norm_num)]; norm_num)
    (by rw [abs_lt]; constructor <;> norm_num)
  rw [this]; norm_num

theorem yt_val : fl (fl (76 / 100) * 100) = 76 := by
  have := fl_val (x := fl (76 / 100) * 100) (k := -46) (m := 5348024557502464)
    (by rw [y_val, abs_of_pos (by norm_num)]; norm_num)
    (by rw [y_val, abs_of_pos (by norm_num)]; norm_num)
    (by rw [y_val, abs_lt]; constructor <;> norm_num)
  rw [this]; norm_num

theorem h95 : √(9025 / 10000 : ℝ) = 95 / 100 := by
  rw [show (9025 / 10000 : ℝ) = (95 / 100) ^ 2 by norm_num]; exact Real.sqrt_sq (by norm_num)

theorem dist : startDist .xy ⟨-(57 / 100), -(76 / 100), 0, 0⟩ = 95 / 100 := by
  simp only [startDist, startA, startB, axisA, axisB, V4.get]
  rw [← h95]; congr 1; norm_num

theorem ordinary : OrdinaryArc Cfg.default ⟨19 / 100, -(133 / 100), 0, 0⟩
    ⟨-(57 / 100), -(76 / 100), 0, 0⟩ .xy 600 := by
  have he : endDist .xy ⟨19 / 100, -(133 / 100), 0, 0⟩ ⟨-(57 / 100), -(76 / 100), 0, 0⟩ = 95 / 100 := by
    simp only [endDist, endA, endB, axisA, axisB, V4.get]
    rw [← h95]; congr 1; norm_num
  refine ⟨⟨?_, ?_, ⟨-57, ?_⟩, ⟨-76, ?_⟩, ⟨19, ?_⟩, ⟨-133, ?_⟩, .inl rfl⟩, ?_, ?_, ?_, ?_, ?_, ?_, ?_,
    .inl ⟨rfl, rfl⟩, ?_⟩
  any_goals first
    | (rw [dist]; norm_num; done)
    | rw [dist, he]
    | simp [axisA, axisB, axis3, V4.get, Cfg.default]

theorem ahead : ¬ BackInQuarter .xy ⟨19 / 100, -(133 / 100), 0, 0⟩
    ⟨-(57 / 100), -(76 / 100), 0, 0⟩ := by
  simp only [BackInQuarter, arcQuarter, startA, startB, endA, endB, axisA, axisB, V4.get]
  norm_num

theorem survives : Survives 100 95 := by
  unfold Survives
  push_cast
  rw [rt_val]

theorem survives_y (n : ℤ) (h : ((-(76 / 100) : ℝ)) * (100 : ℚ) = n) : Survives 100 n := by
  have : n = -76 := by
    have h2 : (n : ℝ) = (-76 : ℤ) := by rw [← h]; norm_num
    exact_mod_cast h2
  subst this
  unfold Survives
  push_cast
  rw [neg_div, fl_neg, neg_mul, fl_neg, yt_val]

set_option maxRecDepth 8000 in
/-- The arc sends X 57 pulses, of which 39 to the right. -/
theorem off : ∃ (g' : CircGen F64) (evs : List (Event F64)),
    CircGen.new Cfg.default ⟨F64.of (19 / 100), F64.of (-(133 / 100)), F64.of 0, F64.of 0⟩
      ⟨F64.of (-(57 / 100)), F64.of (-(76 / 100)), F64.of 0, F64.of 0⟩ .xy .cw (F64.of 600) = .ok g' ∧
    g'.startAP = 56 ∧ Emits Cfg.default (.circular g') evs ∧
    netSteps Cfg.default .x evs = 21 ∧ netSteps Cfg.default .y evs = -133 := by
  have hrnd : PyRound.rnd (startDist .xy ⟨-(57 / 100), -(76 / 100), 0, 0⟩ *
      Cfg.default.ppm.get (axisA .xy)) = 95 := by
    rw [dist]
    have : (95 / 100 : ℝ) * (Cfg.default.ppm.get (axisA .xy) : ℚ) = (95 : ℤ) := by
      simp only [axisA, V4.get, Cfg.default]; norm_num
    rw [this, rnd_int]
  have hfp : fl (Cfg.default.ppm.get (axisA .xy) : ℚ) = (Cfg.default.ppm.get (axisA .xy) : ℚ) := by
    simp only [axisA, V4.get, Cfg.default]
    have := fl_int 100 (by norm_num)
    push_cast at this ⊢
    exact this
  obtain ⟨g, g', hnew, hnew', hs, hgood, sA, sB, i3, iE, d3, dE⟩ := arc64_new sane_cfg ordinary rfl hfp
    (by rw [dist]; simp only [axisA, V4.get, Cfg.default]; norm_num) (.inl ⟨rfl, rfl⟩)
    (by rw [hrnd]; exact survives) .cw
  obtain ⟨φs, φe, hf⟩ := new_facts hnew
  obtain ⟨k3, kE, -⟩ := other64 sane_cfg (by rw [hs.plane, hf.plane_eq]) ordinary.le3 ordinary.leE i3 iE d3 dE
  obtain ⟨evs, he⟩ := circ64_done hgood k3 kE
  obtain ⟨R, RB, A, B, EA, EB, hi, r1, r2, r3, r4, p1, p2, hits, q1, q2, _, _⟩ := arc_ints ordinary.grid hf
  have hR : R = 95 := by rw [← q1, hrnd]
  have hRB : RB = 95 := by rw [← q2]; exact hrnd
  have cast : ∀ {x : ℝ} {n m : ℤ}, x * (Cfg.default.ppm.get .x : ℚ) = n → x * 100 = m → n = m := by
    intro x n m h1 h2
    have : (n : ℝ) = m := by rw [← h1, ← h2]; norm_num [V4.get, Cfg.default]
    exact_mod_cast this
  have hA : A = 57 := cast hi.hA (by simp only [startA, axisA, V4.get]; norm_num)
  have hB : B = 76 := cast hi.hB (by simp only [startB, axisB, V4.get]; norm_num)
  have hEA : EA = 76 := cast hi.hEA (by simp only [endA, axisA, V4.get]; norm_num)
  have hEB : EB = -57 := cast hi.hEB (by simp only [endB, axisB, V4.get]; norm_num)
  have hsa := hf.angS
  have hea := hf.angE
  rw [arcSA_eq, arcSB_eq] at hsa
  rw [arcEA_eq, arcEB_eq] at hea
  obtain ⟨s0, s1, s2, s3, s4⟩ := angle_ok hsa
  obtain ⟨e0, e1, e2, e3, e4⟩ := angle_ok hea
  have Qs : arcQuarter (startA .xy ⟨-(57 / 100), -(76 / 100), 0, 0⟩)
      (startB .xy ⟨-(57 / 100), -(76 / 100), 0, 0⟩) = 0 := by
    simp only [arcQuarter, startA, startB, axisA, axisB, V4.get]; norm_num
  have Qe : arcQuarter (endA .xy ⟨19 / 100, -(133 / 100), 0, 0⟩ ⟨-(57 / 100), -(76 / 100), 0, 0⟩)
      (endB .xy ⟨19 / 100, -(133 / 100), 0, 0⟩ ⟨-(57 / 100), -(76 / 100), 0, 0⟩) = 1 := by
    simp only [arcQuarter, endA, endB, axisA, axisB, V4.get]; norm_num
  obtain ⟨ls, us⟩ := quarter_range s4 s0 s1 s2 s3
  obtain ⟨le, ue⟩ := quarter_range e4 e0 e1 e2 e3
  have hd := hf.dirs
  rw [startDirs_eq s4 s0 s1 s2 s3 hi.hp hi.hq hi.hA hi.hB .cw] at hd
  rw [Qs] at ls us hd
  rw [Qe] at le ue
  have tS := truncI_quarter (q := 0) le_rfl ls us
  have tE := truncI_quarter (q := 1) (by norm_num) le ue
  have hpi := Real.pi_pos
  have hlt : (φe ≤ₚ φs) = false := by
    rw [← Bool.not_eq_true, le_iff]
    push_cast at us le
    intro h
    linarith
  have hval : arcIterations .cw φs φe R RB |A| |B| |EA| |EB| |A - EA| |B - EB| = (57, 133) := by
    unfold arcIterations
    simp only [hlt, Bool.false_eq_true, if_false, tS, tE, hR, hRB, hA, hB, hEA, hEB]
    decide
  rw [hval] at hits
  have iA : g.itA = 57 := congrArg Prod.fst hits
  have iB : g.itB = 133 := congrArg Prod.snd hits
  have dA : g.dirA = 1 := congrArg Prod.fst hd
  have dB : g.dirB = -1 := congrArg Prod.snd hd
  have hpl : g'.plane = .xy := by rw [hs.plane, hf.plane_eq]
  have vA : g'.startAP = 56 := by
    rw [sA]
    have hv : (PyNum.neg (F64.of (-(57 / 100) : ℝ)) *ₚ PyNum.ofRat 100 : F64).1 =
        8022036836253695 * 2 ^ (-47 : ℤ) := by
      rw [← xt_val, val_mul, val_neg, val_ofRat]
      change fl (-fl (-(57 / 100)) * fl ((100 : ℚ) : ℝ)) = _
      have := fl_int 100 (by norm_num)
      push_cast at this ⊢
      rw [fl_neg, neg_neg, this]
    change (if 0 ≤ (PyNum.neg (F64.of (-(57 / 100) : ℝ)) *ₚ PyNum.ofRat 100 : F64).1 then
      ⌊(PyNum.neg (F64.of (-(57 / 100) : ℝ)) *ₚ PyNum.ofRat 100 : F64).1⌋ else
      ⌈(PyNum.neg (F64.of (-(57 / 100) : ℝ)) *ₚ PyNum.ofRat 100 : F64).1⌉) = 56
    rw [hv, if_pos (by norm_num), Int.floor_eq_iff]
    constructor <;> norm_num
  have vB : g'.startBP = 76 := by
    rw [sB]
    refine (trunc_survives (x := -(76 / 100)) (p := 100) (n := -76) (by norm_num) hfp (by norm_num)
      (by norm_num) (survives_y _ (by norm_num))).2
  refine ⟨g', evs, hnew', vA, he, ?_, ?_⟩
  · obtain ⟨N, hN⟩ := he
    have hN := hN N le_rfl
    have t1 := circ_run_a Cfg.default g' N (by rw [hs.radA, r1, vA, hR]; norm_num)
      (by rw [hs.radA, r1, vA, hR]; norm_num) (by rw [hs.dirA]; exact .inl dA)
      (by rw [hs.itA, hs.radA, r1, iA, hR]; norm_num)
    rw [hpl, hN] at t1
    have k1 := t1.2.2 rfl
    have t1 := t1.1
    simp only at k1 t1
    rw [k1, hs.radA, hs.dirA, hs.itA, r1, iA, hR, vA, dA] at t1
    exact t1.trans (by decide)
  · obtain ⟨N, hN⟩ := he
    have hN := hN N le_rfl
    have t1 := circ_run_b Cfg.default g' N (by rw [hs.radB, r2, vB, hRB]; norm_num)
      (by rw [hs.radB, r2, vB, hRB]; norm_num) (by rw [hs.dirB]; exact .inr dB)
      (by rw [hs.itB, hs.radB, r2, iB, hRB]; norm_num)
    rw [hpl, hN] at t1
    have k1 := t1.2.2 rfl
    have t1 := t1.1
    simp only at k1 t1
    rw [k1, hs.radB, hs.dirB, hs.itB, r2, iB, hRB, vB, dB] at t1
    exact t1.trans (by decide)

end Drift

end PyCNC
