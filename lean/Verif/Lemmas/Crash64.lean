import Verif.Lemmas.Circle64
import Verif.Lemmas.Radius64

/-!
# A full circle that raises `math domain error` in binary64

The same truncation as in `Verif.Lemmas.Circle64`: the circle turns at 28 steps, its length is that
of 29 steps, so the last pulses of an axis lie outside of the circle.
-/

set_option linter.unusedSectionVars false

namespace PyCNC

open Spec

variable [PyRound]

namespace Crash

open _root_.PyCNC.Small

noncomputable def X : F64 := F64.of (27 / 100)
noncomputable def Y : F64 := F64.of (10 / 100)
noncomputable def R0 : F64 := PyNum.sqrt (PyNum.neg X *ₚ PyNum.neg X +ₚ PyNum.neg Y *ₚ PyNum.neg Y)

theorem x_near : 26999 / 100000 ≤ X.1 ∧ X.1 ≤ 27001 / 100000 := by
  have h1 := fl_lo (x := 27 / 100) (by norm_num)
  have h2 := fl_hi (x := 27 / 100) (by norm_num)
  change _ ≤ fl (27 / 100) ∧ fl (27 / 100) ≤ _
  norm_num at h1 h2 ⊢
  constructor <;> linarith

theorem y_near : 9999 / 100000 ≤ Y.1 ∧ Y.1 ≤ 10001 / 100000 := by
  have h1 := fl_lo (x := 10 / 100) (by norm_num)
  have h2 := fl_hi (x := 10 / 100) (by norm_num)
  change _ ≤ fl (10 / 100) ∧ fl (10 / 100) ≤ _
  norm_num at h1 h2 ⊢
  constructor <;> linarith

theorem x_val : fl (27 / 100) = 4863887597560136 * 2 ^ (-54 : ℤ) := by
  have := fl_val (x := 27 / 100) (k := -54) (m := 4863887597560136)
    (by rw [abs_of_pos (by norm_num)]; norm_num) (by rw [abs_of_pos (by norm_num)]; norm_num)
    (by rw [abs_lt]; constructor <;> norm_num)
  rw [this]; norm_num

/-- The start of the circle on X in pulses. -/
theorem start_x : PyNum.truncI (PyNum.neg X *ₚ H) = -27 := by
  have e : (PyNum.neg X *ₚ H).1 = -fl (fl (27 / 100) * 100) := by
    rw [val_mul, val_neg, h1, neg_mul, fl_neg]; rfl
  have h : 27 ≤ fl (fl (27 / 100) * 100) ∧ fl (fl (27 / 100) * 100) < 28 := by
    constructor
    · have e27 : fl 27 = 27 := by
        have := fl_int 27 (by norm_num)
        simpa using this
      refine le_fl_of_le e27 ?_
      rw [x_val]; norm_num
    · have := fl_hi (x := fl (27 / 100) * 100) (by rw [x_val]; norm_num)
      rw [x_val] at this ⊢
      norm_num at this ⊢
      linarith
  change (if 0 ≤ (PyNum.neg X *ₚ H).1 then ⌊(PyNum.neg X *ₚ H).1⌋ else ⌈(PyNum.neg X *ₚ H).1⌉) = -27
  rw [e, if_neg (by linarith), Int.ceil_eq_iff]
  push_cast
  constructor <;> linarith

theorem r0_near : 287 / 1000 ≤ R0.1 ∧ R0.1 ≤ 289 / 1000 := by
  obtain ⟨x1, x2⟩ := x_near
  obtain ⟨y1, y2⟩ := y_near
  have e : R0.1 = fl √(fl (fl (X.1 * X.1) + fl (Y.1 * Y.1))) := by
    unfold R0
    rw [val_sqrt, val_add, val_mul, val_mul, val_neg, val_neg, neg_mul_neg, neg_mul_neg]
  rw [e]
  have qx := mul_self_nonneg X.1
  have qy := mul_self_nonneg Y.1
  have a1 := fl_lo qx
  have a2 := fl_hi qx
  have b1 := fl_lo qy
  have b2 := fl_hi qy
  have c0 : 0 ≤ fl (X.1 * X.1) + fl (Y.1 * Y.1) := add_nonneg (fl_nonneg qx) (fl_nonneg qy)
  have c1 := fl_lo c0
  have c2 := fl_hi c0
  have d1 : 26999 / 100000 * (26999 / 100000) ≤ X.1 * X.1 := mul_self_le_mul_self (by norm_num) x1
  have d2 : X.1 * X.1 ≤ 27001 / 100000 * (27001 / 100000) := mul_self_le_mul_self (by linarith) x2
  have d3 : 9999 / 100000 * (9999 / 100000) ≤ Y.1 * Y.1 := mul_self_le_mul_self (by norm_num) y1
  have d4 : Y.1 * Y.1 ≤ 10001 / 100000 * (10001 / 100000) := mul_self_le_mul_self (by linarith) y2
  set t := fl (fl (X.1 * X.1) + fl (Y.1 * Y.1))
  have t1 : (2875 / 10000) ^ 2 ≤ t := by norm_num at *; linarith
  have t2 : t ≤ (2885 / 10000) ^ 2 := by norm_num at *; linarith
  have s1 : 2875 / 10000 ≤ √t := Real.le_sqrt_of_sq_le t1
  have s2 : √t ≤ 2885 / 10000 := Real.sqrt_le_iff.2 ⟨by norm_num, t2⟩
  have f1 := fl_lo (Real.sqrt_nonneg t)
  have f2 := fl_hi (Real.sqrt_nonneg t)
  constructor
  · norm_num at *; linarith
  · norm_num at *; linarith

theorem count : PyNum.roundI (R0 *ₚ H) = 29 := by
  obtain ⟨r1, r2⟩ := r0_near
  change PyRound.rnd (fl (R0.1 * H.1)) = 29
  rw [h1]
  apply rnd_unique
  have f1 := fl_lo (x := R0.1 * 100) (by linarith)
  have f2 := fl_hi (x := R0.1 * 100) (by linarith)
  rw [abs_lt]
  push_cast
  constructor
  · norm_num at *; linarith
  · norm_num at *; linarith

theorem pi_near : 3139 / 1000 ≤ fl Real.pi ∧ fl Real.pi ≤ 3151 / 1000 := by
  have a := Real.pi_gt_d2
  have b := Real.pi_lt_d2
  have f1 := fl_lo Real.pi_pos.le
  have f2 := fl_hi Real.pi_pos.le
  norm_num at *
  constructor <;> linarith

/-- The start of the circle lies in the third quarter. -/
theorem ang : ∃ φ : F64, angle (PyNum.neg X) (PyNum.neg Y) = .ok φ ∧
    407 / 100 ≤ φ.1 ∧ φ.1 ≤ 451 / 100 := by
  obtain ⟨r1, r2⟩ := r0_near
  obtain ⟨x1, x2⟩ := x_near
  obtain ⟨y1, y2⟩ := y_near
  obtain ⟨p1, p2⟩ := pi_near
  unfold angle
  change ∃ φ, (pdiv (PyNum.neg Y) R0 >>= _) = _ ∧ _
  have h0 : R0.1 ≠ 0 := by linarith
  rw [pdiv64_ok h0]
  set q : F64 := PyNum.neg Y /ₚ R0 with hq
  have hq1 : q.1 = -fl (Y.1 / R0.1) := by rw [hq, val_div, val_neg, neg_div, fl_neg]
  have hr : 0 < R0.1 := by linarith
  have d1 : 34 / 100 ≤ Y.1 / R0.1 := by rw [le_div_iff₀ hr]; linarith
  have d2 : Y.1 / R0.1 ≤ 35 / 100 := by rw [div_le_iff₀ hr]; linarith
  have f1 := fl_lo (x := Y.1 / R0.1) (by linarith)
  have f2 := fl_hi (x := Y.1 / R0.1) (by linarith)
  have q1 : -(1 / 2) ≤ q.1 := by rw [hq1]; norm_num at *; linarith
  have q2 : q.1 ≤ -(1 / 4) := by rw [hq1]; norm_num at *; linarith
  change ∃ φ, (pacos q >>= _) = _ ∧ _
  rw [pacos64_ok (abs_le.2 ⟨by linarith, by linarith⟩)]
  have hneg : (PyNum.neg X <ₚ zeroF) = true := (lt64_iff _ _).2 (by rw [val_neg, val_zero]; linarith)
  refine ⟨_, rfl, ?_⟩
  rw [if_pos hneg, val_sub, two_pi64, val_acos]
  have a1 : 180 / 100 ≤ Real.arccos q.1 := by
    have hpi := Real.pi_gt_d2
    have hpi2 := Real.pi_lt_d2
    have e : Real.cos (Real.pi / 2 + 1 / 4) = -Real.sin (1 / 4) := by
      rw [add_comm, Real.cos_add_pi_div_two]
    have hs : Real.sin (1 / 4) ≤ 1 / 4 := Real.sin_le (by norm_num)
    have h2 : Real.pi / 2 + 1 / 4 ≤ Real.arccos q.1 := by
      rw [← Real.arccos_cos (x := Real.pi / 2 + 1 / 4) (by linarith) (by norm_num at *; linarith)]
      apply Real.arccos_le_arccos
      rw [e]; linarith
    norm_num at *
    linarith
  have a2 : Real.arccos q.1 ≤ 211 / 100 := by
    have hpi2 := Real.pi_lt_d2
    have e : Real.cos (2 * Real.pi / 3) = -(1 / 2) := by
      rw [show 2 * Real.pi / 3 = Real.pi - Real.pi / 3 by ring, Real.cos_pi_sub, Real.cos_pi_div_three]
    have h2 : Real.arccos q.1 ≤ 2 * Real.pi / 3 := by
      rw [← Real.arccos_cos (x := 2 * Real.pi / 3) (by positivity) (by linarith [Real.pi_pos])]
      apply Real.arccos_le_arccos
      rw [e]; exact q1
    norm_num at *
    linarith
  have g1 := fl_lo (x := Real.arccos q.1) (by linarith)
  have g2 := fl_hi (x := Real.arccos q.1) (by linarith)
  set w := fl (Real.arccos q.1)
  have k1 := fl_lo (x := 2 * fl Real.pi - w) (by norm_num at *; linarith)
  have k2 := fl_hi (x := 2 * fl Real.pi - w) (by norm_num at *; linarith)
  constructor
  · norm_num at *; linarith
  · norm_num at *; linarith

theorem trunc_of {x : F64} {k : ℤ} (hk : 0 ≤ k) (h1 : (k : ℝ) ≤ x.1) (h2 : x.1 < k + 1) :
    PyNum.truncI x = k := by
  have : (0 : ℝ) ≤ k := by exact_mod_cast hk
  change (if 0 ≤ x.1 then ⌊x.1⌋ else ⌈x.1⌉) = k
  rw [if_pos (by linarith), Int.floor_eq_iff]
  exact ⟨h1, h2⟩

theorem dirs' {φ : F64} (h1 : 407 / 100 ≤ φ.1) (h2 : φ.1 ≤ 451 / 100) :
    startDirs .cw φ = (-1, 1) := by
  obtain ⟨p1, p2⟩ := pi_near
  have e2 : fl ((2 : ℚ) : ℝ) = 2 := by
    have := fl_int 2 (by norm_num)
    simpa using this
  have e3 : fl ((3 : ℚ) : ℝ) = 3 := by
    have := fl_int 3 (by norm_num)
    simpa using this
  unfold startDirs
  simp only
  have a1 : ((PyNum.pi : F64) /ₚ PyNum.ofRat 2 ≤ₚ φ) = true := by
    rw [le64_iff, half_val]; linarith
  have a2 : (φ <ₚ PyNum.ofRat 3 *ₚ (PyNum.pi : F64) /ₚ PyNum.ofRat 2) = true := by
    rw [lt64_iff, val_div, val_mul, val_ofRat, val_ofRat, e2, e3, val_pi]
    have f1 := fl_lo (x := 3 * fl Real.pi) (by linarith)
    have f2 := fl_lo (x := fl (3 * fl Real.pi) / 2) (by norm_num at *; linarith)
    norm_num at *
    linarith
  have a3 : ((PyNum.pi : F64) ≤ₚ φ) = true := by
    rw [le64_iff, val_pi]; linarith
  rw [a1, a2, a3]
  rfl

theorem its' {φ : F64} (h1 : 407 / 100 ≤ φ.1) (h2 : φ.1 ≤ 451 / 100) (a b c d e f : ℤ) :
    arcIterations .cw φ φ 29 29 a b c d e f = (116, 116) := by
  obtain ⟨p1, p2⟩ := pi_near
  unfold arcIterations
  simp only
  have h0 : (φ ≤ₚ φ) = true := (le64_iff _ _).2 le_rfl
  have hp : 0 < fl Real.pi / 2 := by linarith
  have q1 : PyNum.truncI (φ /ₚ ((PyNum.pi : F64) /ₚ PyNum.ofRat 2)) = 2 := by
    have d1 : 25 / 10 ≤ φ.1 / (fl Real.pi / 2) := by rw [le_div_iff₀ hp]; linarith
    have d2 : φ.1 / (fl Real.pi / 2) ≤ 29 / 10 := by rw [div_le_iff₀ hp]; linarith
    have f1 := fl_lo (x := φ.1 / (fl Real.pi / 2)) (by linarith)
    have f2 := fl_hi (x := φ.1 / (fl Real.pi / 2)) (by linarith)
    apply trunc_of (by norm_num)
    · rw [val_div, half_val]; push_cast; norm_num at *; linarith
    · rw [val_div, half_val]; push_cast; norm_num at *; linarith
  have q2 : PyNum.truncI ((φ +ₚ PyNum.ofRat 2 *ₚ PyNum.pi) /ₚ ((PyNum.pi : F64) /ₚ PyNum.ofRat 2)) = 6 := by
    have g1 := fl_lo (x := φ.1 + 2 * fl Real.pi) (by linarith)
    have g2 := fl_hi (x := φ.1 + 2 * fl Real.pi) (by linarith)
    have e : (φ +ₚ PyNum.ofRat 2 *ₚ PyNum.pi : F64).1 = fl (φ.1 + 2 * fl Real.pi) := by
      rw [val_add, two_pi64]
    set s := fl (φ.1 + 2 * fl Real.pi)
    have d1 : 65 / 10 ≤ s / (fl Real.pi / 2) := by
      rw [le_div_iff₀ hp]; norm_num at *; linarith
    have d2 : s / (fl Real.pi / 2) ≤ 69 / 10 := by
      rw [div_le_iff₀ hp]; norm_num at *; linarith
    have f1 := fl_lo (x := s / (fl Real.pi / 2)) (by linarith)
    have f2 := fl_hi (x := s / (fl Real.pi / 2)) (by linarith)
    apply trunc_of (by norm_num)
    · rw [val_div, half_val, e]; push_cast; norm_num at *; linarith
    · rw [val_div, half_val, e]; push_cast; norm_num at *; linarith
  rw [if_pos h0, q1, q2, if_pos (by norm_num)]
  norm_num

/-- The generator of the circle. -/
theorem new_ok' : ∃ g : CircGen F64,
    CircGen.new Cfg.default ⟨Z, Z, Z, Z⟩ ⟨X, Y, Z, Z⟩ .xy .cw (F64.of 600) = .ok g ∧
    g.plane = .xy ∧ g.radiusAP = 28 ∧ g.startAP = -27 ∧ g.dirA = -1 ∧ g.itA = 116 ∧
    g.it3 = Z ∧ g.itE = Z ∧ g.radiusA2 = R *ₚ R := by
  obtain ⟨φ, hφ, h1, h2⟩ := ang
  unfold CircGen.new
  simp only [planeAxes, show Cfg.default.ppm = ⟨100, 100, 400, 150⟩ from rfl,
    show Cfg.default.accel = 3000 from rfl, lt_irrefl, if_false]
  simp only [vel_ten, ofRat_h, zeroF_z, add_z, mul_z,
    show PyNum.sqrt (PyNum.neg X *ₚ PyNum.neg X +ₚ PyNum.neg Y *ₚ PyNum.neg Y) = R0 from rfl]
  simp only [count, rad_r, show R *ₚ H = T from rfl, round_t, trunc_t, start_x, hφ, abs_z, sub_self']
  simp only [eq_self64, Bool.not_true, Bool.false_eq_true, if_false, bind, Except.bind, pure,
    Except.pure, sub_self', lt_irrefl64, Bool.false_or, decide_true, Bool.and_true, if_true, z_add,
    reduceCtorEq, dirs' h1 h2, its' h1 h2, show (PyNum.ofRat 2 *ₚ PyNum.pi : F64) = P2 from rfl,
    abs_p2, show P2 *ₚ R = A from rfl, sqrt_sq' (zero_le_one.trans a_ge), z_mul,
    ne_z (zero_lt_one.trans_le a_ge), z_div, z_mul, div_self' (zero_lt_one.trans_le a_ge).ne',
    one_mul', planeVel, Coord.new, round10_ten, round10_z, adjust_ten, pmin_self, max_ten]
  simp only [show Ten /ₚ PyNum.ofRat 3000 = AT from rfl, long, Bool.false_eq_true, if_false, add_z,
    sqrt_sq' (show 0 ≤ Ten.1 by rw [ten1]; norm_num), pdiv64_ok (show Ten.1 ≠ 0 by rw [ten1]; norm_num)]
  exact ⟨_, rfl, rfl, rfl, rfl, rfl, rfl, rfl, rfl, rfl⟩

/-- The 115th pulse of X lies outside of the circle. -/
theorem outside {g : CircGen F64} (hr : g.radiusAP = 28) (hs : g.startAP = -27)
    (hd : g.dirA = -1) (hi : g.itA = 116) (h2 : g.radiusA2 = R *ₚ R) :
    ∃ e, g.circularA 114 100 = .error e := by
  unfold CircGen.circularA
  rw [hr, hs, hd, hi, h2]
  have hh : ∀ side, (circularHelper (-27) (((114 : ℕ) : ℤ) + 1) 28 side (-1)).1 = -30 := by decide
  rw [if_neg (by norm_num)]
  rcases hc : circularHelper (-27) (((114 : ℕ) : ℤ) + 1) 28 g.sideA (-1) with ⟨ap, dir, side⟩
  have := hh g.sideA
  rw [hc] at this
  change ap = -30 at this
  subst this
  simp only
  rw [if_neg (by norm_num), ofRat_h]
  have e1 : ((ofInt (-30) : F64) /ₚ H).1 ≤ -(299 / 1000) := by
    rw [val_div, val_ofInt, fl_int _ (by norm_num), h1]
    have := fl_lo (x := 30 / 100) (by norm_num)
    rw [show (((-30 : ℤ) : ℝ) / 100) = -(30 / 100) by norm_num, fl_neg]
    norm_num at *
    linarith
  have hneg : ((R *ₚ R) -ₚ ((ofInt (-30) : F64) /ₚ H) *ₚ ((ofInt (-30) : F64) /ₚ H)).1 < 0 := by
    generalize (ofInt (-30) : F64) /ₚ H = a at e1
    rw [val_sub, val_mul, val_mul]
    have a1 : 299 / 1000 * (299 / 1000) ≤ a.1 * a.1 := by nlinarith
    have a2 := fl_lo (mul_self_nonneg a.1)
    have b1 := fl_hi (mul_self_nonneg R.1)
    have hR : R.1 * R.1 ≤ 29 / 100 * (29 / 100) + 1 / 10000 := by
      rw [r1, r_val]; norm_num
    have : fl (R.1 * R.1) - fl (a.1 * a.1) ≤ -(1 / 1000) := by norm_num at *; linarith
    have k : fl (fl (R.1 * R.1) - fl (a.1 * a.1)) = -fl (-(fl (R.1 * R.1) - fl (a.1 * a.1))) := by
      rw [← fl_neg, neg_neg]
    rw [k]
    have := fl_pos (x := -(fl (R.1 * R.1) - fl (a.1 * a.1))) (by linarith)
    linarith
  refine ⟨.value, ?_⟩
  have hp : psqrt ((R *ₚ R) -ₚ ((ofInt (-30) : F64) /ₚ H) *ₚ ((ofInt (-30) : F64) /ₚ H)) =
      .error (.value) := by
    unfold psqrt
    have hlt := (lt64_iff _ zeroF).2 (hneg.trans_eq val_zero.symm)
    exact if_pos hlt
  rw [hp]
  rfl

/-- A generator that raises at one pulse of X never gets beyond it. -/
theorem stuck {c : Cfg} {g : CircGen F64} {i : Nat} {e : PyErr} (hp : g.plane = .xy)
    (h : g.circularA i c.ppm.x = .error e) (hi : (i : ℤ) < g.itA) (n : Nat) (s : GenState)
    (hs : s.it.x ≤ i) : ((Gen.circular g).run c n s).2 ≠ .done := by
  induction n generalizing s with
  | zero => intro hd; cases hd
  | succ n ih =>
    rcases run_succ c (.circular g) n s with ⟨e, _, h1⟩ | ⟨hn, _⟩ | ⟨ev, s', hn, h1⟩
    · rw [h1]; intro hd; cases hd
    · exfalso
      rcases next_cases c (.circular g) s with ⟨e, _, h2⟩ | ⟨d, t, hi2, h2⟩
      · rw [hn] at h2; cases h2
      have hf := (circ_planned c g s.it d t hi2 .x).2
      rcases h2 with ⟨_, h3⟩ | ⟨_, hm, _⟩ | ⟨m, _, _, ⟨e, _, h3⟩ | ⟨am, _, h3⟩⟩
      · rw [hn] at h3; cases h3
      · rw [minTime_none hm .x] at hf
        simp only [CircGen.firesAt, hp, axisA, if_true, Option.isSome_none] at hf
        have := of_decide_eq_false hf.symm
        apply this
        change ((s.it.x : ℕ) : ℤ) < _
        omega
      · rw [hn] at h3; cases h3
      · rw [hn] at h3; cases h3
    · rw [h1]
      refine ih s' ?_
      rcases next_cases c (.circular g) s with ⟨e, _, h2⟩ | ⟨d, t, hi2, h2⟩
      · rw [hn] at h2; cases h2
      have hx : s.it.x ≠ i := by
        intro hx
        have h4 := circ_interp.1 hi2 .x
        unfold CircGen.axisAt at h4
        rw [hp] at h4
        simp only [axisA, if_true] at h4
        change g.circularA s.it.x c.ppm.x = _ at h4
        rw [hx, h] at h4
        cases h4
      rcases h2 with ⟨_, h3⟩ | ⟨_, _, h3⟩ | ⟨m, _, _, ⟨e, _, h3⟩ | ⟨am, _, h3⟩⟩
      · rw [hn] at h3; cases h3; exact hs
      · rw [hn] at h3; cases h3
      · rw [hn] at h3; cases h3
      · rw [hn] at h3
        cases h3
        change (fireAxis t.x m am s.it.x).2 ≤ i
        unfold fireAxis
        split
        · exact hs
        · split
          · exact hs
          · change s.it.x + 1 ≤ i; omega

/-- Iterating the generator raises an exception. -/
theorem raises : ∃ g : CircGen F64,
    CircGen.new Cfg.default ⟨Z, Z, Z, Z⟩ ⟨X, Y, Z, Z⟩ .xy .cw (F64.of 600) = .ok g ∧
    ∃ N, ∀ n, N ≤ n → ∃ e, ((Gen.circular g).run Cfg.default n .init).2 = .raised e := by
  obtain ⟨g, hg, hp, hr, hs, hd, hi, h3, hE, h2⟩ := new_ok'
  obtain ⟨e, he⟩ := outside hr hs hd hi h2
  refine ⟨g, hg, 2 * leftOf g.totals64 GenState.init + 2, fun n hn => ?_⟩
  have hends := planned_ends (circ_planned Cfg.default g) g.totals64
    (circ64_fires g (by rw [h3, z1]; norm_num) (by rw [hE, z1]; norm_num)) n .init
    (fun ax => by cases ax <;> exact Nat.zero_le _) (by split <;> omega)
  have hnd := stuck (c := Cfg.default) hp he (by rw [hi]; norm_num) n .init (Nat.zero_le _)
  rcases hx : ((Gen.circular g).run Cfg.default n .init).2 with _ | e | _
  · exact absurd hx hnd
  · exact ⟨e, rfl⟩
  · exact absurd hx hends

/-- The arguments as decimal numbers. -/
theorem decimals : dec64 ⟨0, 0, 0, 0⟩ = ⟨Z, Z, Z, Z⟩ ∧
    dec64 ⟨2700000000, 1000000000, 0, 0⟩ = ⟨X, Y, Z, Z⟩ := by
  refine ⟨Small.decimals.1, ?_⟩
  have hz : F64.of (((0 : ℤ) : ℝ) / 10 ^ 10) = Z := ext64 (by
    change fl _ = _
    simp [fl_zero, z1])
  have hx : F64.of (((2700000000 : ℤ) : ℝ) / 10 ^ 10) = X := ext64 (by
    change fl _ = fl _
    norm_num)
  have hy : F64.of (((1000000000 : ℤ) : ℝ) / 10 ^ 10) = Y := ext64 (by
    change fl _ = fl _
    norm_num)
  unfold dec64 V4.map
  simp only [hz, hx, hy]

end Crash

end PyCNC
