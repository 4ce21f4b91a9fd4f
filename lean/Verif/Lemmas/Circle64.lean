import Mathlib.Analysis.Real.Pi.Bounds
import Verif.Lemmas.Linear64

/-!
# A full circle of radius 0.29 mm in binary64

`int(radius * pulses_per_mm)` of `pulses.py:377-380` truncates `28.999999999999996`.
-/

set_option linter.unusedSectionVars false

namespace PyCNC

open Spec

variable [PyRound]

namespace Small

/-- The nearest binary64 number to 0.29. -/
theorem r_val : fl (29 / 100) = 5224175567749775 * 2 ^ (-54 : ℤ) := by
  have := fl_val (x := 29 / 100) (k := -54) (m := 5224175567749775)
    (by rw [abs_of_pos (by norm_num)]; norm_num) (by rw [abs_of_pos (by norm_num)]; norm_num)
    (by rw [abs_lt]; constructor <;> norm_num)
  rw [this]; norm_num

/-- A hundred times that number, rounded. -/
theorem t_val : fl (fl (29 / 100) * 100) = 8162774324609023 * 2 ^ (-48 : ℤ) := by
  have := fl_val (x := fl (29 / 100) * 100) (k := -48) (m := 8162774324609023)
    (by rw [r_val, abs_of_pos (by norm_num)]; norm_num)
    (by rw [r_val, abs_of_pos (by norm_num)]; norm_num)
    (by rw [r_val, abs_lt]; constructor <;> norm_num)
  rw [this]; norm_num

noncomputable def Z : F64 := ⟨0, fl_zero⟩
noncomputable def One : F64 := ⟨1, fl_one⟩
noncomputable def H : F64 := ⟨100, by have := fl_int 100 (by norm_num); simpa using this⟩
noncomputable def Ten : F64 := ⟨10, by have := fl_int 10 (by norm_num); simpa using this⟩
noncomputable def R : F64 := F64.of (29 / 100)
noncomputable def T : F64 := R *ₚ H

theorem z1 : Z.1 = 0 := rfl
theorem one1 : One.1 = 1 := rfl
theorem h1 : H.1 = 100 := rfl
theorem ten1 : Ten.1 = 10 := rfl
theorem r1 : R.1 = fl (29 / 100) := rfl
theorem r_pos : 0 < R.1 := by rw [r1, r_val]; norm_num
theorem t1 : T.1 = 8162774324609023 * 2 ^ (-48 : ℤ) := t_val

theorem round_t : PyNum.roundI T = 29 := by
  change PyRound.rnd T.1 = 29
  apply rnd_unique
  rw [t1, abs_lt]; constructor <;> norm_num

theorem trunc_t : PyNum.truncI T = 28 := by
  change (if 0 ≤ T.1 then ⌊T.1⌋ else ⌈T.1⌉) = 28
  rw [t1, if_pos (by norm_num), Int.floor_eq_iff]
  constructor <;> norm_num

theorem trunc_z : PyNum.truncI Z = 0 := by
  change (if 0 ≤ Z.1 then ⌊Z.1⌋ else ⌈Z.1⌉) = 0
  rw [z1]; simp

theorem neg_z : PyNum.neg Z = Z := ext64 (by rw [val_neg, z1, neg_zero])
theorem abs_z : PyNum.abs Z = Z := ext64 (by rw [val_abs, z1, abs_zero])
theorem add_z (x : F64) : x +ₚ Z = x := ext64 (by rw [val_add, z1, add_zero, x.2])
theorem z_add (x : F64) : Z +ₚ x = x := ext64 (by rw [val_add, z1, zero_add, x.2])
theorem sub_self' (x : F64) : x -ₚ x = Z := ext64 (by rw [val_sub, sub_self, fl_zero, z1])
theorem mul_z (x : F64) : x *ₚ Z = Z := ext64 (by rw [val_mul, z1, mul_zero, fl_zero])
theorem z_mul (x : F64) : Z *ₚ x = Z := ext64 (by rw [val_mul, z1, zero_mul, fl_zero])
theorem z_div (x : F64) : Z /ₚ x = Z := ext64 (by rw [val_div, z1, zero_div, fl_zero])
theorem mul_one' (x : F64) : x *ₚ One = x := ext64 (by rw [val_mul, one1, mul_one, x.2])
theorem one_mul' (x : F64) : One *ₚ x = x := ext64 (by rw [val_mul, one1, one_mul, x.2])
theorem div_self' {x : F64} (h : x.1 ≠ 0) : x /ₚ x = One :=
  ext64 (by rw [val_div, div_self h, fl_one, one1])
theorem sqrt_sq' {x : F64} (h : 0 ≤ x.1) : PyNum.sqrt (x *ₚ x) = x :=
  ext64 (by rw [val_sqrt, val_mul, fl_sqrt_sq x.2, abs_of_nonneg h])
theorem zeroF_z : (zeroF : F64) = Z := ext64 (by rw [val_zero, z1])
theorem ofRat_zero : (PyNum.ofRat 0 : F64) = Z := zeroF_z
theorem ofRat_one : (PyNum.ofRat 1 : F64) = One := ext64 (by rw [val_ofRat]; simp [fl_one, one1])
theorem ofRat_h : (PyNum.ofRat 100 : F64) = H :=
  ext64 (by rw [val_ofRat]; exact_mod_cast H.2)
theorem round10_z : PyNum.round10 Z = Z := ext64 (by rw [r10_zero z1, z1])
theorem round10_ten : PyNum.round10 Ten = Ten := ext64 (by
  have : PyRound.rnd (Ten.1 * E10) = 10 * 10 ^ 10 := by
    have : Ten.1 * E10 = ((10 * 10 ^ 10 : ℤ) : ℝ) := by rw [ten1, E10]; norm_num
    rw [this, rnd_int]
  rw [val_round10, this]
  have e : (((10 * 10 ^ 10 : ℤ)) : ℝ) / E10 = 10 := by rw [E10]; norm_num
  rw [e]; exact Ten.2)

theorem rad_r : (ofInt 29 : F64) /ₚ H = R := ext64 (by
  rw [val_div, val_ofInt, h1, fl_int 29 (by norm_num), r1]
  norm_num)

/-- The angle of the top of the circle is zero. -/
theorem angle_top {x : F64} (h : 0 < x.1) : angle Z x = .ok Z := by
  unfold angle
  rw [mul_z, z_add, sqrt_sq' h.le, pdiv64_ok h.ne', div_self' h.ne']
  change (pacos One >>= _) = _
  rw [pacos64_ok (by rw [one1]; norm_num)]
  have e : PyNum.acos One = Z := ext64 (by rw [val_acos, one1, Real.arccos_one, fl_zero, z1])
  change Except.ok _ = _
  rw [e, if_neg]
  rw [lt64_iff, zeroF_z]
  exact lt_irrefl _

noncomputable def P2 : F64 := PyNum.ofRat 2 *ₚ PyNum.pi

theorem p2_val : P2.1 = 2 * fl Real.pi := two_pi64

theorem pi_pos64 : 0 < (PyNum.pi : F64).1 := fl_pos Real.pi_pos

theorem half_val : ((PyNum.pi : F64) /ₚ PyNum.ofRat 2).1 = fl Real.pi / 2 := by
  rw [val_div, val_ofRat, val_pi]
  have e : fl ((2 : ℚ) : ℝ) = 2 := by
    have := fl_int 2 (by norm_num)
    simpa using this
  rw [e]
  obtain ⟨m, k, hm, h⟩ := fl_form Real.pi
  rw [h, show ((m : ℝ) * 2 ^ k) / 2 = m * 2 ^ (k - 1) by rw [zpow_sub₀ (by norm_num)]; ring]
  exact fl_representable m _ hm

theorem four_quarters : P2 /ₚ ((PyNum.pi : F64) /ₚ PyNum.ofRat 2) = F64.of 4 := by
  refine ext64 ?_
  rw [val_div, p2_val, half_val]
  have : 2 * fl Real.pi / (fl Real.pi / 2) = 4 := by
    have := (fl_pos Real.pi_pos).ne'
    field_simp; norm_num
  rw [this]; rfl

theorem trunc_four : PyNum.truncI (F64.of 4) = 4 := by
  have e : (F64.of 4).1 = 4 := by
    have := fl_int 4 (by norm_num)
    change fl 4 = 4
    simpa using this
  change (if 0 ≤ (F64.of 4).1 then ⌊(F64.of 4).1⌋ else ⌈(F64.of 4).1⌉) = 4
  rw [e, if_pos (by norm_num)]
  norm_num

/-- Four quarters of 29 pulses each. -/
theorem its (a b c d e f : ℤ) :
    arcIterations .cw Z Z 29 29 a b c d e f = (116, 116) := by
  unfold arcIterations
  simp only
  have h0 : (Z ≤ₚ Z) = true := (le64_iff _ _).2 le_rfl
  rw [if_pos h0, z_add, z_div, trunc_z]
  have : PyNum.truncI ((PyNum.ofRat 2 *ₚ PyNum.pi : F64) /ₚ (PyNum.pi /ₚ PyNum.ofRat 2)) = 4 := by
    have := four_quarters
    unfold P2 at this
    rw [this, trunc_four]
  rw [this, if_pos (by norm_num)]
  norm_num

theorem dirs : startDirs .cw Z = (1, -1) := by
  unfold startDirs
  simp only
  have h1 : ((PyNum.pi : F64) /ₚ PyNum.ofRat 2 ≤ₚ Z) = false := by
    rw [← Bool.not_eq_true, le64_iff, half_val, z1]
    have := fl_pos Real.pi_pos
    linarith
  have h2 : ((PyNum.pi : F64) ≤ₚ Z) = false := by
    rw [← Bool.not_eq_true, le64_iff, z1]
    have := pi_pos64
    linarith
  rw [h1, h2]
  rfl

/-- The velocities are not adjusted. -/
theorem adjust_ten : adjustVelocity Cfg.default (⟨Ten, Ten, Z, Z⟩ : V4 F64) = .ok ⟨Ten, Ten, Z, Z⟩ := by
  have sec : (secInMin : F64).1 = 60 := by
    change fl ((60 : ℚ) : ℝ) = _
    have := fl_int 60 (by norm_num)
    simpa using this
  have key : ∀ (k v : F64) (q : ℚ), v.1 * 60 ≤ q → adjustAxis k v q = .ok k := by
    intro k v q h
    unfold adjustAxis
    rw [if_neg]
    · rfl
    · rw [lt64_iff, val_ofRat, val_mul, sec, not_lt]
      exact fl_mono h
  unfold adjustVelocity
  rw [if_neg (by decide)]
  simp only
  rw [key _ _ _ (by rw [ten1]; norm_num [Cfg.default])]
  change (adjustAxis _ _ _ >>= _) = _
  rw [key _ _ _ (by rw [ten1]; norm_num [Cfg.default])]
  change (adjustAxis _ _ _ >>= _) = _
  rw [key _ _ _ (by rw [z1]; norm_num [Cfg.default])]
  change (adjustAxis _ _ _ >>= _) = _
  rw [key _ _ _ (by rw [z1]; norm_num [Cfg.default])]
  change Except.ok (Coord.smul _ _) = _
  unfold Coord.smul Coord.new
  simp only [ofRat_one, mul_one', round10_ten, round10_z]

theorem vel_ten : (F64.of 600 : F64) /ₚ secInMin = Ten := by
  refine ext64 ?_
  have e1 : (F64.of 600).1 = 600 := by
    change fl 600 = 600
    have := fl_int 600 (by norm_num)
    simpa using this
  have e2 : (secInMin : F64).1 = 60 := by
    change fl ((60 : ℚ) : ℝ) = _
    have := fl_int 60 (by norm_num)
    simpa using this
  rw [val_div, e1, e2, show (600 : ℝ) / 60 = 10 by norm_num]
  exact Ten.2

noncomputable def A : F64 := P2 *ₚ R

theorem pi_gt : 3 ≤ fl Real.pi := by
  have h := fl_mono (x := 3) (y := Real.pi) Real.pi_gt_three.le
  have : fl 3 = 3 := by
    have := fl_int 3 (by norm_num)
    simpa using this
  rwa [this] at h

theorem a_ge : 1 ≤ A.1 := by
  unfold A
  rw [val_mul]
  have h1 : 1 ≤ P2.1 * R.1 := by
    rw [p2_val, r1, r_val]
    have := pi_gt
    norm_num
    linarith
  rw [← fl_one]; exact fl_mono h1

theorem lt_irrefl64 (x : F64) : (x <ₚ x) = false := by
  rw [← Bool.not_eq_true, lt64_iff]; exact lt_irrefl _

theorem eq_self64 (x : F64) : (x =ₚ x) = true := (eq64_iff _ _).2 rfl

theorem pmin_self (x : F64) : pmin x x = x := by unfold pmin; split <;> rfl

theorem neg_neg_r : PyNum.neg (PyNum.neg R) = R := ext64 (by rw [val_neg, val_neg, neg_neg])
theorem abs_r : PyNum.abs R = R := ext64 (by rw [val_abs, abs_of_pos r_pos])
theorem abs_p2 : PyNum.abs P2 = P2 := ext64 (by
  rw [val_abs, abs_of_nonneg]
  rw [p2_val]; have := pi_gt; linarith)
theorem ne_z {x : F64} (h : 0 < x.1) : (x =ₚ Z) = false := by
  rw [← Bool.not_eq_true, eq64_iff, z1]; exact h.ne'

theorem max_ten : Coord.findMax (⟨Ten, Ten, Z, Z⟩ : V4 F64) = Ten := by
  have h1 : (Ten <ₚ Z) = false := by
    rw [← Bool.not_eq_true, lt64_iff, ten1, z1]; norm_num
  simp [Coord.findMax, pmax, lt_irrefl64, h1]

noncomputable def AT : F64 := Ten /ₚ PyNum.ofRat 3000

theorem at_bounds : 0 ≤ AT.1 ∧ AT.1 ≤ 1 / 299 := by
  have e : (PyNum.ofRat 3000 : F64).1 = 3000 := by
    change fl ((3000 : ℚ) : ℝ) = _
    have := fl_int 3000 (by norm_num)
    simpa using this
  unfold AT
  rw [val_div, e, ten1]
  have h := fl_hi (x := 10 / 3000) (by norm_num)
  refine ⟨fl_nonneg (by norm_num), ?_⟩
  norm_num at h ⊢
  linarith

theorem long : (A <ₚ PyNum.ofRat 3000 *ₚ (AT *ₚ AT)) = false := by
  have e : (PyNum.ofRat 3000 : F64).1 = 3000 := by
    change fl ((3000 : ℚ) : ℝ) = _
    have := fl_int 3000 (by norm_num)
    simpa using this
  rw [← Bool.not_eq_true, lt64_iff, not_lt]
  refine le_trans ?_ a_ge
  rw [val_mul, e, ← fl_one]
  refine fl_mono ?_
  obtain ⟨h0, h1⟩ := at_bounds
  have h2 : (AT *ₚ AT).1 ≤ 1 / 4000 := by
    rw [val_mul]
    have h3 : AT.1 * AT.1 ≤ 1 / 299 * (1 / 299) := mul_self_le_mul_self h0 h1
    have h4 := fl_hi (mul_self_nonneg AT.1)
    norm_num at h3 h4 ⊢
    linarith
  linarith

/-- The generator of the circle. -/
theorem new_ok : ∃ g : CircGen F64,
    CircGen.new Cfg.default ⟨Z, Z, Z, Z⟩ ⟨Z, PyNum.neg R, Z, Z⟩ .xy .cw (F64.of 600) = .ok g ∧
    g.plane = .xy ∧ g.radiusAP = 28 ∧ g.radiusBP = 28 ∧ g.startAP = 0 ∧ g.startBP = 28 ∧
    g.dirA = 1 ∧ g.dirB = -1 ∧ g.sideA = false ∧ g.sideB = false ∧
    g.itA = 116 ∧ g.itB = 116 ∧ g.it3 = Z ∧ g.itE = Z ∧
    CircGood64 Cfg.default g := by
  unfold CircGen.new
  simp only [planeAxes, show Cfg.default.ppm = ⟨100, 100, 400, 150⟩ from rfl,
    show Cfg.default.accel = 3000 from rfl, lt_irrefl, if_false]
  simp only [vel_ten, neg_z, neg_neg_r, ofRat_h, zeroF_z, z_add, add_z, mul_z, z_mul,
    sqrt_sq' r_pos.le]
  rw [show R *ₚ H = T from rfl]
  simp only [round_t, rad_r, show R *ₚ H = T from rfl, trunc_t, trunc_z, angle_top r_pos, abs_z,
    abs_r, sub_self']
  simp only [eq_self64, Bool.not_true, Bool.false_eq_true, if_false, bind, Except.bind, pure,
    Except.pure, sub_self', lt_irrefl64, Bool.false_or, decide_true, Bool.and_true, if_true, z_add,
    reduceCtorEq, dirs, its, show (PyNum.ofRat 2 *ₚ PyNum.pi : F64) = P2 from rfl,
    abs_p2, show P2 *ₚ R = A from rfl, sqrt_sq' (zero_le_one.trans a_ge),
    ne_z (zero_lt_one.trans_le a_ge), z_div, z_mul, div_self' (zero_lt_one.trans_le a_ge).ne',
    one_mul', planeVel, Coord.new, round10_ten, round10_z, adjust_ten, pmin_self, max_ten]
  simp only [show Ten /ₚ PyNum.ofRat 3000 = AT from rfl, long, Bool.false_eq_true, if_false, add_z,
    sqrt_sq' (show 0 ≤ Ten.1 by rw [ten1]; norm_num), pdiv64_ok (show Ten.1 ≠ 0 by rw [ten1]; norm_num)]
  refine ⟨_, rfl, rfl, rfl, rfl, rfl, rfl, rfl, rfl, rfl, rfl, rfl, rfl, rfl, rfl, ?_⟩
  have e100 : fl ((100 : ℚ) : ℝ) = 100 := by
    have := fl_int 100 (by norm_num)
    simpa using this
  have hr : fl (fl ((29 : ℤ) : ℝ) / fl ((100 : ℚ) : ℝ)) = R.1 := by
    rw [e100, fl_int 29 (by norm_num), r1]
    norm_num
  have hmax : (Coord.findMax (⟨Ten, Ten, Z, Z⟩ : V4 F64)).1 = 10 := by rw [max_ten, ten1]
  refine ⟨fun ax => by cases ax <;> norm_num [Cfg.default, V4.get], ?_, ?_, ?_, ?_, ?_, ?_, ?_,
    ⟨29, by norm_num, ?_, ?_⟩, ⟨29, by norm_num, ?_, ?_⟩⟩
  · exact fl_nonneg (div_nonneg r_pos.le (by rw [ten1]; norm_num))
  · rw [z1]
    have := pi_gt
    exact ⟨le_rfl, by linarith⟩
  · rw [p2_val]
    have := pi_gt
    linarith
  · rw [z1]; exact id
  · rw [z1]; exact id
  · have h2 : 0 ≤ fl ((2 : ℚ) : ℝ) := fl_nonneg (by norm_num)
    have h3 : 0 ≤ fl ((3000 : ℚ) : ℝ) := fl_nonneg (by norm_num)
    refine fl_nonneg (div_nonneg (fl_nonneg (mul_nonneg h2 ?_)) h3)
    change 0 ≤ (Coord.findMax (⟨Ten, Ten, Z, Z⟩ : V4 F64)).1
    rw [hmax]; norm_num
  · exact at_bounds.1
  · change fl (R.1 * R.1) = fl (fl (fl ((29 : ℤ) : ℝ) / fl ((100 : ℚ) : ℝ)) *
      fl (fl ((29 : ℤ) : ℝ) / fl ((100 : ℚ) : ℝ)))
    rw [hr]
  · have : ∀ i : Fin 115, -29 ≤ (circularHelper 0 ((i : ℕ) + 1) 28 false 1).1 ∧
        (circularHelper 0 ((i : ℕ) + 1) 28 false 1).1 ≤ 29 := by decide
    intro i hi
    exact this ⟨i, by change (i : ℤ) + 1 < 116 at hi; omega⟩
  · change fl (R.1 * R.1) = fl (fl (fl ((29 : ℤ) : ℝ) / fl ((100 : ℚ) : ℝ)) *
      fl (fl ((29 : ℤ) : ℝ) / fl ((100 : ℚ) : ℝ)))
    rw [hr]
  · have : ∀ i : Fin 115, -29 ≤ (circularHelper 28 ((i : ℕ) + 1) 28 false (-1)).1 ∧
        (circularHelper 28 ((i : ℕ) + 1) 28 false (-1)).1 ≤ 29 := by decide
    intro i hi
    exact this ⟨i, by change (i : ℤ) + 1 < 116 at hi; omega⟩

set_option maxRecDepth 10000 in
/-- The whole run: 116 pulses on each axis, and each axis ends four steps away from the start. -/
theorem run_off : ∃ (g : CircGen F64) (evs : List (Event F64)),
    CircGen.new Cfg.default ⟨Z, Z, Z, Z⟩ ⟨Z, PyNum.neg R, Z, Z⟩ .xy .cw (F64.of 600) = .ok g ∧
    Emits Cfg.default (.circular g) evs ∧ steps .x evs = 116 ∧ steps .y evs = 116 ∧
    netSteps Cfg.default .x evs = 4 ∧ netSteps Cfg.default .y evs = -4 := by
  obtain ⟨g, hg, hp, hra, hrb, hsa, hsb, hda, hdb, hea, heb, hia, hib, h3, hE, good⟩ := new_ok
  obtain ⟨evs, N, hN⟩ := circ64_done good (by rw [h3, z1]; norm_num) (by rw [hE, z1]; norm_num)
  refine ⟨g, evs, hg, ⟨N, hN⟩, ?_⟩
  have hrun := hN N le_rfl
  have hev : ((Gen.circular g).run Cfg.default N .init).1 = evs := by rw [hrun]
  have hend : ((Gen.circular g).run Cfg.default N .init).2 = .done := by rw [hrun]
  have hx : steps .x evs = 116 := by
    have := (planned_steps (circ_planned Cfg.default g) .x 116 (fun i => by
      simp only [CircGen.firesAt, hp, axisA, if_true, decide_eq_true_eq, hia]; omega) N .init
      (by change (0 : ℕ) ≤ 116; omega)).2 hend
    rw [hev] at this
    change 0 + _ = _ at this
    omega
  have hy : steps .y evs = 116 := by
    have := (planned_steps (circ_planned Cfg.default g) .y 116 (fun i => by
      simp only [CircGen.firesAt, hp, axisA, axisB, reduceCtorEq, if_false, if_true,
        decide_eq_true_eq, hib]; omega) N .init
      (by change (0 : ℕ) ≤ 116; omega)).2 hend
    rw [hev] at this
    change 0 + _ = _ at this
    omega
  refine ⟨hx, hy, ?_, ?_⟩
  · have := planned_net (circ_planned Cfg.default g) N .init .x 0 (fun d hd => by cases hd)
    rw [hev, hx] at this
    rw [netSteps, this]
    have e : ∀ j ∈ Finset.range 116, g.dirAt .x (GenState.init.it.get .x + j) =
        (circularHelper 0 ((j : ℤ) + 1) 28 false 1).2.1 := by
      intro j hj
      have hj := Finset.mem_range.1 hj
      have h0 : GenState.init.it.get .x + j = j := Nat.zero_add j
      rw [h0]
      simp only [CircGen.dirAt, hp, axisA, if_true, hia, hsa, hra, hea, hda]
      rw [if_neg (by omega)]
    rw [Finset.sum_congr rfl e]
    decide
  · have := planned_net (circ_planned Cfg.default g) N .init .y 0 (fun d hd => by cases hd)
    rw [hev, hy] at this
    rw [netSteps, this]
    have e : ∀ j ∈ Finset.range 116, g.dirAt .y (GenState.init.it.get .y + j) =
        (circularHelper 28 ((j : ℤ) + 1) 28 false (-1)).2.1 := by
      intro j hj
      have hj := Finset.mem_range.1 hj
      have h0 : GenState.init.it.get .y + j = j := Nat.zero_add j
      rw [h0]
      simp only [CircGen.dirAt, hp, axisA, axisB, reduceCtorEq, if_false, if_true, hib, hsb, hrb,
        heb, hdb]
      rw [if_neg (by omega)]
    rw [Finset.sum_congr rfl e]
    decide

/-- The arguments as decimal numbers. -/
theorem decimals : dec64 ⟨0, 0, 0, 0⟩ = ⟨Z, Z, Z, Z⟩ ∧
    dec64 ⟨0, -2900000000, 0, 0⟩ = ⟨Z, PyNum.neg R, Z, Z⟩ := by
  have hz : F64.of (((0 : ℤ) : ℝ) / 10 ^ 10) = Z := ext64 (by
    change fl _ = _
    simp [fl_zero, z1])
  have hr : F64.of (((-2900000000 : ℤ) : ℝ) / 10 ^ 10) = PyNum.neg R := ext64 (by
    change fl _ = _
    rw [val_neg, r1, ← fl_neg]
    norm_num)
  unfold dec64 V4.map
  simp only [hz, hr, and_self]

end Small

end PyCNC
