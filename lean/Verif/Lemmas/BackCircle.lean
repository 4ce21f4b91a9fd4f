import Verif.Lemmas.HalfCircle

/-!
# An arc after which the head is elsewhere
-/

namespace PyCNC

open Spec

variable [PyRound]

/-- The area check passes when the whole circle is inside. -/
theorem fit_inside {rot : Rot} {eq : Int} {pa pb ra rb r ma mb : ℝ} (h1 : r ≤ pa + ra)
    (h2 : pa + ra + r ≤ ma) (h3 : r ≤ pb + rb) (h4 : pb + rb + r ≤ mb) (n : ℕ) (q pq : Int) :
    fitLoop rot eq pa pb ra rb r ma mb n q pq = .ok () := by
  induction n generalizing q pq with
  | zero => rfl
  | succ n ih =>
    unfold fitLoop
    have k1 : (ma <ₚ pa +ₚ ra +ₚ r) = false := by simpa using h2
    have k2 : (mb <ₚ pb +ₚ rb +ₚ r) = false := by simpa using h4
    have k3 : (pa +ₚ ra -ₚ r <ₚ zeroF) = false := by simpa using h1
    have k4 : (pb +ₚ rb -ₚ r <ₚ zeroF) = false := by simpa using h3
    simp only [k1, k2, k3, k4, ite_self, Bool.false_eq_true, if_false, ih]

theorem sqrt50 : (7.07 : ℝ) < √50 ∧ √50 < 7.072 := by
  constructor
  · exact Real.lt_sqrt_of_sq_lt (by norm_num)
  · rw [Real.sqrt_lt' (by norm_num)]; norm_num

theorem back_sized : SizedArc Cfg.default ⟨-5, 207 / 100, 0, 0⟩ ⟨-5, -5, 0, 0⟩ .xy 600 := by
  have e1 : √((-5 : ℝ) ^ 2 + (-5) ^ 2) = √50 := by norm_num
  have e2 : √((-5 - -5 : ℝ) ^ 2 + (207 / 100 - -5) ^ 2) = 7.07 := by
    rw [show (-5 - -5 : ℝ) ^ 2 + (207 / 100 - -5) ^ 2 = 7.07 ^ 2 by norm_num]
    exact Real.sqrt_sq (by norm_num)
  obtain ⟨h1, h2⟩ := sqrt50
  refine sized_xy (R := 707) (by norm_num) ?_ ?_ ?_ (by norm_num)
  · rw [e1]; norm_num at h1 ⊢; linarith
  · rw [e1, abs_lt]; norm_num at h1 h2 ⊢; constructor <;> linarith
  · rw [e2]; norm_num

omit [PyRound] in
theorem back_grid : GridArc Cfg.default (⟨-5, 207 / 100, 0, 0⟩ : V4 ℝ) ⟨-5, -5, 0, 0⟩ .xy where
  posA := by norm_num [axisA, V4.get, Cfg.default]
  posB := by norm_num [axisB, V4.get, Cfg.default]
  radA := ⟨-500, by norm_num [axisA, V4.get, Cfg.default]⟩
  radB := ⟨-500, by norm_num [axisB, V4.get, Cfg.default]⟩
  delA := ⟨-500, by norm_num [axisA, V4.get, Cfg.default]⟩
  delB := ⟨207, by norm_num [axisB, V4.get, Cfg.default]⟩
  fit := .inl (by norm_num [axisA, axisB, V4.get, Cfg.default])

theorem back_end : ∃ ce : V4 ℝ, circleEnd Cfg.default .xy ⟨-5, 207 / 100, 0, 0⟩ ⟨-5, -5, 0, 0⟩
    ⟨105, 105, 0, 0⟩ .ccw = .ok ce ∧ roundToSteps Cfg.default ce = ⟨-5, 207 / 100, 0, 0⟩ := by
  obtain ⟨h1, h2⟩ := sqrt50
  have hP : circlePoint ((-5 : ℝ) - -5) (207 / 100 - -5) ((-5) ^ 2 + (-5) ^ 2) = (0, √50) := by
    unfold circlePoint
    norm_num
  refine ⟨_, circleEnd_xy (by norm_num) (by norm_num) hP ?_, ?_⟩
  · have e1 : √((-5 : ℝ) ^ 2 + (-5) ^ 2) = √50 := by norm_num
    have t1 : ((Cfg.default.tableX : ℚ) : ℝ) = 200 := by norm_num [Cfg.default]
    have t2 : ((Cfg.default.tableY : ℚ) : ℝ) = 200 := by norm_num [Cfg.default]
    norm_num at h2
    rw [e1, t1, t2]
    apply fit_inside <;> norm_num <;> linarith
  · have := rts_default (x := 0 + -5) (y := √50 + -5) (z := 0) (m := -500) (n := 207) (l := 0)
      (by norm_num) (by rw [abs_lt]; norm_num at h1 h2 ⊢; constructor <;> linarith) (by norm_num)
    rw [this]
    norm_num

theorem back_moves {env : Env ℝ} (henv : ∀ tr, env.move tr = none) {s : MState ℝ}
    (hs : s.pos = ⟨105, 105, 0, 0⟩) (hpl : s.plane = .xy) :
    ∃ g : CircGen ℝ,
      CircGen.new Cfg.default ⟨-5, 207 / 100, 0, 0⟩ ⟨-5, -5, 0, 0⟩ .xy .ccw 600 = .ok g ∧
      moveCircular Cfg.default env ⟨-5, 207 / 100, 0, 0⟩ ⟨-5, -5, 0, 0⟩ 600 .ccw s =
        (.ok (), { s with
          pos := ⟨100, 10707 / 100, 0, 0⟩, trace := .move (.circular g) :: s.trace }) := by
  have rd := rts_vec (x := -5) (y := 207 / 100) (z := 0) (-500) 207 0 (by norm_num) (by norm_num)
    (by norm_num)
  have rr := rts_vec (x := -5) (y := -5) (z := 0) (-500) (-500) 0 (by norm_num) (by norm_num)
    (by norm_num)
  obtain ⟨ce, hce, rce⟩ := back_end
  obtain ⟨g, φs, φe, hg, -, -⟩ := arc_new sane_cfg back_sized .ccw
  have hvel := checkVelocity_gen (default_limits true) (g := .circular g)
    (arc_limit sane_cfg (default_limits true) auto_default back_sized hg (.inl ⟨rfl, rfl⟩))
  refine ⟨g, hg, ?_⟩
  have h1 : checkDelta Cfg.default s.pos (roundToSteps Cfg.default ⟨-5, 207 / 100, 0, 0⟩) = .ok () := by
    rw [rd, hs]
    have := area_default (m := 10500) (n := 10500) (l := 0) (m' := -500) (n' := 207) (l' := 0)
      (by omega) (by omega) (by omega)
    norm_num at this
    exact this
  rw [circ_moves henv h1 (by rw [rd, rr, hs, hpl]; exact hce) (by rw [rce, rr, hpl]; exact hg) hvel
    (by rw [rd, rce]; exact extra_none _ _)]
  rw [rd, rce, hs]
  have hsum : Coord.add (Coord.add (⟨105, 105, 0, 0⟩ : V4 ℝ) ⟨-5, 207 / 100, 0, 0⟩)
      (Coord.sub ⟨-5, 207 / 100, 0, 0⟩ ⟨-5, 207 / 100, 0, 0⟩) = ⟨100, 10707 / 100, 0, 0⟩ := by
    have g1 : GridV (⟨105, 105, 0, 0⟩ : V4 ℝ) := by
      have := gridV_hundredth 10500 10500 0
      norm_num at this; exact this
    have g2 : GridV (⟨-5, 207 / 100, 0, 0⟩ : V4 ℝ) := by
      have := gridV_hundredth (-500) 207 0
      norm_num at this; exact this
    apply V4.ext_get
    intro ax
    rw [get_add_grid (gridV_add _ _) (gridV_sub _ _), get_add_grid g1 g2, get_sub_grid g2 g2]
    cases ax <;> norm_num [V4.get]
  rw [hsum]
  rfl

/-- The pulses of this arc: a full circle. -/
theorem back_train {g : CircGen ℝ}
    (hg : CircGen.new Cfg.default ⟨-5, 207 / 100, 0, 0⟩ ⟨-5, -5, 0, 0⟩ .xy .ccw 600 = .ok g) :
    ∃ evs, Emits Cfg.default (.circular g) evs ∧ netSteps Cfg.default .x evs = 0 ∧
      netSteps Cfg.default .y evs = 0 := by
  have e1 : √((-5 : ℝ) ^ 2 + (-5) ^ 2) = √50 := by norm_num
  have e2 : √((-5 - -5 : ℝ) ^ 2 + (207 / 100 - -5) ^ 2) = 7.07 := by
    rw [show (-5 - -5 : ℝ) ^ 2 + (207 / 100 - -5) ^ 2 = 7.07 ^ 2 by norm_num]
    exact Real.sqrt_sq (by norm_num)
  obtain ⟨h1, h2⟩ := sqrt50
  obtain ⟨s1, s2⟩ := arc_sizes (da := -5) (db := 207 / 100) (ra := -5) (rb := -5) (d3 := 0) (e := 0)
  have hord : OrdinaryArc Cfg.default ⟨-5, 207 / 100, 0, 0⟩ ⟨-5, -5, 0, 0⟩ .xy 600 := by
    refine ⟨back_grid, ?_, ?_, ?_, ?_, ?_, ?_, ?_, .inl ⟨rfl, rfl⟩, by norm_num⟩
    · rw [s1, e1]; positivity
    · rw [s1, s2, e1, e2, coarse_xy]
      rw [rnd_unique (n := 707) (by norm_num),
        rnd_unique (n := 707) (by rw [abs_lt]; norm_num at h1 h2 ⊢; constructor <;> linarith)]
    · rw [s1, e1]; norm_num at h2; linarith
    · norm_num [axis3, V4.get]
    · norm_num
    · norm_num [axis3, V4.get]
    · norm_num
  obtain ⟨g', hg', hgood, -⟩ := arc_good sane_cfg hord .ccw
  rw [hg] at hg'
  cases hg'
  obtain ⟨evs, hev⟩ := circ_emits hgood
  have hb : BackInQuarter .xy (⟨-5, 207 / 100, 0, 0⟩ : V4 ℝ) ⟨-5, -5, 0, 0⟩ := by
    unfold BackInQuarter arcQuarter
    norm_num [startA, startB, endA, endB, axisA, axisB, V4.get]
  have hnet := arc_net back_grid hg hev
  rw [if_pos hb, if_pos hb] at hnet
  refine ⟨evs, hev, ?_⟩
  simpa [axisA, axisB] using hnet

end PyCNC
