import Verif.Lemmas.BackCircle
import Verif.Lemmas.ArcCheck

/-!
# A small arc that becomes a full turn

`G2 X200 Y99.99 I-0.5` at (0.9, 100): the end that is computed lies 0.0035 mm below the start, in the
next quarter, and is rounded to the start.
-/

namespace PyCNC

open Spec

variable [PyRound]

theorem turn_point : ∃ P : ℝ × ℝ, circlePoint ((1991 / 10 : ℝ) - -1 / 2) (-1 / 100 - 0)
      ((-1 / 2) ^ 2 + 0 ^ 2) = P ∧ (0.499 < P.1 ∧ P.1 < 0.501) ∧ (-0.004 < P.2 ∧ P.2 < -0.003) := by
  refine ⟨_, rfl, ?_⟩
  have h1 : (circlePoint ((1991 / 10 : ℝ) - -1 / 2) (-1 / 100 - 0) ((-1 / 2) ^ 2 + 0 ^ 2)).1 =
      √(4990 / 19961) := by
    unfold circlePoint
    norm_num [abs_div]
  have h2 : (circlePoint ((1991 / 10 : ℝ) - -1 / 2) (-1 / 100 - 0) ((-1 / 2) ^ 2 + 0 ^ 2)).2 =
      -√(1 / 79844) := by
    have : (circlePoint ((1991 / 10 : ℝ) - -1 / 2) (-1 / 100 - 0) ((-1 / 2) ^ 2 + 0 ^ 2)).2 =
      (if (-1 / 100 - 0 : ℝ) < 0 then -1 else 1) * √((-1 / 2) ^ 2 + 0 ^ 2 -
        (circlePoint ((1991 / 10 : ℝ) - -1 / 2) (-1 / 100 - 0) ((-1 / 2) ^ 2 + 0 ^ 2)).1 ^ 2) := rfl
    rw [this, h1, Real.sq_sqrt (by norm_num), if_pos (by norm_num)]
    norm_num
  rw [h1, h2]
  refine ⟨⟨?_, ?_⟩, ?_, ?_⟩
  · exact Real.lt_sqrt_of_sq_lt (by norm_num)
  · rw [Real.sqrt_lt' (by norm_num)]; norm_num
  · rw [neg_lt_neg_iff, Real.sqrt_lt' (by norm_num)]; norm_num
  · rw [neg_lt_neg_iff]; exact Real.lt_sqrt_of_sq_lt (by norm_num)

theorem turn_end {c : Cfg} : ∃ ce : V4 ℝ,
    circleEnd c .xy ⟨1991 / 10, -1 / 100, 0, 0⟩ ⟨-1 / 2, 0, 0, 0⟩ ⟨9 / 10, 100, 0, 0⟩ .cw = .ok ce ∧
    roundToSteps Cfg.default ce = ⟨0, 0, 0, 0⟩ := by
  obtain ⟨P, hP, ⟨a1, a2⟩, b1, b2⟩ := turn_point
  have hq : quarter P.1 P.2 = 4 := by
    rw [quarter_eq, if_neg (by rintro ⟨_, h⟩; norm_num at b2; linarith),
      if_neg (by rintro ⟨_, h⟩; norm_num at b2; linarith),
      if_neg (by rintro ⟨h, _⟩; norm_num at a1; linarith)]
  have hq' : quarter (-(-1 / 2 : ℝ)) (-0) = 1 := by rw [quarter_eq]; norm_num
  refine ⟨_, circleEnd_xy (by norm_num) (by norm_num) hP ?_, ?_⟩
  · simp only [hq, hq']
    exact fit_at_once (by norm_num)
  · have := rts_default (x := P.1 + -1 / 2) (y := P.2 + 0) (z := 0) (m := 0) (n := 0) (l := 0)
      (by rw [abs_lt]; push_cast; constructor <;> norm_num at * <;> linarith)
      (by rw [abs_lt]; push_cast; constructor <;> norm_num at * <;> linarith) (by norm_num)
    rw [this]
    norm_num

theorem turn_sized : SizedArc Cfg.default ⟨0, 0, 0, 0⟩ ⟨-1 / 2, 0, 0, 0⟩ .xy 600 := by
  have e1 : √((-1 / 2 : ℝ) ^ 2 + 0 ^ 2) = 1 / 2 := by
    rw [show (-1 / 2 : ℝ) ^ 2 + 0 ^ 2 = (1 / 2) ^ 2 by norm_num]; exact Real.sqrt_sq (by norm_num)
  have e2 : √((0 - -1 / 2 : ℝ) ^ 2 + (0 - 0) ^ 2) = 1 / 2 := by
    rw [show (0 - -1 / 2 : ℝ) ^ 2 + (0 - 0) ^ 2 = (1 / 2) ^ 2 by norm_num]
    exact Real.sqrt_sq (by norm_num)
  refine sized_xy (R := 50) (by norm_num) ?_ ?_ ?_ (by norm_num)
  · rw [e1]; norm_num
  · rw [e1]; norm_num
  · rw [e2]; norm_num

/-- The default machine makes a full turn, and a straight move. -/
theorem turn_moves {env : Env ℝ} (henv : ∀ tr, env.move tr = none) {s : MState ℝ}
    (hs : s.pos = ⟨9 / 10, 100, 0, 0⟩) (hpl : s.plane = .xy) :
    ∃ g lg p, CircGen.new Cfg.default ⟨0, 0, 0, 0⟩ ⟨-1 / 2, 0, 0, 0⟩ .xy .cw 600 = .ok g ∧
      LinearGen.new Cfg.default ⟨1991 / 10, -1 / 100, 0, 0⟩ 600 = .ok lg ∧
      moveCircular Cfg.default env ⟨1991 / 10, -1 / 100, 0, 0⟩ ⟨-1 / 2, 0, 0, 0⟩ 600 .cw s =
        (.ok (), { s with
          trace := .move (.linear lg) :: .move (.circular g) :: s.trace
          pos := p }) := by
  have rd := rts_vec (x := 1991 / 10) (y := -1 / 100) (z := 0) 19910 (-1) 0 (by norm_num) (by norm_num)
    (by norm_num)
  have rr := rts_vec (x := -1 / 2) (y := 0) (z := 0) (-50) 0 0 (by norm_num) (by norm_num) (by norm_num)
  obtain ⟨ce, hce, rce⟩ := turn_end (c := Cfg.default)
  obtain ⟨g, φs, φe, hg, -, -⟩ := arc_new sane_cfg turn_sized .cw
  have hvel := checkVelocity_gen (default_limits true) (g := .circular g)
    (arc_limit sane_cfg (default_limits true) auto_default turn_sized hg (.inl ⟨rfl, rfl⟩))
  have hgrid : GridV (⟨1991 / 10, -1 / 100, 0, 0⟩ : V4 ℝ) := by
    have := gridV_hundredth 19910 (-1) 0
    norm_num at this ⊢
    exact this
  have hsub : Coord.sub (⟨1991 / 10, -1 / 100, 0, 0⟩ : V4 ℝ) ⟨0, 0, 0, 0⟩ =
      ⟨1991 / 10, -1 / 100, 0, 0⟩ := by
    apply V4.ext_get
    intro ax
    rw [get_sub]
    have := round10_grid (hgrid ax)
    cases ax <;> simp only [V4.get, sub_zero] at this ⊢ <;> exact this
  have hord : OrdinaryMove ⟨1991 / 10, -1 / 100, 0, 0⟩ 600 := by
    refine ⟨hgrid, ⟨.x, by norm_num [V4.get]⟩, fun ax => ?_, fun ax => ?_, by norm_num⟩ <;>
      cases ax <;> norm_num [V4.get, abs_of_pos]
  obtain ⟨lg, hlg, -, hlg'⟩ := extra_default hord
  have h1 : checkDelta Cfg.default s.pos (roundToSteps Cfg.default ⟨1991 / 10, -1 / 100, 0, 0⟩) =
      .ok () := by
    rw [rd, hs]
    have := area_default (m := 90) (n := 10000) (l := 0) (m' := 19910) (n' := -1) (l' := 0) (by omega)
      (by omega) (by omega)
    norm_num at this ⊢
    exact this
  have := circ_moves (v := 600) (r := ⟨-1 / 2, 0, 0, 0⟩) (rot := .cw) henv h1 (by rw [rd, rr, hs, hpl]; exact hce)
    (by rw [rce, rr, hpl]; exact hg) hvel (by rw [rd, rce, hsub]; exact hlg)
  exact ⟨g, lg, _, hg, hlg', this⟩

/-! ## Three quarters of a circle -/

theorem three_sized : SizedArc Cfg.default ⟨-5, -5, 0, 0⟩ ⟨0, -5, 0, 0⟩ .xy 600 := by
  have e1 : √((0 : ℝ) ^ 2 + (-5) ^ 2) = 5 := by
    rw [show (0 : ℝ) ^ 2 + (-5) ^ 2 = 5 ^ 2 by norm_num]; exact Real.sqrt_sq (by norm_num)
  have e2 : √((-5 - 0 : ℝ) ^ 2 + (-5 - -5) ^ 2) = 5 := by
    rw [show (-5 - 0 : ℝ) ^ 2 + (-5 - -5) ^ 2 = 5 ^ 2 by norm_num]; exact Real.sqrt_sq (by norm_num)
  refine sized_xy (R := 500) (by norm_num) ?_ ?_ ?_ (by norm_num)
  · rw [e1]; norm_num
  · rw [e1]; norm_num
  · rw [e2]; norm_num

theorem three_end : circleEnd Cfg.default .xy ⟨-5, -5, 0, 0⟩ ⟨0, -5, 0, 0⟩ ⟨100, 100, 0, 0⟩ .cw =
    .ok (⟨-5, -5, 0, 0⟩ : V4 ℝ) := by
  have hP : circlePoint ((-5 : ℝ) - 0) (-5 - -5) (0 ^ 2 + (-5) ^ 2) = (-5, 0) := by
    have h25 : √(25 : ℝ) = 5 := by
      rw [show (25 : ℝ) = 5 ^ 2 by norm_num]; exact Real.sqrt_sq (by norm_num)
    unfold circlePoint
    norm_num [h25]
  have e1 : √((0 : ℝ) ^ 2 + (-5) ^ 2) = 5 := by
    rw [show (0 : ℝ) ^ 2 + (-5) ^ 2 = 5 ^ 2 by norm_num]; exact Real.sqrt_sq (by norm_num)
  have := circleEnd_xy (c := Cfg.default) (delta := ⟨-5, -5, 0, 0⟩) (radius := ⟨0, -5, 0, 0⟩)
    (pos := ⟨100, 100, 0, 0⟩) (rot := .cw) (by norm_num) (by norm_num) hP (by
      refine fit_inside ?_ ?_ ?_ ?_ _ _ _ <;> simp only [e1] <;> norm_num [Cfg.default])
  rw [this]
  norm_num

/-- `G2 X95 Y95 J-5` at (100, 100). -/
theorem three_moves {env : Env ℝ} (henv : ∀ tr, env.move tr = none) {s : MState ℝ}
    (hs : s.pos = ⟨100, 100, 0, 0⟩) (hpl : s.plane = .xy) :
    ∃ s', moveCircular Cfg.default env ⟨-5, -5, 0, 0⟩ ⟨0, -5, 0, 0⟩ 600 .cw s = (.ok (), s') := by
  have rd := rts_vec (x := -5) (y := -5) (z := 0) (-500) (-500) 0 (by norm_num) (by norm_num) (by norm_num)
  have rr := rts_vec (x := 0) (y := -5) (z := 0) 0 (-500) 0 (by norm_num) (by norm_num) (by norm_num)
  obtain ⟨g, φs, φe, hg, -, -⟩ := arc_new sane_cfg three_sized .cw
  have hvel := checkVelocity_gen (default_limits true) (g := .circular g)
    (arc_limit sane_cfg (default_limits true) auto_default three_sized hg (.inl ⟨rfl, rfl⟩))
  have h1 : checkDelta Cfg.default s.pos (roundToSteps Cfg.default ⟨-5, -5, 0, 0⟩) = .ok () := by
    rw [rd, hs]
    have := area_default (m := 10000) (n := 10000) (l := 0) (m' := -500) (n' := -500) (l' := 0)
      (by omega) (by omega) (by omega)
    norm_num at this
    exact this
  exact ⟨_, circ_moves (v := 600) (r := ⟨0, -5, 0, 0⟩) (rot := .cw) henv h1
    (by rw [rd, rr, hs, hpl]; exact three_end) (by rw [rd, rr, hpl]; exact hg) hvel
    (by rw [rd]; exact extra_none _ _)⟩

/-! ## A full circle -/

theorem full_sized : SizedArc Cfg.default ⟨0, 0, 0, 0⟩ ⟨0, -5, 0, 0⟩ .xy 600 := by
  have e1 : √((0 : ℝ) ^ 2 + (-5) ^ 2) = 5 := by
    rw [show (0 : ℝ) ^ 2 + (-5) ^ 2 = 5 ^ 2 by norm_num]; exact Real.sqrt_sq (by norm_num)
  have e2 : √((0 - 0 : ℝ) ^ 2 + (0 - -5) ^ 2) = 5 := by
    rw [show (0 - 0 : ℝ) ^ 2 + (0 - -5) ^ 2 = 5 ^ 2 by norm_num]; exact Real.sqrt_sq (by norm_num)
  refine sized_xy (R := 500) (by norm_num) ?_ ?_ ?_ (by norm_num)
  · rw [e1]; norm_num
  · rw [e1]; norm_num
  · rw [e2]; norm_num

theorem full_end : circleEnd Cfg.default .xy ⟨0, 0, 0, 0⟩ ⟨0, -5, 0, 0⟩ ⟨100, 100, 0, 0⟩ .cw =
    .ok (⟨0, 0, 0, 0⟩ : V4 ℝ) := by
  have e1 : √((0 : ℝ) ^ 2 + (-5) ^ 2) = 5 := by
    rw [show (0 : ℝ) ^ 2 + (-5) ^ 2 = 5 ^ 2 by norm_num]; exact Real.sqrt_sq (by norm_num)
  unfold circleEnd
  simp only [ofRat_eq]
  rw [adjustCircle_eq (by norm_num), if_pos ⟨rfl, rfl⟩, if_pos ⟨rfl, rfl⟩, fit_inside]
  · rfl
  all_goals simp only [e1]; norm_num [Cfg.default]

/-- `G2 J-5` at (100, 100). -/
theorem full_moves {env : Env ℝ} (henv : ∀ tr, env.move tr = none) {s : MState ℝ}
    (hs : s.pos = ⟨100, 100, 0, 0⟩) (hpl : s.plane = .xy) :
    ∃ s', moveCircular Cfg.default env ⟨0, 0, 0, 0⟩ ⟨0, -5, 0, 0⟩ 600 .cw s = (.ok (), s') := by
  have rd := rts_vec (x := 0) (y := 0) (z := 0) 0 0 0 (by norm_num) (by norm_num) (by norm_num)
  have rr := rts_vec (x := 0) (y := -5) (z := 0) 0 (-500) 0 (by norm_num) (by norm_num) (by norm_num)
  obtain ⟨g, φs, φe, hg, -, -⟩ := arc_new sane_cfg full_sized .cw
  have hvel := checkVelocity_gen (default_limits true) (g := .circular g)
    (arc_limit sane_cfg (default_limits true) auto_default full_sized hg (.inl ⟨rfl, rfl⟩))
  have h1 : checkDelta Cfg.default s.pos (roundToSteps Cfg.default ⟨0, 0, 0, 0⟩) = .ok () := by
    rw [rd, hs]
    have := area_default (m := 10000) (n := 10000) (l := 0) (m' := 0) (n' := 0) (l' := 0)
      (by omega) (by omega) (by omega)
    norm_num at this
    exact this
  exact ⟨_, circ_moves (v := 600) (r := ⟨0, -5, 0, 0⟩) (rot := .cw) henv h1
    (by rw [rd, rr, hs, hpl]; exact full_end) (by rw [rd, rr, hpl]; exact hg) hvel
    (by rw [rd]; exact extra_none _ _)⟩

end PyCNC
