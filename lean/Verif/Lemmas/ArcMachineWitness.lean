import Verif.Lemmas.ArcMachine
import Verif.Lemmas.ArcWitness
import Verif.Props.Motion

/-!
# Circular moves of the default machine in the XY plane
-/

set_option linter.unusedSectionVars false

namespace PyCNC

open Spec Real

variable [PyRound]

/-- Rounding to steps in the default configuration, when the extruder does not move. -/
theorem rts_default {x y z : ℝ} {m n l : ℤ} (hx : |x * 100 - m| < 1 / 2) (hy : |y * 100 - n| < 1 / 2)
    (hz : |z * 400 - l| < 1 / 2) :
    roundToSteps Cfg.default ⟨x, y, z, 0⟩ = ⟨m / 100, n / 100, l / 400, 0⟩ := by
  obtain ⟨dx, dy, dz⟩ := Props.default_decimalStep
  have px : ((Cfg.default.ppm.get .x : ℚ) : ℝ) = 100 := by norm_num [V4.get, Cfg.default]
  have py : ((Cfg.default.ppm.get .y : ℚ) : ℝ) = 100 := by norm_num [V4.get, Cfg.default]
  have pz : ((Cfg.default.ppm.get .z : ℚ) : ℝ) = 400 := by norm_num [V4.get, Cfg.default]
  apply V4.ext_get
  intro ax
  cases ax
  · rw [roundToSteps_decimal dx, px]; simp only [V4.get]; rw [rnd_unique hx]
  · rw [roundToSteps_decimal dy, py]; simp only [V4.get]; rw [rnd_unique hy]
  · rw [roundToSteps_decimal dz, pz]; simp only [V4.get]; rw [rnd_unique hz]
  · rw [roundToSteps_zero rfl]; rfl

theorem rts_exact (m n l : ℤ) :
    roundToSteps Cfg.default ⟨(m : ℝ) / 100, n / 100, l / 400, 0⟩ = ⟨(m : ℝ) / 100, n / 100, l / 400, 0⟩ :=
  rts_default (by simp) (by simp) (by simp)

theorem gridV_hundredth (m n l : ℤ) : GridV ⟨(m : ℝ) / 100, n / 100, l / 400, 0⟩ := by
  intro ax
  cases ax
  · exact ⟨m * 10 ^ 8, by rw [e10_val]; push_cast; simp [V4.get]; ring⟩
  · exact ⟨n * 10 ^ 8, by rw [e10_val]; push_cast; simp [V4.get]; ring⟩
  · exact ⟨l * (25 * 10 ^ 6), by rw [e10_val]; push_cast; simp [V4.get]; ring⟩
  · exact ⟨0, by simp [V4.get]⟩

/-- The area check in the default configuration. -/
theorem area_default {m n l m' n' l' : ℤ} (hx : 0 ≤ m + m' ∧ m + m' ≤ 20000)
    (hy : 0 ≤ n + n' ∧ n + n' ≤ 20000) (hz : 0 ≤ l + l' ∧ l + l' ≤ 88000) :
    checkDelta Cfg.default ⟨(m : ℝ) / 100, n / 100, l / 400, 0⟩ ⟨m' / 100, n' / 100, l' / 400, 0⟩ =
      .ok () := by
  obtain ⟨⟨x0, x1⟩, ⟨y0, y1⟩, ⟨z0, z1⟩⟩ := Props.default_tableOk
  refine (checkDelta_ok (decimalQ_grid x1) (decimalQ_grid y1) (decimalQ_grid z1) ⟨x0, y0, z0⟩
    (gridV_hundredth _ _ _) (gridV_hundredth _ _ _)).2 ?_
  have tx : ((Cfg.default.tableX : ℚ) : ℝ) = 200 := by norm_num [Cfg.default]
  have ty : ((Cfg.default.tableY : ℚ) : ℝ) = 200 := by norm_num [Cfg.default]
  have tz : ((Cfg.default.tableZ : ℚ) : ℝ) = 220 := by norm_num [Cfg.default]
  rw [tx, ty, tz]
  have a1 : (0 : ℝ) ≤ m + m' := by exact_mod_cast hx.1
  have a2 : (m : ℝ) + m' ≤ 20000 := by exact_mod_cast hx.2
  have a3 : (0 : ℝ) ≤ n + n' := by exact_mod_cast hy.1
  have a4 : (n : ℝ) + n' ≤ 20000 := by exact_mod_cast hy.2
  have a5 : (0 : ℝ) ≤ l + l' := by exact_mod_cast hz.1
  have a6 : (l : ℝ) + l' ≤ 88000 := by exact_mod_cast hz.2
  simp only
  refine ⟨⟨?_, ?_⟩, ⟨?_, ?_⟩, ?_, ?_⟩ <;> linarith

/-- The loop over the quarters stops at once when the next quarter is the last one. -/
theorem fit_at_once {rot : Rot} {eq q : Int} {pa pb ra rb r ma mb : ℝ} {n : ℕ} {pq : Int}
    (h : (match rot with
      | .cw => if q - 1 ≤ 0 then 4 else if q - 1 ≥ 5 then 1 else q - 1
      | .ccw => if q + 1 ≤ 0 then 4 else if q + 1 ≥ 5 then 1 else q + 1) = eq) :
    fitLoop rot eq pa pb ra rb r ma mb (n + 1) q pq = .ok () := by
  unfold fitLoop
  cases rot <;> simp only at h ⊢ <;> rw [if_pos h]

theorem quarter_eq (a b : ℝ) : quarter a b =
    if 0 ≤ a ∧ 0 ≤ b then 1 else if a < 0 ∧ 0 ≤ b then 2 else if a < 0 ∧ b < 0 then 3 else 4 := by
  unfold quarter
  simp only [Bool.and_eq_true, le_iff, lt_iff, zeroF_eq]

/-- The end of an arc in the XY plane, when the area check passes. -/
theorem circleEnd_xy {c : Cfg} {delta radius pos : V4 ℝ} {rot : Rot} {P : ℝ × ℝ}
    (hr : radius.x ^ 2 + radius.y ^ 2 ≠ 0) (hd : ¬ (delta.x = 0 ∧ delta.y = 0))
    (hP : circlePoint (delta.x - radius.x) (delta.y - radius.y) (radius.x ^ 2 + radius.y ^ 2) = P)
    (hfit : fitLoop rot (quarter P.1 P.2) pos.x pos.y radius.x radius.y
      (√(radius.x ^ 2 + radius.y ^ 2)) c.tableX c.tableY 4 (quarter (-radius.x) (-radius.y))
      (quarter (-radius.x) (-radius.y)) = .ok ()) :
    circleEnd c .xy delta radius pos rot = .ok ⟨P.1 + radius.x, P.2 + radius.y, delta.z, delta.e⟩ := by
  unfold circleEnd
  simp only [ofRat_eq]
  rw [adjustCircle_eq hr, hP, if_neg hd, if_neg hd, hfit]
  rfl

omit [PyRound] in
theorem arc_sizes {da db ra rb d3 e : ℝ} : startDist .xy ⟨ra, rb, d3, e⟩ = √(ra ^ 2 + rb ^ 2) ∧
    ∀ z e', endDist .xy ⟨da, db, z, e'⟩ ⟨ra, rb, d3, e⟩ = √((da - ra) ^ 2 + (db - rb) ^ 2) := by
  constructor
  · simp only [startDist, startA, startB, axisA, axisB, V4.get, neg_sq]
  · intro z e'
    simp only [endDist, endA, endB, axisA, axisB, V4.get]

omit [PyRound] in
theorem coarse_xy : coarse Cfg.default .xy = 100 := by
  simp only [coarse, axisA, axisB, V4.get, Cfg.default]; norm_num

/-- Any flat arc of the default machine with a radius between 1/100 mm and 1 m whose start and end
have the same distance in steps. -/
theorem sized_xy {da db ra rb v : ℝ} {R : ℤ} (hR2 : R ≤ 90000)
    (hbig : 1 ≤ √(ra ^ 2 + rb ^ 2) * 100)
    (h1 : |√(ra ^ 2 + rb ^ 2) * 100 - R| < 1 / 2)
    (h2 : |√((da - ra) ^ 2 + (db - rb) ^ 2) * 100 - R| < 1 / 2) (hv : 1 ≤ v) :
    SizedArc Cfg.default ⟨da, db, 0, 0⟩ ⟨ra, rb, 0, 0⟩ .xy v := by
  obtain ⟨s1, s2⟩ := arc_sizes (da := da) (db := db) (ra := ra) (rb := rb) (d3 := 0) (e := 0)
  have hR2' : (R : ℝ) ≤ 90000 := by exact_mod_cast hR2
  refine ⟨?_, ?_, ?_, ?_, ?_, ?_, ?_, ?_, ?_, .inl ⟨rfl, rfl⟩, hv⟩
  · simp [axisA, V4.get, Cfg.default]
  · simp [axisB, V4.get, Cfg.default]
  · rw [s1, coarse_xy]; push_cast; exact hbig
  · rw [s1, s2, coarse_xy]; push_cast; rw [rnd_unique h1, rnd_unique h2]
  · rw [s1]; have := (abs_lt.1 h1).2; linarith
  · simp [axis3, V4.get]
  · simp
  · intro h; exact absurd rfl h
  · intro h; exact absurd rfl h

theorem checkVelocity_gen {c : Cfg} (hd : DecimalLimits c) {g : Gen ℝ}
    (h : ∀ ax, g.maxVSec.get ax ≤ (c.maxVel.get ax : ℝ) / 60) :
    checkVelocity c g.maxVelocity = .ok () := by
  rw [checkVelocity_ok_iff]
  intro ax
  unfold Gen.maxVelocity
  rw [get_smul, secInMin_eq]
  have hg : Grid (c.maxVel.get ax : ℝ) := by
    obtain ⟨k, hk⟩ := hd ax
    refine ⟨60 * k, ?_⟩
    push_cast
    rw [e10_val, mul_div_assoc, ← hk]
    ring
  refine round10_le_grid hg ?_
  have := h ax
  linarith

theorem auto_default : Cfg.default.autoVel = true := rfl

/-- A circular move that passes all checks, on a machine without faults. -/
theorem circ_moves {c : Cfg} {env : Env ℝ} (henv : ∀ tr, env.move tr = none) {d r ce : V4 ℝ} {v : ℝ}
    {rot : Rot} {s : MState ℝ} {g : CircGen ℝ} {lg : Option (LinearGen ℝ)}
    (h1 : checkDelta c s.pos (roundToSteps c d) = .ok ())
    (h2 : circleEnd c s.plane (roundToSteps c d) (roundToSteps c r) s.pos rot = .ok ce)
    (h3 : CircGen.new c (roundToSteps c ce) (roundToSteps c r) s.plane rot v = .ok g)
    (h4 : checkVelocity c (Gen.circular g).maxVelocity = .ok ())
    (h5 : extraLinear c (Coord.sub (roundToSteps c d) (roundToSteps c ce)) v = .ok lg) :
    moveCircular c env d r v rot s = (.ok (), { s with
      trace := (lg.toList.map fun l => HalCall.move (.linear l)) ++ .move (.circular g) :: s.trace
      pos := Coord.add (Coord.add s.pos (roundToSteps c ce))
            (Coord.sub (roundToSteps c d) (roundToSteps c ce)) }) := by
  rcases moveCircular_cases (c := c) (env := env) d r v rot s with
    ⟨e, _, h | h | ⟨ce', h, h' | ⟨g', h', h'' | h''⟩⟩⟩ | ⟨ce', g', lg', _, k2, k3, _, k5, h⟩
  · rw [h1] at h; cases h
  · rw [h2] at h; cases h
  · rw [h2] at h; cases h; rw [h3] at h'; cases h'
  · rw [h2] at h; cases h; rw [h3] at h'; cases h'; rw [h4] at h''; cases h''
  · rw [h2] at h; cases h; rw [h3] at h'; cases h'; rw [h5] at h''; cases h''
  · rw [h2] at k2; cases k2; rw [h3] at k3; cases k3; rw [h5] at k5; cases k5
    rw [h]
    cases lg
    · simp [halMove, optMove, M.emit, M.get, M.modify, henv, bind, pure, M.bind, M.pure]
    · simp [halMove, optMove, M.emit, M.get, M.modify, henv, bind, pure, M.bind, M.pure]

/-- What the machine hands over in a circular move that succeeds. -/
theorem circ_trace {env : Env ℝ} {g : CircGen ℝ} {lg : Option (LinearGen ℝ)}
    {f : MState ℝ → V4 ℝ} {s s' : MState ℝ}
    (h : (do halMove env (.circular g); optMove env lg
             M.modify fun s => { s with pos := f s } : M ℝ Unit) s = (.ok (), s')) :
    s'.trace = (lg.toList.map fun l => HalCall.move (.linear l)) ++ .move (.circular g) :: s.trace := by
  simp only [halMove, M.emit, M.get, M.modify, bind, pure, M.bind, M.pure] at h
  rcases h1 : env.move (HalCall.move (.circular g) :: s.trace) with _ | e
  · rw [h1] at h
    cases lg with
    | none =>
      simp only [optMove, pure, M.pure, Prod.mk.injEq, true_and] at h
      rw [← h]; rfl
    | some l =>
      simp only [optMove, halMove, M.emit, M.get, M.modify, bind, pure, M.bind, M.pure] at h
      rcases h2 : env.move (HalCall.move (.linear l) :: HalCall.move (.circular g) :: s.trace) with _ | e
      · rw [h2] at h
        simp only [M.pure, Prod.mk.injEq, true_and] at h
        rw [← h]; rfl
      · rw [h2] at h
        simp [M.throw] at h
  · rw [h1] at h
    simp [M.throw] at h

/-- No straight move is made when the arc ends at its target. -/
theorem extra_none {c : Cfg} (d : V4 ℝ) (v : ℝ) : extraLinear c (Coord.sub d d) v = .ok none := by
  have hz : Coord.isZero (Coord.sub d d) = true := by
    rw [isZero_iff]
    intro ax
    rw [get_sub, sub_self, round10_zero]
  unfold extraLinear
  rw [if_neg (by simp [hz])]
  rfl

/-- The straight move after an arc of the default machine. -/
theorem extra_default {d : V4 ℝ} {v : ℝ} (h : OrdinaryMove d v) :
    ∃ lg, extraLinear Cfg.default d v = .ok (some lg) ∧ lg.delta = d ∧
      LinearGen.new Cfg.default d v = .ok lg := by
  obtain ⟨g, w, q, h1, _, h2, _⟩ := linear_new sane_cfg h
  have hv := checkVelocity_of_le (default_limits true)
    (linear_limit sane_cfg (default_limits true) auto_default h h1)
  refine ⟨g, ?_, h2, h1⟩
  unfold extraLinear
  have hz : ¬ (Coord.isZero d = true) := fun hz => by
    obtain ⟨ax, hax⟩ := h.some
    exact hax ((isZero_iff _).1 hz ax)
  rw [if_pos (by simpa using hz), h1]
  change (checkVelocity Cfg.default (Gen.linear g).maxVelocity).bind _ = _
  have hv' : checkVelocity Cfg.default (Gen.linear g).maxVelocity = .ok () := hv
  rw [hv']
  rfl

/-! ## `G2 Y-8 I-3 J-4` (relative): the end lies on the circle, the code misses it -/

theorem rts_vec {x y z : ℝ} (m n l : ℤ) (hx : x = m / 100) (hy : y = n / 100) (hz : z = l / 400) :
    roundToSteps Cfg.default ⟨x, y, z, 0⟩ = ⟨x, y, z, 0⟩ := by
  rw [hx, hy, hz]; exact rts_exact m n l

theorem miss_point : ∃ P : ℝ × ℝ, circlePoint ((0 : ℝ) - -3) (-8 - -4) ((-3) ^ 2 + (-4) ^ 2) = P ∧
    (3.27 < P.1 ∧ P.1 < 3.274) ∧ (-3.781 < P.2 ∧ P.2 < -3.779) := by
  refine ⟨_, rfl, ?_⟩
  have h1 : (circlePoint ((0 : ℝ) - -3) (-8 - -4) ((-3) ^ 2 + (-4) ^ 2)).1 = √(75 / 7) := by
    unfold circlePoint
    norm_num [abs_div]
  have h2 : (circlePoint ((0 : ℝ) - -3) (-8 - -4) ((-3) ^ 2 + (-4) ^ 2)).2 = -√(100 / 7) := by
    have : (circlePoint ((0 : ℝ) - -3) (-8 - -4) ((-3) ^ 2 + (-4) ^ 2)).2 = (if (-8 - -4 : ℝ) < 0 then -1 else 1) *
      √((-3) ^ 2 + (-4) ^ 2 - (circlePoint ((0 : ℝ) - -3) (-8 - -4) ((-3) ^ 2 + (-4) ^ 2)).1 ^ 2) := rfl
    rw [this, h1, Real.sq_sqrt (by norm_num)]
    norm_num
  rw [h1, h2]
  refine ⟨⟨?_, ?_⟩, ?_, ?_⟩
  · exact Real.lt_sqrt_of_sq_lt (by norm_num)
  · rw [Real.sqrt_lt' (by norm_num)]; norm_num
  · rw [neg_lt_neg_iff, Real.sqrt_lt' (by norm_num)]; norm_num
  · rw [neg_lt_neg_iff]; exact Real.lt_sqrt_of_sq_lt (by norm_num)

theorem miss_end {m n : ℤ} {c : Cfg} : ∃ ce : V4 ℝ,
    circleEnd c .xy ⟨0, -8, 0, 0⟩ ⟨-3, -4, 0, 0⟩ ⟨(m : ℝ) / 100, n / 100, 0, 0⟩ .cw = .ok ce ∧
    roundToSteps Cfg.default ce = ⟨27 / 100, -778 / 100, 0, 0⟩ := by
  obtain ⟨P, hP, ⟨a1, a2⟩, b1, b2⟩ := miss_point
  have hq : quarter P.1 P.2 = 4 := by
    rw [quarter_eq, if_neg (by rintro ⟨_, h⟩; norm_num at b2; linarith),
      if_neg (by rintro ⟨_, h⟩; norm_num at b2; linarith),
      if_neg (by rintro ⟨h, _⟩; norm_num at a1; linarith)]
  have hq' : quarter (-(-3 : ℝ)) (-(-4)) = 1 := by rw [quarter_eq]; norm_num
  refine ⟨_, circleEnd_xy (by norm_num) (by norm_num) hP ?_, ?_⟩
  · simp only [hq, hq']
    exact fit_at_once (by norm_num)
  · have := rts_default (x := P.1 + -3) (y := P.2 + -4) (z := 0) (m := 27) (n := -778) (l := 0)
      (by rw [abs_lt]; push_cast; constructor <;> norm_num at * <;> linarith)
      (by rw [abs_lt]; push_cast; constructor <;> norm_num at * <;> linarith) (by norm_num)
    rw [this]
    norm_num

theorem miss_sized : SizedArc Cfg.default ⟨27 / 100, -778 / 100, 0, 0⟩ ⟨-3, -4, 0, 0⟩ .xy 600 := by
  have e1 : √((-3 : ℝ) ^ 2 + (-4) ^ 2) = 5 := by
    rw [show (-3 : ℝ) ^ 2 + (-4) ^ 2 = 5 ^ 2 by norm_num]; exact Real.sqrt_sq (by norm_num)
  refine sized_xy (R := 500) (by norm_num) ?_ ?_ ?_ (by norm_num)
  · rw [e1]; norm_num
  · rw [e1]; norm_num
  · have h1 : 4.996 < √((27 / 100 - -3 : ℝ) ^ 2 + (-778 / 100 - -4) ^ 2) :=
      Real.lt_sqrt_of_sq_lt (by norm_num)
    have h2 : √((27 / 100 - -3 : ℝ) ^ 2 + (-778 / 100 - -4) ^ 2) < 5.004 := by
      rw [Real.sqrt_lt' (by norm_num)]; norm_num
    rw [abs_lt]
    norm_num at h1 h2 ⊢
    constructor <;> linarith

/-- The default machine makes an arc that ends elsewhere, and a straight move. -/
theorem miss_moves {env : Env ℝ} (henv : ∀ tr, env.move tr = none) {m n : ℤ}
    (hm : 0 ≤ m ∧ m ≤ 20000) (hn : 800 ≤ n ∧ n ≤ 20000) {s : MState ℝ}
    (hs : s.pos = ⟨m / 100, n / 100, 0, 0⟩) (hpl : s.plane = .xy) :
    ∃ g lg, CircGen.new Cfg.default ⟨27 / 100, -778 / 100, 0, 0⟩ ⟨-3, -4, 0, 0⟩ .xy .cw 600 = .ok g ∧
      LinearGen.new Cfg.default ⟨-27 / 100, -22 / 100, 0, 0⟩ 600 = .ok lg ∧
      moveCircular Cfg.default env ⟨0, -8, 0, 0⟩ ⟨-3, -4, 0, 0⟩ 600 .cw s =
        (.ok (), { s with
          trace := .move (.linear lg) :: .move (.circular g) :: s.trace
          pos := ⟨m / 100, n / 100 - 8, 0, 0⟩ }) := by
  have rd := rts_vec (x := 0) (y := -8) (z := 0) 0 (-800) 0 (by norm_num) (by norm_num) (by norm_num)
  have rr := rts_vec (x := -3) (y := -4) (z := 0) (-300) (-400) 0 (by norm_num) (by norm_num) (by norm_num)
  obtain ⟨ce, hce, rce⟩ := miss_end (m := m) (n := n) (c := Cfg.default)
  obtain ⟨g, φs, φe, hg, -, -⟩ := arc_new sane_cfg miss_sized .cw
  have hvel := checkVelocity_gen (default_limits true) (g := .circular g)
    (arc_limit sane_cfg (default_limits true) auto_default miss_sized hg (.inl ⟨rfl, rfl⟩))
  have hgrid : GridV (⟨-27 / 100, -22 / 100, 0, 0⟩ : V4 ℝ) := by
    have := gridV_hundredth (-27) (-22) 0
    norm_num at this ⊢
    exact this
  have hsub : Coord.sub (⟨0, -8, 0, 0⟩ : V4 ℝ) ⟨27 / 100, -778 / 100, 0, 0⟩ =
      ⟨-27 / 100, -22 / 100, 0, 0⟩ := by
    apply V4.ext_get
    intro ax
    rw [get_sub]
    have := round10_grid (hgrid ax)
    cases ax <;> simp only [V4.get] at this ⊢ <;> rw [← this] <;> congr 1 <;> norm_num
  have hord : OrdinaryMove ⟨-27 / 100, -22 / 100, 0, 0⟩ 600 := by
    refine ⟨hgrid, ⟨.x, by norm_num [V4.get]⟩, fun ax => ?_, fun ax => ?_, by norm_num⟩ <;>
      cases ax <;> norm_num [V4.get, abs_of_pos]
  obtain ⟨lg, hlg, -, hlg'⟩ := extra_default hord
  refine ⟨g, lg, hg, hlg', ?_⟩
  have h1 : checkDelta Cfg.default s.pos (roundToSteps Cfg.default ⟨0, -8, 0, 0⟩) = .ok () := by
    rw [rd, hs]
    have := area_default (m := m) (n := n) (l := 0) (m' := 0) (n' := -800) (l' := 0) (by omega)
      (by omega) (by omega)
    norm_num at this
    exact this
  rw [circ_moves henv h1 (by rw [rd, rr, hs, hpl]; exact hce) (by rw [rce, rr, hpl]; exact hg) hvel
    (by rw [rd, rce, hsub]; exact hlg)]
  rw [rd, rce, hsub, hs]
  have hp : Coord.add (Coord.add (⟨m / 100, n / 100, 0, 0⟩ : V4 ℝ) ⟨27 / 100, -778 / 100, 0, 0⟩)
      ⟨-27 / 100, -22 / 100, 0, 0⟩ = ⟨m / 100, n / 100 - 8, 0, 0⟩ := by
    have g1 : GridV (⟨m / 100, n / 100, 0, 0⟩ : V4 ℝ) := by
      have := gridV_hundredth m n 0
      norm_num at this
      exact this
    have g2 : GridV (⟨27 / 100, -778 / 100, 0, 0⟩ : V4 ℝ) := by
      have := gridV_hundredth 27 (-778) 0
      norm_num at this ⊢
      exact this
    apply V4.ext_get
    intro ax
    rw [get_add_grid (gridV_add _ _) hgrid, get_add_grid g1 g2]
    cases ax <;> simp only [V4.get] <;> ring
  rw [hp]
  rfl

/-! ## `G2 X8.54 Y3.54 I5` (relative): an assertion fails -/

theorem assert_point : ∃ P : ℝ × ℝ,
    circlePoint ((854 / 100 : ℝ) - 5) (354 / 100 - 0) (5 ^ 2 + 0 ^ 2) = P ∧
    (3.535 < P.1 ∧ P.1 < 3.5365) ∧ (3.535 < P.2 ∧ P.2 < 3.5365) := by
  refine ⟨_, rfl, ?_⟩
  have h1 : (circlePoint ((854 / 100 : ℝ) - 5) (354 / 100 - 0) (5 ^ 2 + 0 ^ 2)).1 = √(25 / 2) := by
    unfold circlePoint
    norm_num
  have h2 : (circlePoint ((854 / 100 : ℝ) - 5) (354 / 100 - 0) (5 ^ 2 + 0 ^ 2)).2 = √(25 / 2) := by
    have : (circlePoint ((854 / 100 : ℝ) - 5) (354 / 100 - 0) (5 ^ 2 + 0 ^ 2)).2 =
      (if (354 / 100 - 0 : ℝ) < 0 then -1 else 1) * √(5 ^ 2 + 0 ^ 2 -
        (circlePoint ((854 / 100 : ℝ) - 5) (354 / 100 - 0) (5 ^ 2 + 0 ^ 2)).1 ^ 2) := rfl
    rw [this, h1, Real.sq_sqrt (by norm_num)]
    norm_num
  rw [h1, h2]
  have a1 : 3.535 < √((25 : ℝ) / 2) := Real.lt_sqrt_of_sq_lt (by norm_num)
  have a2 : √((25 : ℝ) / 2) < 3.5365 := by rw [Real.sqrt_lt' (by norm_num)]; norm_num
  exact ⟨⟨a1, a2⟩, a1, a2⟩

/-- The default machine fails with an assertion. -/
theorem assert_fails {env : Env ℝ} {s : MState ℝ}
    (hs : s.pos = ⟨100, 100, 0, 0⟩) (hpl : s.plane = .xy) {v : ℝ} :
      moveCircular Cfg.default env ⟨854 / 100, 354 / 100, 0, 0⟩ ⟨5, 0, 0, 0⟩ v .cw s =
        (.error (.assertion "Wrong end point"), s) := by
  have rd := rts_vec (x := 854 / 100) (y := 354 / 100) (z := 0) 854 354 0 (by norm_num) (by norm_num)
    (by norm_num)
  have rr := rts_vec (x := 5) (y := 0) (z := 0) 500 0 0 (by norm_num) (by norm_num) (by norm_num)
  obtain ⟨P, hP, ⟨a1, a2⟩, b1, b2⟩ := assert_point
  norm_num at a1 a2 b1 b2
  have hq : quarter P.1 P.2 = 1 := by
    rw [quarter_eq, if_pos ⟨by linarith, by linarith⟩]
  have hq' : quarter (-(5 : ℝ)) (-0) = 2 := by rw [quarter_eq]; norm_num
  have hce : circleEnd Cfg.default .xy ⟨854 / 100, 354 / 100, 0, 0⟩ ⟨5, 0, 0, 0⟩ ⟨100, 100, 0, 0⟩ .cw =
      .ok ⟨P.1 + 5, P.2 + 0, 0, 0⟩ := by
    refine circleEnd_xy (by norm_num) (by norm_num) hP ?_
    simp only [hq, hq']
    exact fit_at_once (by norm_num)
  have rce : roundToSteps Cfg.default ⟨P.1 + 5, P.2 + 0, 0, 0⟩ = ⟨854 / 100, 354 / 100, 0, 0⟩ := by
    have := rts_default (x := P.1 + 5) (y := P.2 + 0) (z := 0) (m := 854) (n := 354) (l := 0)
      (by rw [abs_lt]; push_cast; constructor <;> norm_num at * <;> linarith)
      (by rw [abs_lt]; push_cast; constructor <;> norm_num at * <;> linarith) (by norm_num)
    rw [this]
    norm_num
  have hend : ¬ arcEndOk Cfg.default (⟨854 / 100, 354 / 100, 0, 0⟩ : V4 ℝ) ⟨5, 0, 0, 0⟩ .xy = true := by
    rw [arcEndOk_eq _ _ _ _ (by rw [coarse_eq, coarse_xy]; norm_num), coarse_eq, coarse_xy]
    obtain ⟨s1, s2⟩ := arc_sizes (da := 854 / 100) (db := 354 / 100) (ra := 5) (rb := 0) (d3 := 0)
      (e := 0)
    rw [s1, s2]
    have e1 : √((5 : ℝ) ^ 2 + 0 ^ 2) = 5 := by
      rw [show (5 : ℝ) ^ 2 + 0 ^ 2 = 5 ^ 2 by norm_num]; exact Real.sqrt_sq (by norm_num)
    have e2 : PyRound.rnd (√((5 : ℝ) ^ 2 + 0 ^ 2) * (100 : ℚ)) = 500 := by
      rw [e1]; exact rnd_unique (by norm_num)
    have e3 : PyRound.rnd (√((854 / 100 - 5 : ℝ) ^ 2 + (354 / 100 - 0) ^ 2) * (100 : ℚ)) = 501 := by
      have h1 : 5.006 < √((854 / 100 - 5 : ℝ) ^ 2 + (354 / 100 - 0) ^ 2) :=
        Real.lt_sqrt_of_sq_lt (by norm_num)
      have h2 : √((854 / 100 - 5 : ℝ) ^ 2 + (354 / 100 - 0) ^ 2) < 5.007 := by
        rw [Real.sqrt_lt' (by norm_num)]; norm_num
      refine rnd_unique ?_
      rw [abs_lt]
      norm_num at h1 h2 ⊢
      constructor <;> linarith
    rw [e2, e3]
    norm_num
  have hnew : CircGen.new Cfg.default (⟨854 / 100, 354 / 100, 0, 0⟩ : V4 ℝ) ⟨5, 0, 0, 0⟩ .xy .cw v =
      .error (.assertion "Wrong end point") := by
    rw [new_eq, if_pos (by simpa using hend)]
  have h1 : checkDelta Cfg.default s.pos (⟨854 / 100, 354 / 100, 0, 0⟩ : V4 ℝ) = .ok () := by
    rw [hs]
    have := area_default (m := 10000) (n := 10000) (l := 0) (m' := 854) (n' := 354) (l' := 0) (by omega)
      (by omega) (by omega)
    norm_num at this ⊢
    exact this
  rcases moveCircular_cases (c := Cfg.default) (env := env) ⟨854 / 100, 354 / 100, 0, 0⟩
    ⟨5, 0, 0, 0⟩ v .cw s with
    ⟨e, h0, h | h | ⟨ce', h, h' | ⟨g', h', _⟩⟩⟩ | ⟨ce', g', lg', _, k2, k3, _⟩
  · rw [rd, h1] at h; cases h
  · rw [rd, rr, hs, hpl, hce] at h; cases h
  · rw [rd, rr, hs, hpl, hce] at h; cases h
    rw [rce, rr, hpl, hnew] at h'; cases h'
    exact h0
  · rw [rd, rr, hs, hpl, hce] at h; cases h
    rw [rce, rr, hpl, hnew] at h'; cases h'
  · rw [rd, rr, hs, hpl, hce] at k2; cases k2
    rw [rce, rr, hpl, hnew] at k3; cases k3

/-! ## `G2 X2 Z0.01 I1 F24000` (relative): rejected for its speed -/

theorem helix_sized : SizedArc Cfg.default ⟨2, 0, 1 / 100, 0⟩ ⟨1, 0, 0, 0⟩ .xy 24000 := by
  obtain ⟨s1, s2⟩ := arc_sizes (da := 2) (db := 0) (ra := 1) (rb := 0) (d3 := 0) (e := 0)
  have e1 : startDist .xy ⟨1, 0, 0, 0⟩ = 1 := by rw [s1]; norm_num
  have e2 : endDist .xy ⟨2, 0, 1 / 100, 0⟩ ⟨1, 0, 0, 0⟩ = 1 := by rw [s2]; norm_num
  refine ⟨?_, ?_, ?_, ?_, ?_, ?_, ?_, ?_, ?_, .inr (.inr ⟨100, by norm_num, by norm_num, ?_, ?_⟩),
    by norm_num⟩
  · simp [axisA, V4.get, Cfg.default]
  · simp [axisB, V4.get, Cfg.default]
  · rw [e1, coarse_xy]; norm_num
  · rw [e1, e2]
  · rw [e1]; norm_num
  · simp only [axis3, V4.get]; norm_num [abs_of_pos]
  · simp
  · intro _; simp only [axis3, V4.get]; norm_num [abs_of_pos]
  · intro h; exact absurd rfl h
  · rw [e1, e2]; norm_num
  · simp only [axisA, axisB, V4.get]; norm_num

theorem helix_sweep : Sweep .xy ⟨2, 0, 1 / 100, 0⟩ ⟨1, 0, 0, 0⟩ .cw π := by
  obtain ⟨s1, s2⟩ := arc_sizes (da := 2) (db := 0) (ra := 1) (rb := 0) (d3 := 0) (e := 0)
  have e1 : startDist .xy ⟨1, 0, 0, 0⟩ = 1 := by rw [s1]; norm_num
  have e2 : endDist .xy ⟨2, 0, 1 / 100, 0⟩ ⟨1, 0, 0, 0⟩ = 1 := by rw [s2]; norm_num
  refine ⟨pi_pos, by linarith [pi_pos], ?_, ?_⟩
  · rw [e1, e2]; simp only [endA, startA, startB, axisA, axisB, V4.get, cos_pi, sin_pi]; norm_num
  · rw [e1, e2]; simp only [endB, startA, startB, axisA, axisB, V4.get, cos_pi, sin_pi]; norm_num

omit [PyRound] in
theorem helix_core {full q : ℝ} (h1 : 3.1 < full) (h2 : full < 3.2)
    (hq : q ^ 2 = full * 3000) (hq0 : 0 ≤ q) : 90 < q := by
  by_contra h
  push Not at h
  nlinarith

theorem helix_fast {g : CircGen ℝ}
    (hg : CircGen.new Cfg.default ⟨2, 0, 1 / 100, 0⟩ ⟨1, 0, 0, 0⟩ .xy .cw 24000 = .ok g) :
    90 < g.maxV.z := by
  have h := helix_sized
  obtain ⟨φs, φe, maxV, hs, he, hadj, hcase⟩ := new_vel hg fun φs φe hs he =>
    (lengths sane_cfg h (rot := .cw) hs he).2.1.ne'
  obtain ⟨l1, l2, -, -, -, l6, -, -⟩ := lengths sane_cfg h (rot := .cw) hs he
  have hturn := arcTurn_sweep hs he helix_sweep
  have hrad : arcRad (arcMpm Cfg.default .xy) .xy (⟨1, 0, 0, 0⟩ : V4 ℝ) = 1 := by
    obtain ⟨s1, -⟩ := arc_sizes (da := 2) (db := 0) (ra := 1) (rb := 0) (d3 := 0) (e := 0)
    rw [arcRad_eq, coarse_eq, coarse_xy, s1]
    rw [show (√((1 : ℝ) ^ 2 + 0 ^ 2) * (100 : ℚ)) = ((100 : ℤ) : ℝ) by norm_num, rnd_int]
    norm_num
  have harc : arcArc Cfg.default (⟨1, 0, 0, 0⟩ : V4 ℝ) .xy .cw φs φe = π := by
    simp only [arcArc, mul_eq, abs_eq, hturn, hrad, mul_one]
  have hfull : arcFull Cfg.default (⟨2, 0, 1 / 100, 0⟩ : V4 ℝ) ⟨1, 0, 0, 0⟩ .xy .cw φs φe =
      √(π ^ 2 + (1 / 100) ^ 2) := by
    simp [arcFull, harc, planeAxes_eq, axis3, V4.get, pow_two]
  have p1 := pi_gt_d2
  have p2 := pi_lt_d2
  have hlo : 3.1 < arcFull Cfg.default (⟨2, 0, 1 / 100, 0⟩ : V4 ℝ) ⟨1, 0, 0, 0⟩ .xy .cw φs φe := by
    rw [hfull]; refine Real.lt_sqrt_of_sq_lt ?_; nlinarith
  have hhi : arcFull Cfg.default (⟨2, 0, 1 / 100, 0⟩ : V4 ℝ) ⟨1, 0, 0, 0⟩ .xy .cw φs φe < 3.2 := by
    rw [hfull, Real.sqrt_lt' (by norm_num)]; nlinarith
  have hM : ∀ ax, 0 < Cfg.default.maxVel.get ax := fun ax =>
    lt_of_lt_of_le (by norm_num) (sane_cfg.maxVel ax)
  have hw0 := arcVel_nonneg (c := Cfg.default) (delta := ⟨2, 0, 1 / 100, 0⟩) (radius := ⟨1, 0, 0, 0⟩)
    (plane := .xy) (v := 24000) (rot := .cw) (φs := φs) (φe := φe) (by norm_num) l1.le
  have hwg := arcVel_get (c := Cfg.default) (delta := ⟨2, 0, 1 / 100, 0⟩) (radius := ⟨1, 0, 0, 0⟩)
    (plane := .xy) (v := 24000) (rot := .cw) (φs := φs) (φe := φe) l2.ne'
  obtain ⟨κ, k1, k2, k3, k4, k5⟩ := adjustVelocity_ok hM hw0 auto_default
  rw [k1] at hadj
  cases hadj
  have sx : arcShare Cfg.default ⟨2, 0, 1 / 100, 0⟩ ⟨1, 0, 0, 0⟩ .xy .cw φs φe .x =
      π / arcFull Cfg.default (⟨2, 0, 1 / 100, 0⟩ : V4 ℝ) ⟨1, 0, 0, 0⟩ .xy .cw φs φe := by
    rw [arcShare, if_pos (.inl rfl), harc]
  have sy : arcShare Cfg.default ⟨2, 0, 1 / 100, 0⟩ ⟨1, 0, 0, 0⟩ .xy .cw φs φe .y =
      π / arcFull Cfg.default (⟨2, 0, 1 / 100, 0⟩ : V4 ℝ) ⟨1, 0, 0, 0⟩ .xy .cw φs φe := by
    rw [arcShare, if_pos (.inr rfl), harc]
  have sz : arcShare Cfg.default ⟨2, 0, 1 / 100, 0⟩ ⟨1, 0, 0, 0⟩ .xy .cw φs φe .z =
      1 / 100 / arcFull Cfg.default (⟨2, 0, 1 / 100, 0⟩ : V4 ℝ) ⟨1, 0, 0, 0⟩ .xy .cw φs φe := by
    rw [arcShare, if_neg (by simp [axisA, axisB])]
    simp only [V4.get]; norm_num [abs_of_pos]
  have se : arcShare Cfg.default ⟨2, 0, 1 / 100, 0⟩ ⟨1, 0, 0, 0⟩ .xy .cw φs φe .e = 0 := by
    rw [arcShare, if_neg (by simp [axisA, axisB])]
    simp only [V4.get]; simp
  rw [harc] at l6
  set full := arcFull Cfg.default (⟨2, 0, 1 / 100, 0⟩ : V4 ℝ) ⟨1, 0, 0, 0⟩ .xy .cw φs φe with hfd
  set w := arcVel Cfg.default ⟨2, 0, 1 / 100, 0⟩ ⟨1, 0, 0, 0⟩ .xy .cw 24000 φs φe with hwd
  have hE : (1 : ℝ) / 2 / E10 = 1 / 2 / 10 ^ 10 := rfl
  have g400 : Grid (400 : ℝ) := ⟨400 * 10 ^ 10, by rw [e10_val]; norm_num⟩
  have g200 : Grid (200 : ℝ) := ⟨200 * 10 ^ 10, by rw [e10_val]; norm_num⟩
  have wy : w.get .y = w.get .x := by rw [hwg, hwg, sx, sy]
  have wx1 : w.get .x ≤ 400 := by
    rw [hwg, sx]
    refine round10_le_grid g400 ?_
    have : π / full ≤ 1 := (div_le_one l2).2 l6
    linarith
  have wx2 : 380 < w.get .x := by
    have h3 := (abs_le.1 (round10_near (π / full * (24000 / 60)))).1
    rw [hwg, sx]
    rw [hE] at h3
    have h4 : 0.96 ≤ π / full := by rw [le_div_iff₀ l2]; norm_num at hhi ⊢; linarith
    generalize PyNum.round10 (π / full * (24000 / 60)) = y at *
    norm_num at h3 h4 ⊢
    linarith
  have wz : 1 < w.get .z ∧ w.get .z < 2 := by
    have h3 := abs_le.1 (round10_near (1 / 100 / full * (24000 / 60)))
    rw [hwg, sz]
    rw [hE] at h3
    have h4 : 0.003 ≤ 1 / 100 / full := by rw [le_div_iff₀ l2]; norm_num at hhi ⊢; linarith
    have h5 : 1 / 100 / full ≤ 0.004 := by rw [div_le_iff₀ l2]; norm_num at hlo ⊢; linarith
    generalize PyNum.round10 (1 / 100 / full * (24000 / 60)) = y at *
    obtain ⟨h3, h6⟩ := h3
    norm_num at h3 h4 h5 h6 ⊢
    constructor <;> linarith
  have we : w.get .e = 0 := by rw [hwg, se, zero_mul, round10_zero]
  have mx : ((Cfg.default.maxVel.get .x : ℚ) : ℝ) = 24000 := by norm_num [V4.get, Cfg.default]
  have my : ((Cfg.default.maxVel.get .y : ℚ) : ℝ) = 12000 := by norm_num [V4.get, Cfg.default]
  have mz : ((Cfg.default.maxVel.get .z : ℚ) : ℝ) = 600 := by norm_num [V4.get, Cfg.default]
  have me : ((Cfg.default.maxVel.get .e : ℚ) : ℝ) = 1500 := by norm_num [V4.get, Cfg.default]
  have hκ : κ = 200 / w.get .y := by
    rcases k5 with rfl | ⟨ax, k6, rfl⟩
    · have := k4 .y
      rw [my, wy] at this
      linarith
    · cases ax
      · rw [mx] at k6; linarith
      · rw [my]
        have : w.get .y ≠ 0 := by rw [wy]; linarith
        field_simp; norm_num
      · rw [mz] at k6; linarith [wz.2]
      · rw [me, we] at k6; norm_num at k6
  have hwy0 : w.get .y ≠ 0 := by rw [wy]; linarith
  have hmy : (Coord.smul w κ).get .y = 200 := by
    rw [get_smul, hκ, mul_div_cancel₀ _ hwy0, round10_grid g200]
  have hfm : 200 ≤ Coord.findMax (Coord.smul w κ) := by rw [← hmy]; exact le_findMax _ _
  have hacc : ((Cfg.default.accel : ℚ) : ℝ) = 3000 := by norm_num [Cfg.default]
  have hmz : 0 < (Coord.smul w κ).get .z := by
    rw [get_smul]
    have h3 := (abs_le.1 (round10_near (w.get .z * κ))).1
    rw [hE] at h3
    have h4 : 0.5 ≤ κ := by
      rw [hκ, wy, le_div_iff₀ (by linarith)]; norm_num; linarith
    have h5 : 1 * 0.5 ≤ w.get .z * κ := by
      have := wz.1
      gcongr
    generalize PyNum.round10 (w.get .z * κ) = y at *
    norm_num at h3 h5
    linarith
  rw [hacc] at hcase
  rcases hcase with ⟨hlt, hmv⟩ | ⟨hle, -⟩
  · have hz : g.maxV.z = full / √(full / 3000) := by
      have : g.maxV.get .z = full / √(full / 3000) := by rw [hmv, get_map, if_pos hmz]
      exact this
    rw [hz]
    exact helix_core hlo hhi (short_speed (by norm_num) l2 (by linarith) hlt).2 (by positivity)
  · exfalso
    norm_num at hhi
    nlinarith

theorem helix_rejected {env : Env ℝ} {s : MState ℝ}
    (hs : s.pos = ⟨100, 100, 0, 0⟩) (hpl : s.plane = .xy) :
      moveCircular Cfg.default env ⟨2, 0, 1 / 100, 0⟩ ⟨1, 0, 0, 0⟩ 24000 .cw s =
        (.error (.gmachine "out of maximum speed"), s) := by
  have rd := rts_vec (x := 2) (y := 0) (z := 1 / 100) 200 0 4 (by norm_num) (by norm_num)
    (by norm_num)
  have rr := rts_vec (x := 1) (y := 0) (z := 0) 100 0 0 (by norm_num) (by norm_num) (by norm_num)
  have hP : circlePoint ((2 : ℝ) - 1) (0 - 0) (1 ^ 2 + 0 ^ 2) = (1, 0) := by
    rw [circlePoint_good (by norm_num) (.inr (.inl (by norm_num)))]
    norm_num
  have hce : circleEnd Cfg.default .xy (⟨2, 0, 1 / 100, 0⟩ : V4 ℝ) ⟨1, 0, 0, 0⟩ ⟨100, 100, 0, 0⟩ .cw =
      .ok ⟨2, 0, 1 / 100, 0⟩ := by
    have := circleEnd_xy (c := Cfg.default) (delta := ⟨2, 0, 1 / 100, 0⟩) (radius := ⟨1, 0, 0, 0⟩)
      (pos := ⟨100, 100, 0, 0⟩) (rot := .cw) (by norm_num) (by norm_num) hP (by
        rw [show quarter (1 : ℝ) 0 = 1 by rw [quarter_eq]; norm_num,
          show quarter (-(1 : ℝ)) (-0) = 2 by rw [quarter_eq]; norm_num]
        exact fit_at_once (by norm_num))
    rw [this]; norm_num
  obtain ⟨g, φs, φe, hg, -, -⟩ := arc_new sane_cfg helix_sized .cw
  have hfast := helix_fast hg
  have hvel : checkVelocity Cfg.default (Gen.circular g).maxVelocity =
      .error (.gmachine "out of maximum speed") := by
    rcases hv : checkVelocity Cfg.default (Gen.circular g).maxVelocity with e | _
    · unfold checkVelocity at hv
      split at hv
      · cases hv; rfl
      · cases hv
    · exfalso
      have h2 := checkVelocity_ok_iff.1 hv .z
      unfold Gen.maxVelocity at h2
      rw [get_smul, secInMin_eq] at h2
      change PyNum.round10 (g.maxV.z * 60) ≤ _ at h2
      have mz : ((Cfg.default.maxVel.get .z : ℚ) : ℝ) = 600 := by norm_num [V4.get, Cfg.default]
      rw [mz] at h2
      have h3 := (abs_le.1 (round10_near (g.maxV.z * 60))).1
      have hE : (1 : ℝ) / 2 / E10 = 1 / 2 / 10 ^ 10 := rfl
      rw [hE] at h3
      generalize PyNum.round10 (g.maxV.z * 60) = y at *
      norm_num at h3
      linarith
  have h1 : checkDelta Cfg.default s.pos (⟨2, 0, 1 / 100, 0⟩ : V4 ℝ) = .ok () := by
    rw [hs]
    have := area_default (m := 10000) (n := 10000) (l := 0) (m' := 200) (n' := 0) (l' := 4) (by omega)
      (by omega) (by omega)
    norm_num at this ⊢
    exact this
  rcases moveCircular_cases (c := Cfg.default) (env := env) ⟨2, 0, 1 / 100, 0⟩ ⟨1, 0, 0, 0⟩ 24000 .cw s with
    ⟨e, h0, h | h | ⟨ce', h, h' | ⟨g', h', h'' | h''⟩⟩⟩ | ⟨ce', g', lg', _, k2, k3, k4, _⟩
  · rw [rd, h1] at h; cases h
  · rw [rd, rr, hs, hpl, hce] at h; cases h
  · rw [rd, rr, hs, hpl, hce] at h; cases h
    rw [rd, rr, hpl, hg] at h'; cases h'
  · rw [rd, rr, hs, hpl, hce] at h; cases h
    rw [rd, rr, hpl, hg] at h'; cases h'
    rw [hvel] at h''; cases h''
    exact h0
  · rw [rd, rr, hs, hpl, hce] at h; cases h
    rw [rd, rr, hpl, hg] at h'; cases h'
    rw [rd, extra_none] at h''; cases h''
  · rw [rd, rr, hs, hpl, hce] at k2; cases k2
    rw [rd, rr, hpl, hg] at k3; cases k3
    rw [hvel] at k4; cases k4

end PyCNC
