import Verif.Lemmas.LinearNew

/-!
# What the constructor of linear generators builds, in exact arithmetic
-/

set_option linter.unusedSectionVars false

namespace PyCNC

open Spec

variable [PyRound] {c : Cfg} {delta : V4 ℝ} {v : ℝ}

/-- The velocities before the check for a short move. -/
structure InitVel (c : Cfg) (delta : V4 ℝ) (v : ℝ) (w : V4 ℝ) (q : ℝ) : Prop where
  ok : adjustVelocity c (Coord.smul (Coord.abs delta) (v / 60 / norm4 (Coord.abs delta))) = .ok w
  grid : GridV w
  nonneg : ∀ ax, 0 ≤ w.get ax
  q_pos : 0 < q
  q_ge : 1 / 60 ≤ q * norm4 (Coord.abs delta)
  near : ∀ ax, |w.get ax - (Coord.abs delta).get ax * q| ≤ 1 / E10
  limit : c.autoVel = true → ∀ ax, w.get ax ≤ PyNum.round10 ((c.maxVel.get ax : ℝ) / 60)
  manual : c.autoVel = false →
    w = Coord.smul (Coord.abs delta) (v / 60 / norm4 (Coord.abs delta))

/-- The generator of a long move: there is time to reach the velocities `w`. -/
structure LongMove (c : Cfg) (delta w : V4 ℝ) (g : LinearGen ℝ) : Prop where
  cond : Coord.findMax w ^ 2 ≤ c.accel * norm4 (Coord.abs delta)
  maxV : g.maxV = w
  accT : g.accT = Coord.findMax w / c.accel
  linT : g.linT = (norm4 (Coord.abs delta) - Coord.findMax w ^ 2 / c.accel) / norm4 w

/-- The generator of a short move: half of the way is used to accelerate. -/
structure ShortMove (c : Cfg) (delta w : V4 ℝ) (g : LinearGen ℝ) : Prop where
  cond : c.accel * norm4 (Coord.abs delta) < Coord.findMax w ^ 2
  maxV : ∀ ax, g.maxV.get ax = PyNum.round10 ((Coord.abs delta).get ax / g.accT)
  accT : g.accT = √(norm4 (Coord.abs delta) / c.accel)
  linT : g.linT = 0

/-- Velocity of the fastest axis. -/
theorem InitVel.max_ge {w : V4 ℝ} {q : ℝ} (h : InitVel c delta v w q) (hm : OrdinaryMove delta v) :
    1 / 200 ≤ Coord.findMax w := by
  obtain ⟨ax, hax⟩ := findMax_mem (Coord.abs delta)
  have h1 := half_norm_le hm
  rw [hax] at h1
  have h2 := h.q_ge
  have h3 := (abs_le.1 (h.near ax)).1
  have h4 : (1 : ℝ) / E10 ≤ 1 / 1000 := by rw [e10_val]; norm_num
  have h5 := le_findMax w ax
  have h6 : q * norm4 (Coord.abs delta) ≤ q * (2 * (Coord.abs delta).get ax) :=
    mul_le_mul_of_nonneg_left h1 h.q_pos.le
  nlinarith

theorem InitVel.norm_pos {w : V4 ℝ} {q : ℝ} (h : InitVel c delta v w q)
    (hm : OrdinaryMove delta v) : 0 < norm4 w := by
  obtain ⟨ax, hax⟩ := findMax_mem w
  have h1 := h.max_ge hm
  rw [hax] at h1
  have := (le_abs_self _).trans (abs_le_norm4 w ax)
  linarith

theorem InitVel.max_le_norm (w : V4 ℝ) : Coord.findMax w ≤ norm4 w := by
  obtain ⟨ax, hax⟩ := findMax_mem w
  rw [hax]
  exact (le_abs_self _).trans (abs_le_norm4 w ax)

/-- Result of the constructor. -/
theorem linear_new (hc : SaneCfg c) (hm : OrdinaryMove delta v) :
    ∃ g w q, LinearGen.new c delta v = .ok g ∧ InitVel c delta v w q ∧ g.delta = delta ∧
      (∀ ax, g.total.get ax = PyRound.rnd (|delta.get ax| * c.ppm.get ax)) ∧
      (∀ ax, g.dir.get ax = if delta.get ax < 0 then -1 else 1) ∧
      (LongMove c delta w g ∨ ShortMove c delta w g) := by
  obtain ⟨w, q, h1, h2, h3, h4, h5, h6, h7, h8⟩ := initVel hc hm
  have hi : InitVel c delta v w q := ⟨h1, h2, h3, h4, h5, h6, h7, h8⟩
  have hL := norm_ge hm
  have hLpos : 0 < norm4 (Coord.abs delta) := by linarith
  have ha1 : (1 : ℝ) ≤ c.accel := by exact_mod_cast hc.accel
  have ha : (0 : ℝ) < c.accel := by linarith
  have htot : ∀ ax, (⟨PyNum.roundI ((Coord.abs delta).x *ₚ PyNum.ofRat c.ppm.x),
     PyNum.roundI ((Coord.abs delta).y *ₚ PyNum.ofRat c.ppm.y),
     PyNum.roundI ((Coord.abs delta).z *ₚ PyNum.ofRat c.ppm.z),
     PyNum.roundI ((Coord.abs delta).e *ₚ PyNum.ofRat c.ppm.e)⟩ : V4 Int).get ax =
      PyRound.rnd (|delta.get ax| * c.ppm.get ax) := by
    intro ax
    rw [← abs_get hm ax]
    cases ax <;> rfl
  have hsign : ∀ x : ℝ, sign1 x = if x < 0 then -1 else 1 := by
    intro x; simp [sign1]
  have hdir : ∀ ax, (⟨sign1 delta.x, sign1 delta.y, sign1 delta.z, sign1 delta.e⟩ : V4 Int).get ax =
      if delta.get ax < 0 then -1 else 1 := by
    intro ax
    cases ax <;> exact hsign _
  have e1 : pdiv (v /ₚ secInMin) (norm4 (Coord.abs delta)) =
      .ok (v / 60 / norm4 (Coord.abs delta)) := by
    rw [pdiv_ok hLpos.ne']; simp
  by_cases hs : norm4 (Coord.abs delta) <
      c.accel * (Coord.findMax w / c.accel * (Coord.findMax w / c.accel))
  · have hA : 0 < √(norm4 (Coord.abs delta) / c.accel) := Real.sqrt_pos.2 (by positivity)
    have e2 : ∀ x, pdiv x (PyNum.sqrt (norm4 (Coord.abs delta) /ₚ PyNum.ofRat c.accel)) =
        .ok (x / √(norm4 (Coord.abs delta) / c.accel)) := by
      intro x
      rw [← pdiv_ok hA.ne']
      simp
    obtain ⟨mv, e3, hmv⟩ : ∃ mv, Coord.sdiv (Coord.abs delta)
        (PyNum.sqrt (norm4 (Coord.abs delta) /ₚ PyNum.ofRat c.accel)) = .ok mv ∧ ∀ ax,
        mv.get ax = PyNum.round10 ((Coord.abs delta).get ax /
          √(norm4 (Coord.abs delta) / c.accel)) := by
      refine ⟨Coord.new ((Coord.abs delta).x / √(norm4 (Coord.abs delta) / c.accel))
          ((Coord.abs delta).y / √(norm4 (Coord.abs delta) / c.accel))
          ((Coord.abs delta).z / √(norm4 (Coord.abs delta) / c.accel))
          ((Coord.abs delta).e / √(norm4 (Coord.abs delta) / c.accel)), ?_,
        fun ax => (get_new _ _ _ _ ax).trans ?_⟩
      · unfold Coord.sdiv
        rw [e2, e2, e2, e2]
        rfl
      · cases ax <;> rfl
    refine ⟨⟨delta, mv, √(norm4 (Coord.abs delta) / c.accel), zeroF, _, _⟩, w, q, ?_, hi, rfl, htot,
      hdir, .inr ⟨?_, hmv, rfl, zeroF_eq⟩⟩
    · unfold LinearGen.new
      simp only [length_eq]
      rw [e1]
      change (adjustVelocity c (Coord.smul (Coord.abs delta)
        (v / 60 / norm4 (Coord.abs delta))) >>= _) = _
      rw [h1]
      change (if _ then _ else _) = _
      rw [if_pos (by simpa using hs), e3]
      rfl
    · rw [div_mul_div_comm, mul_div_assoc', mul_comm (c.accel : ℝ), mul_div_assoc,
        div_mul_cancel_left₀ ha.ne', ← div_eq_mul_inv, lt_div_iff₀ ha] at hs
      nlinarith
  · have hW := hi.norm_pos hm
    have e2 : ∀ x, pdiv x (norm4 w) = .ok (x / norm4 w) := fun x => pdiv_ok hW.ne'
    refine ⟨⟨delta, w, Coord.findMax w / c.accel, (norm4 (Coord.abs delta) -
      Coord.findMax w / c.accel * (Coord.findMax w / c.accel) * c.accel) / norm4 w, _, _⟩, w, q, ?_,
      hi, rfl, htot, hdir, .inl ⟨?_, rfl, rfl, ?_⟩⟩
    · unfold LinearGen.new
      simp only [length_eq]
      rw [e1]
      change (adjustVelocity c (Coord.smul (Coord.abs delta)
        (v / 60 / norm4 (Coord.abs delta))) >>= _) = _
      rw [h1]
      change (if _ then _ else _) = _
      rw [if_neg (by simpa using hs), e2]
      rfl
    · push Not at hs
      rw [div_mul_div_comm, mul_div_assoc', mul_comm (c.accel : ℝ), mul_div_assoc,
        div_mul_cancel_left₀ ha.ne', ← div_eq_mul_inv, div_le_iff₀ ha] at hs
      nlinarith
    · change _ / _ = _
      congr 1
      field_simp

theorem InitVel.q_lower {w : V4 ℝ} {q : ℝ} (h : InitVel c delta v w q)
    (hm : OrdinaryMove delta v) : 1 / 1200000 ≤ q := by
  have h1 := h.q_ge
  have h2 := norm_le hm
  have h3 := h.q_pos
  nlinarith

theorem InitVel.moving {w : V4 ℝ} {q : ℝ} (h : InitVel c delta v w q)
    (hm : OrdinaryMove delta v) {ax : Axis} (hax : delta.get ax ≠ 0) : 0 < w.get ax := by
  have h1 := h.q_lower hm
  have h2 := hm.ge ax hax
  rw [← abs_get hm] at h2
  have h3 := (abs_le.1 (h.near ax)).1
  have h4 : (1 : ℝ) / E10 ≤ 1 / 10000000000 := by rw [e10_val]; norm_num
  have h5 : (1 : ℝ) / 1000 * (1 / 1200000) ≤ (Coord.abs delta).get ax * q := by
    apply mul_le_mul h2 h1 (by norm_num) (dist_nonneg hm ax)
  linarith

theorem accel_ge (hc : SaneCfg c) : (1 : ℝ) ≤ c.accel := by exact_mod_cast hc.accel

theorem ShortMove.accT_pos {w : V4 ℝ} {g : LinearGen ℝ} (h : ShortMove c delta w g)
    (hc : SaneCfg c) (hm : OrdinaryMove delta v) : 0 < g.accT := by
  have h1 := norm_ge hm
  have h2 := accel_ge hc
  rw [h.accT]
  exact Real.sqrt_pos.2 (div_pos (by linarith) (by linarith))

theorem ShortMove.accT_sq {w : V4 ℝ} {g : LinearGen ℝ} (h : ShortMove c delta w g)
    (hc : SaneCfg c) (hm : OrdinaryMove delta v) :
    g.accT ^ 2 = norm4 (Coord.abs delta) / c.accel := by
  have h1 := norm_ge hm
  have h2 := accel_ge hc
  rw [h.accT]
  exact Real.sq_sqrt (div_nonneg (by linarith) (by linarith))

theorem ShortMove.accT_le {w : V4 ℝ} {g : LinearGen ℝ} (h : ShortMove c delta w g)
    (hc : SaneCfg c) (hm : OrdinaryMove delta v) : g.accT ≤ 142 := by
  have h1 := norm_le hm
  have h2 := accel_ge hc
  have h3 := h.accT_sq hc hm
  have h5 := norm4_nonneg (Coord.abs delta)
  have h4 : norm4 (Coord.abs delta) / c.accel ≤ norm4 (Coord.abs delta) :=
    div_le_self h5 h2
  nlinarith [h.accT_pos hc hm]

theorem ShortMove.near {w : V4 ℝ} {g : LinearGen ℝ} (h : ShortMove c delta w g) (ax : Axis) :
    |g.maxV.get ax - (Coord.abs delta).get ax / g.accT| ≤ 1 / 2 / E10 := by
  rw [h.maxV]; exact round10_near _

theorem ShortMove.moving {w : V4 ℝ} {g : LinearGen ℝ} (h : ShortMove c delta w g)
    (hc : SaneCfg c) (hm : OrdinaryMove delta v) {ax : Axis} (hax : delta.get ax ≠ 0) :
    0 < g.maxV.get ax := by
  have h1 := h.accT_le hc hm
  have h2 := hm.ge ax hax
  rw [← abs_get hm] at h2
  have h3 := (abs_le.1 (h.near ax)).1
  have h4 : (1 : ℝ) / 2 / E10 ≤ 1 / 10000000000 := by rw [e10_val]; norm_num
  have h5 : (1 : ℝ) / 1000 / 142 ≤ (Coord.abs delta).get ax / g.accT := by
    apply div_le_div₀ (dist_nonneg hm ax) h2 (h.accT_pos hc hm) h1
  linarith

theorem total_pos {n : ℤ} {ax : Axis} (h : n = PyRound.rnd (|delta.get ax| * c.ppm.get ax))
    (hn : 0 < n) : delta.get ax ≠ 0 := by
  intro h0
  rw [h0, abs_zero, zero_mul, rnd_zero] at h
  omega

/-- Consequences used by all properties of linear moves. -/
structure LinFacts (c : Cfg) (delta : V4 ℝ) (g : LinearGen ℝ) : Prop where
  good : g.Good c
  total : ∀ ax, g.total.get ax = PyRound.rnd (|delta.get ax| * c.ppm.get ax)
  moving : ∀ ax, delta.get ax ≠ 0 → 0 < g.maxV.get ax
  k_pos : 0 < (Gen.linear g).twoVmaxPerA c
  shape : (Gen.linear g).twoVmaxPerA c = 2 * g.accT ∨ g.linT = 0
  ends : ∀ ax i, i < (g.total.get ax).toNat → g.pt c ax i ≤
    2 * (g.accT * g.accT / (Gen.linear g).twoVmaxPerA c) + g.linT

theorem total_le {hc : SaneCfg c} {n : ℤ} {ax : Axis}
    (h : n = PyRound.rnd (|delta.get ax| * c.ppm.get ax)) {i : Nat} (hi : i < n.toNat) :
    (i : ℝ) / c.ppm.get ax ≤ |delta.get ax| - 1 / (2 * c.ppm.get ax) := by
  have hp : (0 : ℝ) < c.ppm.get ax := by exact_mod_cast hc.ppm_pos ax
  have h1 := rnd_le (|delta.get ax| * c.ppm.get ax)
  rw [← h] at h1
  have h2 : ((i : ℤ) : ℝ) + 1 ≤ n := by
    have : (i : ℤ) + 1 ≤ n := by omega
    exact_mod_cast this
  rw [div_le_iff₀ hp, sub_mul]
  have : 1 / (2 * (c.ppm.get ax : ℝ)) * c.ppm.get ax = 1 / 2 := by field_simp
  rw [this]
  push_cast at h2
  linarith

theorem ppm_inv (hc : SaneCfg c) (ax : Axis) : (1 : ℝ) / 2000 ≤ 1 / (2 * c.ppm.get ax) := by
  have hp : (0 : ℝ) < c.ppm.get ax := by exact_mod_cast hc.ppm_pos ax
  have hp2 : (c.ppm.get ax : ℝ) ≤ 1000 := by exact_mod_cast hc.ppm_le ax
  rw [div_le_div_iff₀ (by norm_num) (by linarith)]
  linarith

theorem norm_w_le {w : V4 ℝ} {q : ℝ} (h : InitVel c delta v w q) :
    norm4 w ≤ q * norm4 (Coord.abs delta) + 2 / E10 := by
  refine (norm4_sub_le w (Coord.abs delta) q h.q_pos.le).trans ?_
  have : norm4 ⟨w.x - q * (Coord.abs delta).x, w.y - q * (Coord.abs delta).y,
      w.z - q * (Coord.abs delta).z, w.e - q * (Coord.abs delta).e⟩ ≤ 2 * (1 / E10) := by
    refine norm4_le fun ax => ?_
    have := h.near ax
    cases ax <;> simp only [V4.get] at this ⊢ <;> rw [mul_comm q] <;> exact this
  have e : (2 : ℝ) * (1 / E10) = 2 / E10 := by ring
  linarith

theorem long_facts {w : V4 ℝ} {q : ℝ} {g : LinearGen ℝ} (hc : SaneCfg c)
    (hm : OrdinaryMove delta v) (hi : InitVel c delta v w q) (h : LongMove c delta w g)
    (htot : ∀ ax, g.total.get ax = PyRound.rnd (|delta.get ax| * c.ppm.get ax)) :
    LinFacts c delta g := by
  have ha1 := accel_ge hc
  have ha : (0 : ℝ) < c.accel := by linarith
  have hwm := hi.max_ge hm
  have hL := norm_ge hm
  have hW := hi.norm_pos hm
  have hA : 0 < g.accT := by rw [h.accT]; exact div_pos (by linarith) ha
  have hk : (Gen.linear g).twoVmaxPerA c = 2 * g.accT := by
    rw [twoVmaxPerA_eq, h.maxV, h.accT]; ring
  have hB : 0 ≤ g.linT := by
    rw [h.linT]
    refine div_nonneg ?_ hW.le
    rw [sub_nonneg, div_le_iff₀ ha]
    have := h.cond
    linarith
  refine ⟨⟨hc.ppm_pos, by have := hc.accel; linarith, fun ax => by rw [h.maxV]; exact hi.nonneg ax,
    fun ax hax => ?_, hA.le, hB⟩, htot, fun ax hax => ?_, by rw [hk]; linarith, .inl hk,
    fun ax i hlt => ?_⟩
  · rw [h.maxV]
    exact hi.moving hm (total_pos (htot ax) hax)
  · rw [h.maxV]; exact hi.moving hm hax
  · have hmv : 0 < w.get ax := hi.moving hm (total_pos (htot ax) (by omega))
    have h1 := total_le (hc := hc) (htot ax) hlt
    have h2 := ppm_inv hc ax
    have h3 := norm_w_le hi
    have h4 := (abs_le.1 (hi.near ax)).1
    have h5 := hi.q_ge
    have h6 := norm_le hm
    have hmax := InitVel.max_le_norm w
    rw [← abs_get hm] at h1
    have hd := dist_le hm ax
    have hd0 := dist_nonneg hm ax
    have hq := hi.q_pos
    -- the uniform time of the last pulse is at most L / |w|
    have key : g.pt c ax i ≤ norm4 (Coord.abs delta) / norm4 w := by
      unfold LinearGen.pt
      rw [h.maxV, div_le_div_iff₀ hmv hW]
      have h7 : (i : ℝ) / c.ppm.get ax ≤ (Coord.abs delta).get ax - 1 / 2000 := by linarith
      have h8 : (i : ℝ) / c.ppm.get ax * norm4 w ≤ ((Coord.abs delta).get ax - 1 / 2000) *
          norm4 w := mul_le_mul_of_nonneg_right h7 hW.le
      have h0 : 0 ≤ (Coord.abs delta).get ax - 1 / 2000 := by
        refine le_trans ?_ h7
        have : (0 : ℝ) < c.ppm.get ax := by exact_mod_cast hc.ppm_pos ax
        positivity
      have h9 : ((Coord.abs delta).get ax - 1 / 2000) * norm4 w ≤
          ((Coord.abs delta).get ax - 1 / 2000) * (q * norm4 (Coord.abs delta) + 2 / E10) :=
        mul_le_mul_of_nonneg_left h3 h0
      have h10 : norm4 (Coord.abs delta) * ((Coord.abs delta).get ax * q - 1 / E10) ≤
          norm4 (Coord.abs delta) * w.get ax :=
        mul_le_mul_of_nonneg_left (by linarith) (norm4_nonneg _)
      refine h8.trans (h9.trans (le_trans ?_ h10))
      have e1 : (1 : ℝ) / E10 = 1 / 10000000000 := by rw [e10_val]; norm_num
      have e2 : (2 : ℝ) / E10 = 2 / 10000000000 := by rw [e10_val]; norm_num
      rw [e1, e2]
      nlinarith
    refine key.trans ?_
    rw [hk, h.linT]
    have e : 2 * (g.accT * g.accT / (2 * g.accT)) = g.accT := by field_simp
    rw [e, sub_div, h.accT]
    have : Coord.findMax w ^ 2 / c.accel / norm4 w ≤ Coord.findMax w / c.accel := by
      rw [div_le_iff₀ hW, div_mul_eq_mul_div]
      refine div_le_div_of_nonneg_right ?_ ha.le
      rw [pow_two]
      exact mul_le_mul_of_nonneg_left hmax (by linarith)
    linarith

theorem short_facts {w : V4 ℝ} {g : LinearGen ℝ} (hc : SaneCfg c)
    (hm : OrdinaryMove delta v) (h : ShortMove c delta w g)
    (htot : ∀ ax, g.total.get ax = PyRound.rnd (|delta.get ax| * c.ppm.get ax)) :
    LinFacts c delta g := by
  have ha1 := accel_ge hc
  have ha : (0 : ℝ) < c.accel := by linarith
  have hL := norm_ge hm
  have hA := h.accT_pos hc hm
  have hA2 := h.accT_le hc hm
  have hAsq := h.accT_sq hc hm
  obtain ⟨mx, hmx⟩ := findMax_mem (Coord.abs delta)
  have hmx0 : delta.get mx ≠ 0 := by
    intro h0
    have := half_norm_le hm
    rw [hmx, abs_get hm, h0, abs_zero] at this
    linarith
  have hVm : 0 < Coord.findMax g.maxV := (h.moving hc hm hmx0).trans_le (le_findMax _ _)
  have hk : 0 < (Gen.linear g).twoVmaxPerA c := by
    rw [twoVmaxPerA_eq]; positivity
  refine ⟨⟨hc.ppm_pos, by have := hc.accel; linarith, fun ax => ?_,
    fun ax hax => ?_, hA.le, h.linT.ge⟩, htot, fun ax hax => h.moving hc hm hax, hk, .inr h.linT,
    fun ax i hlt => ?_⟩
  · rw [h.maxV]; exact round10_nonneg (div_nonneg (dist_nonneg hm ax) hA.le)
  · exact h.moving hc hm (total_pos (htot ax) hax)
  · have hmv : 0 < g.maxV.get ax := h.moving hc hm (total_pos (htot ax) (by omega))
    have h1 := total_le (hc := hc) (htot ax) hlt
    have h2 := ppm_inv hc ax
    have h4 := (abs_le.1 (h.near ax)).1
    rw [← abs_get hm] at h1
    have hd := dist_le hm ax
    have hd0 := dist_nonneg hm ax
    obtain ⟨fx, hfx⟩ := findMax_mem g.maxV
    have h5 := (abs_le.1 (h.near fx)).2
    have h6 := half_norm_le hm
    have h7 : (Coord.abs delta).get fx ≤ norm4 (Coord.abs delta) := dist_le hm fx
    have h8 := le_findMax g.maxV mx
    have h9 := (abs_le.1 (h.near mx)).1
    have hd' := dist_le hm mx
    have e1 : (1 : ℝ) / 2 / E10 = 1 / 20000000000 := by rw [e10_val]; norm_num
    rw [e1] at h4 h5 h9
    rw [h.linT, add_zero, twoVmaxPerA_eq]
    have e2 : 2 * (g.accT * g.accT / (2 * Coord.findMax g.maxV / c.accel)) =
        norm4 (Coord.abs delta) / Coord.findMax g.maxV := by
      rw [← pow_two, hAsq]; field_simp
    rw [e2]
    unfold LinearGen.pt
    rw [div_le_div_iff₀ hmv hVm]
    set L := norm4 (Coord.abs delta) with hLdef
    set d := (Coord.abs delta).get ax with hddef
    set A := g.accT with hAdef
    -- all velocities times `A`
    have f1 : d - A / 20000000000 ≤ g.maxV.get ax * A := by
      have : d / A * A = d := by field_simp
      nlinarith
    have f2 : Coord.findMax g.maxV * A ≤ L + A / 20000000000 := by
      have : (Coord.abs delta).get fx / A * A = (Coord.abs delta).get fx := by field_simp
      rw [hfx]
      nlinarith
    have f3 : L / 2 - A / 20000000000 ≤ Coord.findMax g.maxV * A := by
      have : (Coord.abs delta).get mx / A * A = (Coord.abs delta).get mx := by field_simp
      nlinarith
    have h10 : (i : ℝ) / c.ppm.get ax ≤ d - 1 / 2000 := by linarith
    have h0 : 0 ≤ d - 1 / 2000 := by
      refine le_trans ?_ h10
      have : (0 : ℝ) < c.ppm.get ax := by exact_mod_cast hc.ppm_pos ax
      positivity
    have h11 : (i : ℝ) / c.ppm.get ax * (Coord.findMax g.maxV * A) ≤ L * (g.maxV.get ax * A) := by
      have g1 : (i : ℝ) / c.ppm.get ax * (Coord.findMax g.maxV * A) ≤
          (d - 1 / 2000) * (L + A / 20000000000) :=
        mul_le_mul h10 f2 (by positivity) h0
      have g2 : L * (d - A / 20000000000) ≤ L * (g.maxV.get ax * A) :=
        mul_le_mul_of_nonneg_left f1 (by linarith)
      refine g1.trans (le_trans ?_ g2)
      nlinarith
    have h12 : ((i : ℝ) / c.ppm.get ax * Coord.findMax g.maxV) * A ≤
        (L * g.maxV.get ax) * A := by linarith
    exact le_of_mul_le_mul_right h12 hA

/-- The facts for the generator that the constructor builds. -/
theorem linear_facts (hc : SaneCfg c) (hm : OrdinaryMove delta v) {g : LinearGen ℝ}
    (hg : LinearGen.new c delta v = .ok g) : LinFacts c delta g := by
  obtain ⟨g', w, q, h1, hi, _, ht, _, h⟩ := linear_new hc hm
  rw [h1] at hg
  cases hg
  rcases h with h | h
  · exact long_facts hc hm hi h ht
  · exact short_facts hc hm h ht

end PyCNC
