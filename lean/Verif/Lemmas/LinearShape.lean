import Verif.Lemmas.LinearLimits

/-!
# Straightness and acceleration of linear moves
-/

set_option linter.unusedSectionVars false

namespace PyCNC

open Spec

variable [PyRound] {c : Cfg} {delta : V4 ℝ} {v : ℝ}

/-- The arithmetic behind `linear_straight`: `n` of `N` pulses are done at the uniform time `m`,
`w` is the rounded velocity. -/
theorem straight_aux {n N : Nat} {d P m q w e lam : ℝ} (hP : 0 < P)
    (hN : |(N : ℝ) - d * P| ≤ 1 / 2) (hm : 0 ≤ m) (hw : |w - d * q| ≤ e) (hd : 0 ≤ d)
    (hn : n ≤ N) (h1 : n < N → m * w * P < n) (h2 : 0 < n → (n : ℝ) - 1 ≤ m * w * P)
    (hlam : lam = min 1 (m * q)) (hw0 : 0 ≤ w) : |(n : ℝ) - lam * d * P| ≤ 1 + e * P * m := by
  have hmP : 0 ≤ m * P := by positivity
  have hlo : d * q * (m * P) ≤ w * (m * P) + e * (m * P) := by
    have := mul_le_mul_of_nonneg_right (by linarith [(abs_le.1 hw).1] : d * q ≤ w + e) hmP
    linarith
  have hhi : w * (m * P) ≤ d * q * (m * P) + e * (m * P) := by
    have := mul_le_mul_of_nonneg_right (by linarith [(abs_le.1 hw).2] : w ≤ d * q + e) hmP
    linarith
  have he : 0 ≤ e * (m * P) := mul_nonneg ((abs_nonneg _).trans hw) hmP
  obtain ⟨hN1, hN2⟩ := abs_le.1 hN
  have hdP : 0 ≤ d * P := by positivity
  have hn' : (n : ℝ) ≤ N := by exact_mod_cast hn
  have hlam1 : lam * (d * P) ≤ d * P := by
    have : lam ≤ 1 := by rw [hlam]; exact min_le_left _ _
    nlinarith
  have hlamq : lam * (d * P) ≤ m * q * (d * P) := by
    have : lam ≤ m * q := by rw [hlam]; exact min_le_right _ _
    exact mul_le_mul_of_nonneg_right this hdP
  have hnn : (0 : ℝ) ≤ n := Nat.cast_nonneg n
  have hup : (n : ℝ) - lam * (d * P) ≤ 1 + e * (m * P) := by
    rcases Nat.eq_zero_or_pos n with h0 | h0
    · subst h0
      have : 0 ≤ lam ∨ lam < 0 := le_or_gt 0 lam
      rcases this with h | h
      · have := mul_nonneg h hdP
        simp only [Nat.cast_zero]; linarith
      · -- then `m * q < 0`, so the axis moves by rounding only
        have hq : lam = m * q := by
          rw [hlam] at h ⊢
          rcases min_choice 1 (m * q) with h3 | h3
          · rw [h3] at h; linarith
          · exact h3
        rw [hq]
        have : 0 ≤ w * (m * P) := by positivity
        simp only [Nat.cast_zero]
        linarith
    · have h3 := h2 h0
      rcases min_choice 1 (m * q) with h4 | h4 <;> rw [h4] at hlam <;> rw [hlam]
      · linarith
      · linarith
  have hdown : lam * (d * P) - n ≤ 1 + e * (m * P) := by
    rcases hn.lt_or_eq with h3 | h3
    · have := h1 h3
      linarith
    · subst h3; linarith
  rw [abs_le]
  constructor <;> linarith

theorem natAbs_total (hc : SaneCfg c) {ax : Axis} {n : ℤ}
    (h : n = PyRound.rnd (|delta.get ax| * c.ppm.get ax)) :
    |(n.toNat : ℝ) - |delta.get ax| * c.ppm.get ax| ≤ 1 / 2 := by
  have hP : (0 : ℝ) < c.ppm.get ax := by exact_mod_cast hc.ppm_pos ax
  have h0 : 0 ≤ n := by
    rw [h, ← rnd_zero]
    exact rnd_mono (by positivity)
  have : (n.toNat : ℝ) = n := by
    have : ((n.toNat : ℤ) : ℝ) = n := by rw [Int.toNat_of_nonneg h0]
    exact_mod_cast this
  rw [this, h]
  exact PyRound.near _

/-- After every event the pulses done are within one step (and the rounding of the velocities)
of a point of the straight segment. -/
theorem linear_straight (hc : SaneCfg c) (hm : OrdinaryMove delta v) {g : LinearGen ℝ}
    (hg : LinearGen.new c delta v = .ok g) (n : Nat) :
    ∃ lam : ℝ, 0 ≤ lam ∧ lam ≤ 1 ∧ ∀ ax,
      |(steps ax ((Gen.linear g).run c n ⟨⟨0, 0, 0, 0⟩, some g.dir⟩).1 : ℝ) -
        lam * |delta.get ax| * c.ppm.get ax| ≤
      1 + 1 / 10 ^ 10 * c.ppm.get ax * (Gen.linear g).totalTime := by
  have hlf := linear_facts hc hm hg
  obtain ⟨g', w, q, h1, hi, _, ht, _, h⟩ := linear_new hc hm
  rw [h1] at hg
  cases hg
  rename LinearGen ℝ => g
  have hT : (Gen.linear g).totalTime = 2 * g.accT + g.linT := by
    simp [Gen.totalTime, Gen.accT, Gen.linT]; ring
  have hT0 : 0 ≤ (Gen.linear g).totalTime := by
    rw [hT]; have := hlf.good.accT; have := hlf.good.linT; linarith
  have h0 : ∀ ax, (⟨0, 0, 0, 0⟩ : V4 Nat).get ax = 0 := fun ax => by cases ax <;> rfl
  have hst := good_run_state hlf.good n ⟨0, 0, 0, 0⟩ (.inl h0)
  simp only [h0, Nat.zero_add] at hst
  rcases hst with hst | ⟨m, hst⟩
  · refine ⟨0, le_rfl, zero_le_one, fun ax => ?_⟩
    have hP : (0 : ℝ) < c.ppm.get ax := by exact_mod_cast hc.ppm_pos ax
    rw [hst ax]
    simp only [Nat.cast_zero, zero_mul, sub_zero, abs_zero]
    positivity
  · -- common velocity ratio, error of the velocities and bound of the uniform time
    obtain ⟨q', e, hq0, hvel, htime⟩ : ∃ q' e : ℝ, 0 ≤ q' ∧
        (∀ ax, |g.maxV.get ax - |delta.get ax| * q'| ≤ e) ∧
        e * (2 * (g.accT * g.accT / (Gen.linear g).twoVmaxPerA c) + g.linT) ≤
          1 / 10 ^ 10 * (Gen.linear g).totalTime := by
      rcases h with h | h
      · refine ⟨q, 1 / E10, hi.q_pos.le, fun ax => ?_, ?_⟩
        · rw [h.maxV, ← abs_get hm]; exact hi.near ax
        · have hk : (Gen.linear g).twoVmaxPerA c = 2 * g.accT := by
            rw [twoVmaxPerA_eq, h.maxV, h.accT]; ring
          have hA : 0 < g.accT := by have := hlf.k_pos; rw [hk] at this; linarith
          have e : 2 * (g.accT * g.accT / (2 * g.accT)) = g.accT := by field_simp
          rw [hk, e, hT, e10_val]
          refine mul_le_mul_of_nonneg_left ?_ (by positivity)
          linarith
      · have hA := h.accT_pos hc hm
        refine ⟨1 / g.accT, 1 / 2 / E10, by positivity, fun ax => ?_, ?_⟩
        · rw [← abs_get hm, mul_one_div]; exact h.near ax
        · have ha0 : (0 : ℝ) < c.accel := by have := accel_ge hc; linarith
          have hAsq := h.accT_sq hc hm
          have hL := norm_ge hm
          have hhalf := half_norm_le hm
          obtain ⟨mx, hmx⟩ := findMax_mem (Coord.abs delta)
          rw [hmx] at hhalf
          have n2 := (abs_le.1 (h.near mx)).1
          have hvmx := le_findMax g.maxV mx
          have hA2 := h.accT_le hc hm
          have hvm : 0 < Coord.findMax g.maxV := by
            have := hlf.k_pos
            rw [twoVmaxPerA_eq] at this
            by_contra h3
            have : 2 * Coord.findMax g.maxV / (c.accel : ℝ) ≤ 0 :=
              div_nonpos_of_nonpos_of_nonneg (by linarith) ha0.le
            linarith
          have e2 : 2 * (g.accT * g.accT / (2 * Coord.findMax g.maxV / c.accel)) =
              norm4 (Coord.abs delta) / Coord.findMax g.maxV := by
            rw [← pow_two, hAsq]; field_simp
          rw [hT, h.linT, add_zero, add_zero, twoVmaxPerA_eq, e2, e10_val]
          have key : norm4 (Coord.abs delta) / Coord.findMax g.maxV ≤ 4 * g.accT := by
            rw [div_le_iff₀ hvm]
            have e3 : (Coord.abs delta).get mx / g.accT * g.accT = (Coord.abs delta).get mx := by
              field_simp
            have e1 : (1 : ℝ) / 2 / E10 = 1 / 20000000000 := by rw [e10_val]; norm_num
            rw [e1] at n2
            have h5 : (Coord.abs delta).get mx / g.accT - 1 / 20000000000 ≤
                Coord.findMax g.maxV := by linarith
            have := mul_le_mul_of_nonneg_right h5 hA.le
            rw [sub_mul, e3] at this
            linarith
          norm_num at key ⊢
          linarith
    set T := 2 * (g.accT * g.accT / (Gen.linear g).twoVmaxPerA c) + g.linT with hTdef
    have hTn : 0 ≤ T := by
      have := hlf.k_pos
      have := hlf.good.accT
      have := hlf.good.linT
      positivity
    have hm0 : 0 ≤ m := (hst .x).2.2.2
    have hm' : 0 ≤ min m T := le_min hm0 hTn
    refine ⟨min 1 (min m T * q'), le_min zero_le_one (by positivity), min_le_left _ _,
      fun ax => ?_⟩
    obtain ⟨s1, s2, s3, _⟩ := hst ax
    have hP : (0 : ℝ) < c.ppm.get ax := by exact_mod_cast hc.ppm_pos ax
    generalize hn : steps ax ((Gen.linear g).run c n ⟨⟨0, 0, 0, 0⟩, some g.dir⟩).1 = k at *
    have hmv := hlf.good.nonneg ax
    refine (straight_aux (N := (g.total.get ax).toNat) (w := g.maxV.get ax) (e := e) (q := q')
      (m := min m T) hP
      (natAbs_total hc (ht ax)) hm' (hvel ax) (abs_nonneg _) s1 (fun hlt => ?_) (fun hpos => ?_)
      rfl hmv).trans ?_
    · have h3 := s2 hlt
      have h4 : 0 < g.maxV.get ax := hlf.good.moving ax (by omega)
      have h5 : min m T < g.pt c ax k := (min_le_left _ _).trans_lt h3
      unfold LinearGen.pt at h5
      rwa [lt_div_iff₀ h4, lt_div_iff₀ hP] at h5
    · have h3 := s3 hpos
      have h4 : 0 < g.maxV.get ax := hlf.good.moving ax (by omega)
      have h5 : g.pt c ax (k - 1) ≤ min m T := le_min h3 (hlf.ends ax _ (by omega))
      unfold LinearGen.pt at h5
      rw [div_le_iff₀ h4, div_le_iff₀ hP] at h5
      rwa [Nat.cast_sub (by omega), Nat.cast_one] at h5
    · have he : 0 ≤ e := (abs_nonneg _).trans (hvel ax)
      have h3 : e * min m T ≤ 1 / 10 ^ 10 * (Gen.linear g).totalTime :=
        (mul_le_mul_of_nonneg_left (min_le_right _ _) he).trans htime
      have := mul_le_mul_of_nonneg_right h3 hP.le
      linarith

/-- Position of a motor as a function of time. -/
noncomputable def LinearGen.where (c : Cfg) (g : LinearGen ℝ) (ax : Axis) (t : ℝ) : ℝ :=
  g.maxV.get ax * travel ((Gen.linear g).twoVmaxPerA c) g.accT g.linT t

/-- Speed of a motor as a function of time. -/
noncomputable def LinearGen.speed (c : Cfg) (g : LinearGen ℝ) (ax : Axis) (t : ℝ) : ℝ :=
  g.maxV.get ax * PyCNC.speed ((Gen.linear g).twoVmaxPerA c) g.accT g.linT t

theorem linear_motion {g : LinearGen ℝ} (hlf : LinFacts c delta g) (ax : Axis) :
    Motion c.accel (g.where c ax) (g.speed c ax) := by
  refine ⟨fun t => (hasDerivAt_travel _ _ _ _).const_mul _, fun t₁ t₂ => ?_⟩
  have h1 := speed_lip (A := g.accT) hlf.k_pos hlf.good.linT t₁ t₂
  have ha0 : (0 : ℝ) < c.accel := by exact_mod_cast hlf.good.accel
  have hv := hlf.good.nonneg ax
  unfold LinearGen.speed
  rw [← mul_sub, _root_.abs_mul, abs_of_nonneg hv]
  calc _ ≤ g.maxV.get ax * (2 / (Gen.linear g).twoVmaxPerA c * |t₁ - t₂|) :=
        mul_le_mul_of_nonneg_left h1 hv
    _ = (g.maxV.get ax * (2 / (Gen.linear g).twoVmaxPerA c)) * |t₁ - t₂| := by ring
    _ ≤ _ := by
      refine mul_le_mul_of_nonneg_right ?_ (abs_nonneg _)
      have hk := hlf.k_pos
      rw [mul_div_assoc', div_le_iff₀ hk, twoVmaxPerA_eq, mul_div_assoc',
        mul_div_assoc, mul_comm (c.accel : ℝ), div_mul_cancel₀ _ ha0.ne'] 
      have := le_findMax g.maxV ax
      linarith

theorem linear_where_pulse {g : LinearGen ℝ} (hlf : LinFacts c delta g) (ax : Axis) {i : Nat}
    (hi : i < (g.total.get ax).toNat) :
    g.where c ax (g.at c (g.pt c ax i)) = (i : ℝ) / c.ppm.get ax := by
  have hmv : 0 < g.maxV.get ax := hlf.good.moving ax (by omega)
  unfold LinearGen.where LinearGen.at
  rw [travel_warp hlf.k_pos hlf.good.accT hlf.good.linT hlf.shape (pt_nonneg hlf.good ax i)
    (hlf.ends ax i hi)]
  unfold LinearGen.pt
  field_simp

theorem linear_starts {g : LinearGen ℝ} (hlf : LinFacts c delta g) (ax : Axis) :
    g.where c ax 0 = 0 ∧ g.speed c ax 0 = 0 := by
  unfold LinearGen.where LinearGen.speed
  rw [travel_zero hlf.good.accT hlf.good.linT, speed_zero hlf.good.accT hlf.good.linT]
  simp

/-- An axis that does not move has no velocity. -/
theorem InitVel.still {w : V4 ℝ} {q : ℝ} (hi : InitVel c delta v w q) (hc : SaneCfg c)
    (hm : OrdinaryMove delta v) {ax : Axis} (hd : (Coord.abs delta).get ax = 0) : w.get ax = 0 := by
  set w0 := Coord.smul (Coord.abs delta) (v / 60 / norm4 (Coord.abs delta)) with hw0
  have h0 : w0.get ax = 0 := by rw [hw0, get_smul, hd, zero_mul, round10_zero]
  rcases ha : c.autoVel with _ | _
  · rw [hi.manual ha]; exact h0
  · have hn : ∀ ax, 0 ≤ w0.get ax := fun ax => by
      have hL := norm_ge hm
      have hv := hm.feed
      rw [hw0, get_smul]
      exact round10_nonneg (mul_nonneg (dist_nonneg hm ax)
        (div_nonneg (by linarith) (by linarith)))
    obtain ⟨κ, h1, _⟩ := adjustVelocity_ok (fun ax => by have := hc.maxVel ax; linarith) hn ha
    have h2 := hi.ok
    rw [h1] at h2
    cases h2
    rw [get_smul, h0, zero_mul, round10_zero]

/-- A move of one axis ends at rest at its target. -/
theorem linear_single_ends (hc : SaneCfg c) (hm : OrdinaryMove delta v) {g : LinearGen ℝ}
    (hg : LinearGen.new c delta v = .ok g) {ax : Axis} (hs : ∀ ax', ax' ≠ ax → delta.get ax' = 0) :
    g.where c ax (2 * g.accT + g.linT) = |delta.get ax| ∧
      g.speed c ax (2 * g.accT + g.linT) = 0 := by
  have hlf := linear_facts hc hm hg
  obtain ⟨g', w, q, h1, hi, _, ht, _, h⟩ := linear_new hc hm
  rw [h1] at hg
  cases hg
  rename LinearGen ℝ => g
  have hL : norm4 (Coord.abs delta) = |delta.get ax| := by
    rw [norm_abs hm, ← Real.sqrt_sq_eq_abs]
    unfold norm4
    congr 1
    cases ax <;> simp only [V4.get]
    · rw [show delta.y = 0 from hs .y nofun, show delta.z = 0 from hs .z nofun,
        show delta.e = 0 from hs .e nofun]; ring
    · rw [show delta.x = 0 from hs .x nofun, show delta.z = 0 from hs .z nofun,
        show delta.e = 0 from hs .e nofun]; ring
    · rw [show delta.x = 0 from hs .x nofun, show delta.y = 0 from hs .y nofun,
        show delta.e = 0 from hs .e nofun]; ring
    · rw [show delta.x = 0 from hs .x nofun, show delta.y = 0 from hs .y nofun,
        show delta.z = 0 from hs .z nofun]; ring
  unfold LinearGen.where LinearGen.speed
  rw [travel_end hlf.k_pos hlf.good.accT hlf.good.linT hlf.shape,
    speed_end hlf.good.accT hlf.good.linT, mul_zero]
  refine ⟨?_, rfl⟩
  have ha0 : (0 : ℝ) < c.accel := by exact_mod_cast hlf.good.accel
  have hax : delta.get ax ≠ 0 := by
    obtain ⟨ax', h'⟩ := hm.some
    by_cases h2 : ax' = ax
    · rwa [← h2]
    · exact absurd (hs ax' h2) h'
  have hmv := hlf.moving ax hax
  have hother : ∀ ax', ax' ≠ ax → g.maxV.get ax' = 0 ∧ (g.maxV = w → w.get ax' = 0) := by
    intro ax' h'
    have hd : (Coord.abs delta).get ax' = 0 := by rw [abs_get hm, hs ax' h', abs_zero]
    have hw0 : w.get ax' = 0 := hi.still hc hm hd
    rcases h with h | h
    · rw [h.maxV]; exact ⟨hw0, fun _ => hw0⟩
    · rw [h.maxV, hd, zero_div, round10_zero]; exact ⟨rfl, fun _ => hw0⟩
  have hmax : Coord.findMax g.maxV = g.maxV.get ax := by
    obtain ⟨f, hf⟩ := findMax_mem g.maxV
    by_cases h2 : f = ax
    · rw [hf, h2]
    · have := le_findMax g.maxV ax
      rw [hf, (hother f h2).1] at this
      linarith
  rw [twoVmaxPerA_eq, hmax]
  rcases h with h | h
  · have hW : norm4 w = w.get ax := by
      have hw0 := fun ax' h' => (hother ax' h').2 h.maxV
      have hnn := hi.nonneg ax
      rw [← abs_of_nonneg hnn, ← Real.sqrt_sq_eq_abs]
      unfold norm4
      congr 1
      cases ax <;> simp only [V4.get]
      · rw [show w.y = 0 from hw0 .y nofun, show w.z = 0 from hw0 .z nofun,
          show w.e = 0 from hw0 .e nofun]; ring
      · rw [show w.x = 0 from hw0 .x nofun, show w.z = 0 from hw0 .z nofun,
          show w.e = 0 from hw0 .e nofun]; ring
      · rw [show w.x = 0 from hw0 .x nofun, show w.y = 0 from hw0 .y nofun,
          show w.e = 0 from hw0 .e nofun]; ring
      · rw [show w.x = 0 from hw0 .x nofun, show w.y = 0 from hw0 .y nofun,
          show w.z = 0 from hw0 .z nofun]; ring
    have hmax' : Coord.findMax w = w.get ax := by rw [← h.maxV]; exact hmax
    rw [h.linT, h.accT, h.maxV, hW, hmax', hL]
    rw [h.maxV] at hmv
    field_simp
    ring
  · have hA := h.accT_pos hc hm
    have hAsq := h.accT_sq hc hm
    rw [h.linT, add_zero, ← pow_two, hAsq, hL]
    field_simp

end PyCNC
