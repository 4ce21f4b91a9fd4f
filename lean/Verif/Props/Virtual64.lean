import Verif.Lemmas.Virtual64
import Verif.Props.Virtual
import Verif.Props.Interp64

/-!
# Property C88: straight moves pass the self-test of the virtual machine in binary64

The counterpart of C64 for the arithmetic that the program uses.
-/

namespace PyCNC.Props

open PyCNC Spec

section

variable [PyRound] {c : Cfg}

/-- **C88.** No assertion of the virtual machine fails for a straight move computed in binary64: with
automatic velocity adjustment, no axis allowed to make more than 700000 steps per second, at least
one step per millimetre, and distances that are not close to the middle of two numbers with ten
decimals.  Missing: other distances (`C88_refuted`). -/
theorem C88_move_partial (hc : SaneCfg c) (hl : DecimalLimits c)
    (hf : ∀ ax, c.maxVel.get ax ≤ 60000) (ha : c.autoVel = true) (hp : ∀ ax, 1 ≤ c.ppm.get ax)
    (hslow : ∀ ax, c.ppm.get ax * (c.maxVel.get ax / 60) ≤ 7 * 10 ^ 5)
    {d : V4 F64} {n : V4 ℤ} {v : F64}
    (hn : ∀ ax, |(n.get ax : ℝ)| ≤ 10 ^ 4 * c.ppm.get ax)
    (hd : ∀ ax, |(d.get ax).1 * c.ppm.get ax - n.get ax| ≤ 499 / 1000)
    (hk : ∀ ax, ∃ k : ℤ, |(n.get ax : ℝ) / c.ppm.get ax * 10 ^ 10 - k| ≤ 2 / 5)
    (h0 : ∃ ax, n.get ax ≠ 0) (hv : 1 ≤ v.1) :
    ∃ g, LinearGen.new c (roundToSteps c d) v = .ok g ∧
      ∃ N, ∀ m, N ≤ m → HalVirtual.move c (.linear g) m = some (.ok ()) := by
  have hs := roundToSteps64 hc hn hd
  obtain ⟨g, hg, _⟩ := linear64_new hc hs h0 hv
  refine ⟨g, hg, virtual64 hc hl hf ha hslow hs h0 hv hg fun ax => ?_⟩
  obtain ⟨k, hk⟩ := hk ax
  rw [countOf64 (hc.ppm_pos ax) (hc.ppm_le ax) (hn ax) hk]
  refine (stepsOf64 hc (hn ax) (hd ax) ?_ hk).symm
  have hp1 : (1 : ℝ) ≤ c.ppm.get ax := by exact_mod_cast hp ax
  have h1 := hn ax
  have h2 := hd ax
  generalize (d.get ax).1 = x at *
  generalize (c.ppm.get ax : ℝ) = P at *
  generalize (n.get ax : ℝ) = m at *
  have h3 : |x * P| ≤ (10 ^ 4 + 1) * P := by
    have := abs_sub_abs_le_abs_sub (x * P) m
    linarith
  rw [abs_mul, abs_of_pos (by linarith : (0 : ℝ) < P)] at h3
  have := le_of_mul_le_mul_right h3 (by linarith : (0 : ℝ) < P)
  norm_num at *
  linarith

/-- **C88 for programs**: with the virtual machine as back end, a program of straight moves is
executed like the reference interpreter does; no assertion fails and no exception escapes. -/
theorem C88_program [PyText] {env : Env F64} (hc : FloatMachine c)
    (hslow : ∀ ax, c.ppm.get ax * (c.maxVel.get ax / 60) ≤ 7 * 10 ^ 5)
    (henv : ∀ g tr, (∃ m, HalVirtual.move c g m = some (.ok ())) → env.move (.move g :: tr) = none)
    (prog : List (List Char × Line))
    (hp : ∀ p ∈ prog, ∃ g, parseLine p.1 = .ok (some g) ∧ Says g p.2)
    (hx : TameRun c (Ref.init c) (prog.map (·.2))) :
    ∃ s, machineRun c env (MState.init c) (prog.map (·.1)) =
        some (((Ref.init c).run c (prog.map (·.2))).1, s) ∧
      Matches64 c s ((Ref.init c).run c (prog.map (·.2))).2 := by
  have hcarry : Carries c env := by
    intro lg d v n tr hs h0 hv hlg hd
    suffices h : ∀ ax, PyNum.round10 (ofInt (n.get ax) /ₚ PyNum.ofRat (c.ppm.get ax)) = d.get ax by
      obtain ⟨N, hN⟩ := virtual64 hc.plain.sane.cfg hc.plain.limits hc.fast hc.plain.auto hslow hs h0
        hv hlg h
      exact henv _ _ ⟨N, hN N le_rfl⟩
    intro ax
    rw [hd]
    have hk : ∃ k : ℤ, |(n.get ax : ℝ) / c.ppm.get ax * 10 ^ 10 - k| ≤ 2 / 5 := by
      by_cases hax : ax = .e
      · subst hax; exact hc.stepE _
      · obtain ⟨k, hk⟩ := (decimalStep_ppm (hc.plain.step ax hax)).2 (n.get ax)
        refine ⟨k, ?_⟩
        rw [hk, e10_val, div_mul_cancel₀ _ (by norm_num), sub_self, abs_zero]
        norm_num
    obtain ⟨k, hk⟩ := hk
    rw [countOf64 (hc.plain.sane.cfg.ppm_pos ax) (hc.plain.sane.cfg.ppm_le ax) (hs.size ax) hk]
    have : PyRound.rnd ((n.get ax : ℝ) / c.ppm.get ax * 10 ^ 10) = k :=
      rnd_unique (lt_of_le_of_lt hk (by norm_num))
    unfold dec
    rw [this]
  obtain ⟨s, h1, h2, _⟩ := program_matches64 hc hcarry prog hp (Q := fun _ => True)
    (fun _ _ _ _ => trivial) (refOk_init hc) matches_init64 hx (tame_extrudes hx) trivial
  exact ⟨s, h1, h2⟩

/-- The default configuration, with 40000 steps per second at most, and the program of C57. -/
example [PyText] : FloatMachine Cfg.default ∧
    (∀ ax, Cfg.default.ppm.get ax * (Cfg.default.maxVel.get ax / 60) ≤ 7 * 10 ^ 5) ∧
    TameRun Cfg.default (Ref.init Cfg.default) (refProgram.map (·.2)) ∧
    ∀ p ∈ refProgram, ∃ g, parseLine p.1 = .ok (some g) ∧ Says g p.2 :=
  ⟨default_float, fun ax => by cases ax <;> norm_num [V4.get, Cfg.default], refProgram_tame,
    refProgram_says⟩

/-- A move by 1/3 mm of X and 1/150 mm of E. -/
example : ∃ (d : V4 F64) (n : V4 ℤ), n.x = 33 ∧ n.e = 1 ∧
    (∀ ax, 1 ≤ Cfg.default.ppm.get ax) ∧
    (∀ ax, |(n.get ax : ℝ)| ≤ 10 ^ 4 * Cfg.default.ppm.get ax) ∧
    (∀ ax, |(d.get ax).1 * Cfg.default.ppm.get ax - n.get ax| ≤ 499 / 1000) ∧
    (∀ ax, ∃ k : ℤ, |(n.get ax : ℝ) / Cfg.default.ppm.get ax * 10 ^ 10 - k| ≤ 2 / 5) ∧
    ∃ ax, n.get ax ≠ 0 := by
  refine ⟨⟨F64.of (1 / 3), F64.of 0, F64.of 0, F64.of (1 / 150)⟩, ⟨33, 0, 0, 1⟩, rfl, rfl,
    fun ax => ?_, fun ax => ?_, fun ax => ?_, fun ax => ?_, .x, by decide⟩
  · cases ax <;> norm_num [V4.get, Cfg.default]
  · cases ax <;> norm_num [V4.get, Cfg.default]
  · cases ax
    · simp only [V4.get, val_of]
      have h1 := fl_lo (show (0 : ℝ) ≤ 1 / 3 by norm_num)
      have h2 := fl_hi (show (0 : ℝ) ≤ 1 / 3 by norm_num)
      generalize fl (1 / 3 : ℝ) = x at *
      rw [abs_le]
      norm_num [Cfg.default] at *
      constructor <;> linarith
    · simp [V4.get, val_of, fl_zero]; norm_num
    · simp [V4.get, val_of, fl_zero]; norm_num
    · simp only [V4.get, val_of]
      have h1 := fl_lo (show (0 : ℝ) ≤ 1 / 150 by norm_num)
      have h2 := fl_hi (show (0 : ℝ) ≤ 1 / 150 by norm_num)
      generalize fl (1 / 150 : ℝ) = x at *
      rw [abs_le]
      norm_num [Cfg.default] at *
      constructor <;> linarith
  · cases ax
    · exact ⟨3300000000, by norm_num [V4.get, Cfg.default]⟩
    · exact ⟨0, by norm_num [V4.get, Cfg.default]⟩
    · exact ⟨0, by norm_num [V4.get, Cfg.default]⟩
    · exact ⟨66666667, by rw [abs_le]; constructor <;> norm_num [V4.get, Cfg.default]⟩

end

/-! ## A distance that the virtual machine rejects -/

/-- The default configuration with 837 steps per millimetre of extrusion. -/
def cfg837 : Cfg := { Cfg.default with ppm := { Cfg.default.ppm with e := 837 } }

theorem fl_a837 : fl ((857705 : ℝ) / 837) = 4506841675993377 * 2 ^ (-42 : ℤ) := by
  have := fl_val (x := 857705 / 837) (k := -42) (m := 4506841675993377)
    (by rw [abs_of_pos (by norm_num)]; norm_num) (by rw [abs_of_pos (by norm_num)]; norm_num)
    (by rw [abs_lt]; constructor <;> norm_num)
  rw [this]; norm_num

theorem fl_s837 : fl ((1 : ℝ) / 837) = 5509780189280033 * 2 ^ (-62 : ℤ) := by
  have := fl_val (x := 1 / 837) (k := -62) (m := 5509780189280033)
    (by rw [abs_of_pos (by norm_num)]; norm_num) (by rw [abs_of_pos (by norm_num)]; norm_num)
    (by rw [abs_lt]; constructor <;> norm_num)
  rw [this]; norm_num

theorem fl_b837 : fl (857705 * fl ((1 : ℝ) / 837)) = 4506841675993376 * 2 ^ (-42 : ℤ) := by
  rw [fl_s837]
  have := fl_val (x := 857705 * (5509780189280033 * 2 ^ (-62 : ℤ))) (k := -42)
    (m := 4506841675993376)
    (by rw [abs_of_pos (by norm_num)]; norm_num) (by rw [abs_of_pos (by norm_num)]; norm_num)
    (by rw [abs_lt]; constructor <;> norm_num)
  rw [this]; norm_num

theorem ppm_cfg837 (ax : Axis) : 1 ≤ cfg837.ppm.get ax ∧ cfg837.ppm.get ax ≤ 837 := by
  cases ax <;> norm_num [cfg837, Cfg.default, V4.get]

theorem maxVel_cfg837 (ax : Axis) : cfg837.maxVel.get ax = Cfg.default.maxVel.get ax := by
  cases ax <;> rfl

variable [PyRound]

/-- **C88 is false** without the condition on distances: with 837 steps per millimetre of extrusion
the virtual machine stops with an `AssertionError` at `G1 E1024.737`, which is 857705 steps: the
distance computed as `857705 * (1 / 837)` is rounded down to ten decimals, `857705 / 837` up. -/
theorem C88_refuted : SaneCfg cfg837 ∧ DecimalLimits cfg837 ∧
    (∀ ax, cfg837.maxVel.get ax ≤ 60000) ∧ cfg837.autoVel = true ∧ (∀ ax, 1 ≤ cfg837.ppm.get ax) ∧
    (∀ ax, cfg837.ppm.get ax * (cfg837.maxVel.get ax / 60) ≤ 7 * 10 ^ 5) ∧
    ∃ (d : V4 F64) (v : F64) (g : LinearGen F64), d = ⟨F64.of 0, F64.of 0, F64.of 0, F64.of 1024.737⟩ ∧
      v = F64.of 600 ∧ LinearGen.new cfg837 (roundToSteps cfg837 d) v = .ok g ∧
      ∃ N, ∀ m, N ≤ m → ∃ msg, HalVirtual.move cfg837 (.linear g) m =
        some (.error (.assertion msg)) := by
  have hc : SaneCfg cfg837 := by
    have h := default_sane true
    refine ⟨fun ax => by linarith [(ppm_cfg837 ax).1], fun ax => by linarith [(ppm_cfg837 ax).2],
      h.accel, fun ax => ?_, fun ax => ?_⟩
    · exact h.maxVel ax
    · exact h.maxVel_le ax
  have hf : ∀ ax, cfg837.maxVel.get ax ≤ 60000 := by
    intro ax
    cases ax <;> norm_num [cfg837, V4.get, Cfg.default]
  refine ⟨hc, default_limits true, hf, rfl, fun ax => (ppm_cfg837 ax).1, fun ax => by
    cases ax <;> norm_num [cfg837, V4.get, Cfg.default], ?_⟩
  set d : V4 F64 := ⟨F64.of 0, F64.of 0, F64.of 0, F64.of 1024.737⟩ with hdd
  have hpe : ((cfg837.ppm.get .e : ℚ) : ℝ) = 837 := by norm_num [cfg837, V4.get]
  have hn : ∀ ax, |(((⟨0, 0, 0, 857705⟩ : V4 ℤ).get ax : ℤ) : ℝ)| ≤ 10 ^ 4 * cfg837.ppm.get ax := by
    intro ax
    cases ax
    · simp only [V4.get]; norm_num [cfg837, Cfg.default]
    · simp only [V4.get]; norm_num [cfg837, Cfg.default]
    · simp only [V4.get]; norm_num [cfg837, Cfg.default]
    · rw [hpe]; simp only [V4.get]; norm_num
  have hd : ∀ ax, |(d.get ax).1 * cfg837.ppm.get ax - (⟨0, 0, 0, 857705⟩ : V4 ℤ).get ax| ≤
      499 / 1000 := by
    intro ax
    cases ax
    · simp [hdd, V4.get, val_of, fl_zero]; norm_num
    · simp [hdd, V4.get, val_of, fl_zero]; norm_num
    · simp [hdd, V4.get, val_of, fl_zero]; norm_num
    · rw [hpe]
      simp only [hdd, V4.get, val_of]
      have h1 := fl_lo (show (0 : ℝ) ≤ 1024.737 by norm_num)
      have h2 := fl_hi (show (0 : ℝ) ≤ 1024.737 by norm_num)
      generalize fl (1024.737 : ℝ) = x at *
      rw [abs_le]
      norm_num at *
      constructor <;> linarith
  have hs := roundToSteps64 hc hn hd
  have hv : (1 : ℝ) ≤ (F64.of 600).1 := by
    rw [val_of]
    exact le_fl_of_le fl_one (by norm_num)
  obtain ⟨g, hg, hgood⟩ := linear64_new hc hs ⟨.e, by decide⟩ hv
  refine ⟨d, F64.of 600, g, rfl, rfl, hg, ?_⟩
  obtain ⟨evs, N, hN⟩ := linear64_done hgood
  have hnet := train64 hc hs hg ⟨N, hN⟩ .e
  have hnet : netSteps cfg837 .e evs = 857705 := hnet
  -- the two roundings
  have hwe : (roundToSteps cfg837 d).get .e = F64.of ((10247371565113 : ℤ) / 10 ^ 10) := by
    have e1 : (roundToSteps cfg837 d).get .e = PyNum.round10 (Coord.roundTo (d.get .e)
      (PyNum.ofRat 1 /ₚ PyNum.ofRat (cfg837.ppm.get .e))) := rfl
    have e2 : (PyNum.ofRat 1 /ₚ PyNum.ofRat (cfg837.ppm.get .e) : F64).1 = fl (1 / 837) := by
      rw [val_div, val_ofRat, val_ofRat, hpe]
      have h1 : fl ((1 : ℚ) : ℝ) = 1 := by simp [fl_one]
      have h2 : fl (837 : ℝ) = 837 := by
        have := fl_int 837 (by norm_num)
        simpa using this
      rw [h1, h2]
    have e3 : PyNum.roundI (d.get .e /ₚ (PyNum.ofRat 1 /ₚ PyNum.ofRat (cfg837.ppm.get .e)) : F64) =
        857705 := by
      change PyRound.rnd (fl ((d.get .e).1 / (PyNum.ofRat 1 /ₚ PyNum.ofRat (cfg837.ppm.get .e) : F64).1)) = _
      rw [e2, fl_s837]
      simp only [hdd, V4.get, val_of]
      apply rnd_unique
      have h1 := fl_lo (show (0 : ℝ) ≤ 1024.737 by norm_num)
      have h2 := fl_hi (show (0 : ℝ) ≤ 1024.737 by norm_num)
      generalize fl (1024.737 : ℝ) = x at *
      have h3 : (0 : ℝ) ≤ x / (5509780189280033 * 2 ^ (-62 : ℤ)) := by
        refine div_nonneg ?_ (by norm_num)
        norm_num at *; linarith
      have h4 := fl_lo h3
      have h5 := fl_hi h3
      have h6 : x / (5509780189280033 * 2 ^ (-62 : ℤ)) ≤ 857704.9 := by
        rw [div_le_iff₀ (by norm_num)]; norm_num at *; linarith
      have h7 : 857704.8 ≤ x / (5509780189280033 * 2 ^ (-62 : ℤ)) := by
        rw [le_div_iff₀ (by norm_num)]; norm_num at *; linarith
      generalize x / (5509780189280033 * 2 ^ (-62 : ℤ)) = y at *
      generalize fl y = z at *
      rw [abs_lt]
      norm_num at *
      constructor <;> linarith
    rw [e1]
    refine round10_dec64 ⟨10247371565113, by rw [e10_val]⟩ ?_
    unfold Coord.roundTo
    rw [e3, val_mul, val_ofInt, fl_int _ (by norm_num), e2]
    have := fl_b837
    push_cast
    rw [this, abs_lt]
    constructor <;> norm_num
  have hcnt : PyNum.round10 (ofInt 857705 /ₚ PyNum.ofRat (cfg837.ppm.get .e) : F64) =
      F64.of ((10247371565114 : ℤ) / 10 ^ 10) := by
    refine round10_dec64 ⟨10247371565114, by rw [e10_val]⟩ ?_
    have h2 : fl (837 : ℝ) = 837 := by
      have := fl_int 837 (by norm_num)
      simpa using this
    rw [val_div, val_ofInt, fl_int _ (by norm_num), val_ofRat, hpe, h2]
    push_cast
    rw [fl_a837, abs_lt]
    constructor <;> norm_num
  refine ⟨N, fun n hn => ?_⟩
  rcases hm : HalVirtual.move cfg837 (.linear g) n with _ | e | _
  · exfalso
    unfold HalVirtual.move at hm
    simp only at hm
    rw [hN n hn] at hm
    simp only at hm
    split at hm <;> cases hm
  · unfold HalVirtual.move at hm
    simp only at hm
    rw [hN n hn] at hm
    simp only at hm
    have hat := run_stepsAt cfg837 (.linear g) n .init
    rw [hN n hn] at hat
    split at hm
    · rename_i hl
      cases hm
      obtain ⟨msg, rfl⟩ := HalVirtual.loop_error hat hl
      exact ⟨msg, rfl⟩
    · have hf := Option.some.inj hm
      obtain ⟨msg, rfl⟩ := HalVirtual.finish_error hf
      exact ⟨msg, rfl⟩
  · exfalso
    obtain ⟨evs', h1, _, h2, _⟩ := C64_sound hm
    rw [hN n hn] at h1
    cases h1
    have h3 := h2 .e
    rw [hnet, linear_new_delta hg, hwe, hcnt, eq64_iff, val_of, val_of] at h3
    have h4 := (lt_of64 (x := (10247371565113 : ℤ) / 10 ^ 10) (y := (10247371565114 : ℤ) / 10 ^ 10)
      ⟨10247371565113, by rw [e10_val]⟩ ⟨10247371565114, by rw [e10_val]⟩
      (by rw [abs_of_pos (by norm_num)]; norm_num) (by rw [abs_of_pos (by norm_num)]; norm_num)).2
      (by norm_num)
    rw [lt64_iff, val_of, val_of, h3] at h4
    exact lt_irrefl _ h4

end PyCNC.Props
