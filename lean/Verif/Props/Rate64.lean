import Verif.Lemmas.Virtual64

/-!
# Property C87: the pulses of straight moves in binary64

The counterparts of C29, C30 and C31 for the arithmetic that the program uses: each operation is the
exact one followed by rounding to the nearest number with a 53 bit significand.
-/

namespace PyCNC.Props

open PyCNC Spec

variable [PyRound] {c : Cfg}

/-- **C87.** A straight move of at most 10 m per axis, computed in binary64, with automatic velocity
adjustment: its generator emits one announcement of the directions and then pulses, and

* all pulses of one event have the same time;
* an event is never more than 10^-7 s before an earlier one;
* all times are between 0 and `total_time_s()`;
* two successive pulses of an axis are at least as far apart as they are at the maximum velocity of
  the axis, with an error of 2 parts in 10^5 and 4 * 10^-7 s; in particular they are in order;
* after every event the pulses done so far are, on every axis, within one step and 3/10^4 mm of one
  point of the straight segment from start to end. -/
theorem C87_pulses (hc : SaneCfg c) (hl : DecimalLimits c) (hf : ∀ ax, c.maxVel.get ax ≤ 60000)
    (ha : c.autoVel = true) {d : V4 F64} {n : V4 ℤ} {v : F64}
    (hn : ∀ ax, |(n.get ax : ℝ)| ≤ 10 ^ 4 * c.ppm.get ax)
    (hd : ∀ ax, |(d.get ax).1 * c.ppm.get ax - n.get ax| ≤ 499 / 1000)
    (h0 : ∃ ax, n.get ax ≠ 0) (hv : 1 ≤ v.1) :
    ∃ g evs r, LinearGen.new c (roundToSteps c d) v = .ok g ∧ Emits c (.linear g) evs ∧
      evs = .dir (invertDirs c g.dir) :: r ∧
      (∀ ev ∈ r, ∃ τ, StepsAt τ ev) ∧
      (r.Pairwise fun e₁ e₂ => ∀ τ₁ τ₂, StepsAt τ₁ e₁ → StepsAt τ₂ e₂ → τ₁.1 ≤ τ₂.1 + 1 / 10 ^ 7) ∧
      (∀ ax, ∀ τ ∈ stepTimes ax evs, 0 ≤ τ.1 ∧ τ.1 ≤ (Gen.linear g).totalTime.1) ∧
      (∀ ax i τ₁ τ₂, (stepTimes ax evs)[i]? = some τ₁ → (stepTimes ax evs)[i + 1]? = some τ₂ →
        (1 - 2 / 10 ^ 5) / ((c.ppm.get ax : ℝ) * ((c.maxVel.get ax : ℝ) / 60)) - 4 / 10 ^ 7 ≤
          τ₂.1 - τ₁.1 ∧
        τ₁.1 < τ₂.1) ∧
      ∀ k, ∃ lam : ℝ, 0 ≤ lam ∧ lam ≤ 1 ∧ ∀ ax,
        |(steps ax (evs.take k) : ℝ) - lam * (|(n.get ax : ℝ)|)| ≤ 1 + 3 / 10 ^ 4 * c.ppm.get ax := by
  have hs := roundToSteps64 hc hn hd
  obtain ⟨g, hg, hgood⟩ := linear64_new hc hs h0 hv
  obtain ⟨q, F⟩ := facts64 hc hl hf ha hs h0 hv hg
  obtain ⟨evs, N, hN⟩ := linear64_done hgood
  have hrun := hN (N + 1) (by omega)
  rcases linear_run_shape c g N with ⟨e, h2⟩ | ⟨r, h2, h3, h4⟩
  · rw [hrun] at h2; cases h2
  rw [hrun] at h2 h4
  simp only at h2 h4
  have hz : ∀ ax, (⟨0, 0, 0, 0⟩ : V4 Nat).get ax = 0 := fun ax => by cases ax <;> rfl
  have htimes : ∀ ax i τ, (stepTimes ax evs)[i]? = some τ → i < (g.total.get ax).toNat ∧
      ∃ m : F64, m.1 = g.ut c ax i ∧ (Gen.linear g).toAccelerated c m = .ok τ := by
    intro ax i τ hi
    rw [h2] at hi
    have e : stepTimes ax (Event.dir (invertDirs c g.dir) :: r) = stepTimes ax r := rfl
    have := run_times64 hgood ax N ⟨0, 0, 0, 0⟩ i τ (by rw [h4]; rw [e] at hi; exact hi)
    rwa [hz, Nat.zero_add] at this
  refine ⟨g, evs, r, hg, ⟨N, hN⟩, h2, fun ev hev => ?_, ?_, fun ax τ hτ => ?_,
    fun ax i τ₁ τ₂ h5 h6 => ?_, fun k => ?_⟩
  · obtain ⟨t, rfl⟩ := h3 ev hev
    have hev' : Event.pulse t ∈ ((Gen.linear g).run c N ⟨⟨0, 0, 0, 0⟩, some g.dir⟩).1 := by
      rw [h4]; exact hev
    exact run_stepsAt c _ _ _ _ hev' (by simp [IsDir])
  · have := run_sorted64 hgood F.order N ⟨0, 0, 0, 0⟩
    rw [h4] at this
    exact this
  · obtain ⟨i, hi⟩ := List.mem_iff_getElem?.1 hτ
    obtain ⟨i1, m, i2, i3⟩ := htimes ax i τ hi
    exact acc64_range (g := .linear g) F.shape.k_pos F.shape.accT.1 F.shape.linT.1 F.shape.accK
      (by rw [i2]; exact ut_nonneg F.good _ _) i3
  · obtain ⟨i1, m, i2, i3⟩ := htimes ax i τ₁ h5
    obtain ⟨j1, m', j2, j3⟩ := htimes ax (i + 1) τ₂ h6
    have hgap := F.gap j1 i2 j2 i3 j3
    refine ⟨hgap, ?_⟩
    have hp : (0 : ℝ) < c.ppm.get ax := by exact_mod_cast hc.ppm_pos ax
    have hp1 : (c.ppm.get ax : ℝ) ≤ 1000 := by exact_mod_cast hc.ppm_le ax
    have hM : (60 : ℝ) ≤ c.maxVel.get ax := by exact_mod_cast hc.maxVel ax
    have hM2 : (c.maxVel.get ax : ℝ) ≤ 60000 := by exact_mod_cast hf ax
    have hb : 5 / 10 ^ 7 ≤ (1 - 2 / 10 ^ 5) / ((c.ppm.get ax : ℝ) * (c.maxVel.get ax / 60)) := by
      rw [le_div_iff₀ (by positivity)]
      have : (c.ppm.get ax : ℝ) * (c.maxVel.get ax / 60) ≤ 1000 * 1000 :=
        mul_le_mul hp1 (by linarith) (by positivity) (by norm_num)
      norm_num at *
      linarith
    norm_num at *
    linarith
  · cases k with
    | zero =>
      refine ⟨0, le_rfl, zero_le_one, fun ax => ?_⟩
      have hP : (0 : ℝ) < c.ppm.get ax := by exact_mod_cast hc.ppm_pos ax
      simp only [List.take_zero, steps, stepTimes, List.length_nil, Nat.cast_zero, zero_mul,
        sub_zero, abs_zero]
      positivity
    | succ k =>
      have e : ∃ N', ((Gen.linear g).run c N' ⟨⟨0, 0, 0, 0⟩, some g.dir⟩).1 = r.take k := by
        have hr : ((Gen.linear g).run c N ⟨⟨0, 0, 0, 0⟩, some g.dir⟩).1 = r := by rw [h4]
        rcases le_total k N with hk | hk
        · refine ⟨k, ?_⟩
          rw [run_take c _ N _ k hk, hr]
        · refine ⟨N, ?_⟩
          rw [hr, List.take_of_length_le]
          rw [← hr, run_take c _ N _ N le_rfl]
          exact (List.length_take_le _ _).trans hk
      obtain ⟨N', hN'⟩ := e
      obtain ⟨lam, l0, l1, hlam⟩ := F.straight N'
      refine ⟨lam, l0, l1, fun ax => ?_⟩
      have := hlam ax
      rw [hN'] at this
      rw [h2]
      exact this

/-- The default configuration and a move by 1/3 mm of X and 1 mm of Y at 600 mm/min: 33 steps of X,
at least 24.5 µs apart as 400 mm/s are 40000 steps per second. -/
example : ∃ (d : V4 F64) (n : V4 ℤ) (v : F64), SaneCfg Cfg.default ∧ DecimalLimits Cfg.default ∧
    (∀ ax, Cfg.default.maxVel.get ax ≤ 60000) ∧ Cfg.default.autoVel = true ∧ n.x = 33 ∧ n.y = 100 ∧
    (∃ ax, n.get ax ≠ 0) ∧ 1 ≤ v.1 ∧
    (∀ ax, |(n.get ax : ℝ)| ≤ 10 ^ 4 * Cfg.default.ppm.get ax) ∧
    (∀ ax, |(d.get ax).1 * Cfg.default.ppm.get ax - n.get ax| ≤ 499 / 1000) ∧
    (245 : ℝ) / 10 ^ 7 ≤
      (1 - 2 / 10 ^ 5) / (Cfg.default.ppm.x * (Cfg.default.maxVel.x / 60)) - 4 / 10 ^ 7 := by
  refine ⟨⟨F64.of (1 / 3), F64.of 1, F64.of 0, F64.of 0⟩, ⟨33, 100, 0, 0⟩, F64.of 600,
    default_sane true, default_limits true, fun ax => ?_, rfl, rfl, rfl,
    ⟨.x, by decide⟩, ?_, fun ax => ?_, fun ax => ?_, ?_⟩
  · cases ax <;> norm_num [V4.get, Cfg.default]
  · rw [val_of]
    exact le_fl_of_le fl_one (by norm_num)
  · cases ax <;> norm_num [V4.get, Cfg.default]
  · cases ax
    · simp only [V4.get, val_of]
      have h1 := fl_lo (show (0 : ℝ) ≤ 1 / 3 by norm_num)
      have h2 := fl_hi (show (0 : ℝ) ≤ 1 / 3 by norm_num)
      generalize fl (1 / 3 : ℝ) = x at *
      rw [abs_le]
      norm_num [Cfg.default] at *
      constructor <;> linarith
    · simp only [V4.get, val_of]
      rw [fl_one]
      norm_num [Cfg.default]
    all_goals simp [V4.get, val_of, fl_zero]; norm_num
  · norm_num [Cfg.default]

end PyCNC.Props
