import Verif.Lemmas.Times64
import Verif.Lemmas.Interp64
import Verif.Lemmas.HalVirtual

/-!
# The checks of the virtual machine in binary64
-/

namespace PyCNC

open Spec

/-- Rounding goes to the nearest number of the format: no number of the format above `x` is closer
than the result. -/
theorem fl_nearest_up {x t : ℝ} (hx : 0 < x) (ht : fl t = t) (hxt : x ≤ t) : x - fl x ≤ t - x := by
  by_contra hcon
  push Not at hcon
  have lo : ∀ z : ℝ, 0 < z → (2 : ℝ) ^ (Int.log 2 z) ≤ z := fun z hz => by
    have := Int.zpow_log_le_self (b := 2) (R := ℝ) (by norm_num) hz
    simpa using this
  have hi : ∀ z : ℝ, z < (2 : ℝ) ^ (Int.log 2 z + 1) := fun z => by
    have := Int.lt_zpow_succ_log_self (b := 2) (R := ℝ) (by norm_num) z
    simpa using this
  have hu : (0 : ℝ) < 2 ^ (Int.log 2 x - 52) := by positivity
  have he : fl x = (halfEven.rnd (x / 2 ^ (Int.log 2 x - 52)) : ℝ) * 2 ^ (Int.log 2 x - 52) := by
    unfold fl
    rw [if_neg hx.ne', abs_of_pos hx]
  have htop : t < (2 : ℝ) ^ (Int.log 2 x + 1) := by
    by_contra h
    push Not at h
    have h1 := @le_rnd halfEven (x / 2 ^ (Int.log 2 x - 52))
    have h2 : (x / 2 ^ (Int.log 2 x - 52) - 1 / 2) * 2 ^ (Int.log 2 x - 52) ≤ fl x := by
      rw [he]; gcongr
    rw [sub_mul, div_mul_cancel₀ _ hu.ne'] at h2
    -- `x` is at least half a unit below the power of two
    have h3 := fl_le_of_le (fl_two_zpow (Int.log 2 x + 1)) (hi x).le
    have h4 : x - fl x ≤ (2 : ℝ) ^ (Int.log 2 x + 1) - x := by
      by_cases h5 : x ≤ (2 : ℝ) ^ (Int.log 2 x + 1) - 1 / 2 * 2 ^ (Int.log 2 x - 52)
      · linarith
      · push Not at h5
        have e1 : (2 : ℝ) ^ (Int.log 2 x + 1) = 2 ^ 53 * 2 ^ (Int.log 2 x - 52) := by
          rw [← zpow_natCast, ← zpow_add₀ (by norm_num : (2 : ℝ) ≠ 0)]
          congr 1
          push_cast
          ring
        have h6 : halfEven.rnd (x / 2 ^ (Int.log 2 x - 52)) = (2 ^ 53 : ℤ) := by
          refine @rnd_unique halfEven _ _ ?_
          have h7 : x / 2 ^ (Int.log 2 x - 52) < 2 ^ 53 := by
            rw [div_lt_iff₀ hu, ← e1]; exact hi x
          have h8 : 2 ^ 53 - 1 / 2 < x / 2 ^ (Int.log 2 x - 52) := by
            rw [lt_div_iff₀ hu, sub_mul, ← e1]; exact h5
          rw [abs_lt]
          push_cast
          constructor <;> linarith
        have h7 := hi x
        rw [e1] at h7 ⊢
        rw [he, h6]
        push_cast
        norm_num at *
        linarith
    linarith
  have ht0 : 0 < t := hx.trans_le hxt
  have hlog : Int.log 2 t = Int.log 2 x := by
    apply le_antisymm
    · have := (Int.lt_zpow_iff_log_lt (b := 2) (R := ℝ) (by norm_num) ht0
        (x := Int.log 2 x + 1)).1 (by simpa using htop)
      omega
    · exact Int.log_mono_right hx hxt
  have ht' : t = (halfEven.rnd (t / 2 ^ (Int.log 2 x - 52)) : ℝ) * 2 ^ (Int.log 2 x - 52) := by
    conv_lhs => rw [← ht]
    unfold fl
    rw [if_neg ht0.ne', abs_of_pos ht0, hlog]
  have n1 := @rnd_le halfEven (x / 2 ^ (Int.log 2 x - 52))
  have n2 := @le_rnd halfEven (x / 2 ^ (Int.log 2 x - 52))
  generalize halfEven.rnd (t / 2 ^ (Int.log 2 x - 52)) = m at ht'
  generalize halfEven.rnd (x / 2 ^ (Int.log 2 x - 52)) = k at he n1 n2
  generalize (2 : ℝ) ^ (Int.log 2 x - 52) = u at *
  have h1 : x - k * u ≤ u / 2 := by
    have := mul_le_mul_of_nonneg_right n2 hu.le
    rw [sub_mul, div_mul_cancel₀ _ hu.ne'] at this
    linarith
  rw [he] at hcon
  have h2 : (k : ℝ) < m := by
    have h3 : (k : ℝ) * u < m * u := by rw [← ht']; linarith
    exact lt_of_mul_lt_mul_right h3 hu.le
  have h3 : (k : ℝ) + 1 ≤ m := by exact_mod_cast h2
  have h4 := mul_le_mul_of_nonneg_right h3 hu.le
  rw [← ht'] at h4
  linarith

variable [PyRound] {c : Cfg}

/-- No pulse is later than `total_time_s()`, and none is before the start. -/
theorem acc64_range {g : Gen F64} {p r : F64} (hk0 : 0 < (g.twoVmaxPerA c).1)
    (hA : 0 ≤ g.accT.1) (hB : 0 ≤ g.linT.1) (hK : g.accT.1 ≤ 2 * (g.twoVmaxPerA c).1)
    (hp : 0 ≤ p.1) (h : g.toAccelerated c p = .ok r) : 0 ≤ r.1 ∧ r.1 ≤ g.totalTime.1 := by
  have e := acc64_cases hk0 hp h
  have hT : g.totalTime.1 = fl (2 * g.accT.1 + g.linT.1) := by
    change (g.accT *ₚ PyNum.ofRat 2 +ₚ g.linT).1 = _
    rw [val_add, val_mul, val_ofRat, fl_two, mul_comm g.accT.1, fl_double, g.accT.2]
  have h2A : fl (2 * g.accT.1) = 2 * g.accT.1 := by rw [fl_double, g.accT.2]
  rw [h2A] at e
  rw [hT]
  have hAr := g.accT.2
  have hBr := g.linT.2
  clear h hT h2A
  generalize (g.twoVmaxPerA c).1 = k at *
  generalize g.accT.1 = A at *
  generalize g.linT.1 = B at *
  have hAT : A ≤ fl (2 * A + B) := le_fl_of_le hAr (by linarith)
  rcases e with ⟨h1, h2⟩ | ⟨h1, h2, h3⟩ | ⟨h1, h2, h3⟩
  · rw [h2]
    exact ⟨fl_nonneg (Real.sqrt_nonneg _), h1.trans hAT⟩
  · rw [h3]
    constructor
    · -- the way of the acceleration is behind
      have hlate : A * A < p.1 * k := by
        by_contra hcon
        have hAA := fl_sqrt_sq hAr
        rw [abs_of_nonneg hA] at hAA
        have : fl √(fl (p.1 * k)) ≤ A := by
          conv_rhs => rw [← hAA]
          exact fl_mono (Real.sqrt_le_sqrt (fl_mono (not_lt.1 hcon)))
        linarith
      refine fl_nonneg (sub_nonneg.2 (fl_mono ?_))
      rw [div_le_iff₀ hk0]
      have f1 := fl_hi2 (mul_self_nonneg A)
      have f2 : A * A ≤ A * (2 * k) := mul_le_mul_of_nonneg_left hK hA
      have f3 : 0 ≤ A * k := mul_nonneg hA hk0.le
      rw [add_mul]
      nlinarith
    · have htr : fl (plain64 k A p.1) = plain64 k A p.1 := fl_idem _
      generalize plain64 k A p.1 = t at *
      have h4 : fl (t - A) ≤ B := by
        by_contra hcon
        have := fl_pos (sub_pos.2 (not_le.1 hcon))
        linarith
      rcases le_or_gt t (2 * A + B) with h5 | h5
      · rw [← htr]; exact fl_mono h5
      · exfalso
        have h6 := fl_nearest_up (x := t - A) (t := t) (by linarith) htr (by linarith)
        linarith
  · have hl0 : 0 ≤ leftOf64 k A (fl (fl (plain64 k A p.1 - A) - B)) := by
      unfold leftOf64
      split
      · exact fl_nonneg (Real.sqrt_nonneg _)
      · exact le_rfl
    have hl1 : leftOf64 k A (fl (fl (plain64 k A p.1 - A) - B)) ≤ A := by
      unfold leftOf64
      split
      · have hAA := fl_sqrt_sq hAr
        rw [abs_of_nonneg hA] at hAA
        conv_rhs => rw [← hAA]
        refine fl_mono (Real.sqrt_le_sqrt ?_)
        refine fl_le_of_le (fl_idem _) ?_
        have := fl_nonneg (mul_nonneg hk0.le h2.le)
        linarith
      · exact hA
    rw [h3]
    generalize leftOf64 k A (fl (fl (plain64 k A p.1 - A) - B)) = l at *
    refine ⟨fl_nonneg (by linarith), fl_le_of_le (fl_idem _) (by linarith)⟩

/-- `round(i / STEPPER_PULSES_PER_MM, 10)` of a number of steps not close to the middle of two
ten-decimal numbers. -/
theorem countOf64 {p : ℚ} {n k : ℤ} (hp : 0 < p) (hp2 : p ≤ 1000)
    (hn : |(n : ℝ)| ≤ 10 ^ 4 * p) (hk : |(n : ℝ) / p * 10 ^ 10 - k| ≤ 2 / 5) :
    PyNum.round10 (ofInt n /ₚ PyNum.ofRat p : F64) = F64.of ((k : ℝ) / 10 ^ 10) := by
  have hP : (0 : ℝ) < p := by exact_mod_cast hp
  have hP2 : (p : ℝ) ≤ 1000 := by exact_mod_cast hp2
  have hn53 : |n| ≤ 2 ^ 53 := by
    have h7 : ((|n| : ℤ) : ℝ) ≤ 10 ^ 7 := by push_cast; nlinarith
    have : |n| ≤ 10 ^ 7 := by exact_mod_cast h7
    omega
  refine round10_dec64 ⟨k, by rw [e10_val]⟩ ?_
  rw [val_div, val_ofInt, fl_int _ hn53, val_ofRat]
  have l1 := fl_near3 (p : ℝ)
  rw [abs_of_pos hP] at l1
  have hp0 : 0 < fl (p : ℝ) := fl_pos hP
  generalize fl (p : ℝ) = P at l1 hp0
  have hq : |(p : ℝ) / P - 1| ≤ 113 / 10 ^ 18 := by
    obtain ⟨l1, l2⟩ := abs_le.1 l1
    rw [abs_le, le_sub_iff_add_le, sub_le_iff_le_add, le_div_iff₀ hp0, div_le_iff₀ hp0]
    constructor
    · nlinarith
    · nlinarith
  have hnp : |(n : ℝ) / p| ≤ 10 ^ 4 := by
    rw [abs_div, abs_of_pos hP, div_le_iff₀ hP]; exact hn
  have e1 : (n : ℝ) / P - n / p = n / p * (p / P - 1) := by field_simp
  have h1 : |(n : ℝ) / P - n / p| ≤ 113 / 10 ^ 14 := by
    rw [e1, abs_mul]
    calc |(n : ℝ) / p| * |(p : ℝ) / P - 1| ≤ 10 ^ 4 * (113 / 10 ^ 18) := by gcongr
      _ ≤ _ := by norm_num
  have h2 := fl_near3 ((n : ℝ) / P)
  have h3 : |(n : ℝ) / P| ≤ 10001 := by
    have := abs_sub_abs_le_abs_sub ((n : ℝ) / P) (n / p)
    norm_num at *
    linarith
  have h4 : |(n : ℝ) / p - k / 10 ^ 10| ≤ 2 / 5 / 10 ^ 10 := by
    have e : (n : ℝ) / p - k / 10 ^ 10 = (n / p * 10 ^ 10 - k) / 10 ^ 10 := by field_simp
    rw [e, abs_div, abs_of_pos (by norm_num : (0 : ℝ) < 10 ^ 10)]
    gcongr
  have h5 := abs_sub_le (fl ((n : ℝ) / P)) (n / P) (k / 10 ^ 10)
  have h6 := abs_sub_le ((n : ℝ) / P) (n / p) (k / 10 ^ 10)
  norm_num at *
  linarith

/-- The displacement as `roundToSteps` computes it. -/
theorem stepsOf64 (hc : SaneCfg c) {d : V4 F64} {n : V4 ℤ} {ax : Axis} {k : ℤ}
    (hn : |(n.get ax : ℝ)| ≤ 10 ^ 4 * c.ppm.get ax)
    (hd : |(d.get ax).1 * c.ppm.get ax - n.get ax| ≤ 499 / 1000) (hb : |(d.get ax).1| ≤ 10 ^ 5)
    (hk : |(n.get ax : ℝ) / c.ppm.get ax * 10 ^ 10 - k| ≤ 2 / 5) :
    (roundToSteps c d).get ax = F64.of ((k : ℝ) / 10 ^ 10) := by
  have hP : (0 : ℝ) < c.ppm.get ax := by exact_mod_cast hc.ppm_pos ax
  rw [get_roundToStepsF]
  have e : d.get ax = F64.of (d.get ax).1 := ext64 (by rw [val_of, (d.get ax).2])
  rw [e]
  refine roundTo_exact64 (hc.ppm_pos ax) (hc.ppm_le ax) hb (n := n.get ax) ?_ ⟨k, by rw [e10_val]⟩ ?_
  · refine hd.trans (by norm_num)
  · have h1 : |(n.get ax : ℝ) / c.ppm.get ax| ≤ 10 ^ 4 := by
      rw [abs_div, abs_of_pos hP, div_le_iff₀ hP]; exact hn
    have h2 : |(k : ℝ) / 10 ^ 10 - n.get ax / c.ppm.get ax| ≤ 2 / 5 / 10 ^ 10 := by
      have e : (k : ℝ) / 10 ^ 10 - n.get ax / c.ppm.get ax =
        -((n.get ax / c.ppm.get ax * 10 ^ 10 - k) / 10 ^ 10) := by field_simp; ring
      rw [e, abs_neg, abs_div, abs_of_pos (by norm_num : (0 : ℝ) < 10 ^ 10)]
      gcongr
    have h4 := mul_le_mul_of_nonneg_right h1 (by norm_num : (0 : ℝ) ≤ 35 / 10 ^ 17)
    refine lt_of_le_of_lt (add_le_add h2 h4) (by norm_num)

/-- Pulses more than a microsecond apart are in different microseconds. -/
theorem stamp64_lt {a b : F64} (h0 : 0 ≤ a.1) (h1 : b.1 ≤ 5 * 10 ^ 6) (h : a.1 + 102 / 10 ^ 8 ≤ b.1) :
    HalVirtual.stamp a < HalVirtual.stamp b := by
  have e : ∀ x : F64, HalVirtual.stamp x = PyRound.rnd (fl (x.1 * 1000000)) := by
    intro x
    have h6 : fl (((1000000 : ℚ) : ℝ)) = 1000000 := by
      have := fl_int 1000000 (by norm_num)
      simpa using this
    change PyRound.rnd (x *ₚ PyNum.ofRat 1000000).1 = _
    rw [val_mul, val_ofRat, h6]
  rw [e, e]
  have f1 := fl_hi2 (show 0 ≤ a.1 * 1000000 by positivity)
  have f2 := fl_lo2 (show 0 ≤ b.1 * 1000000 by
    refine mul_nonneg ?_ (by norm_num)
    norm_num at h ⊢; linarith)
  have h5 := rnd_le (fl (a.1 * 1000000))
  have h6 := le_rnd (fl (b.1 * 1000000))
  have : (PyRound.rnd (fl (a.1 * 1000000)) : ℝ) < PyRound.rnd (fl (b.1 * 1000000)) := by
    generalize (PyRound.rnd (fl (a.1 * 1000000)) : ℝ) = A at *
    generalize (PyRound.rnd (fl (b.1 * 1000000)) : ℝ) = B at *
    generalize fl (a.1 * 1000000) = C at *
    generalize fl (b.1 * 1000000) = D at *
    clear e
    norm_num at *
    linarith
  exact_mod_cast this

/-- The events of a straight move: the directions, then pulses at the times of the uniform motion
after the change to accelerated motion. -/
theorem events64 {g : LinearGen F64} (hgood : g.Good64 c) : ∃ evs r, Emits c (.linear g) evs ∧
    evs = .dir (invertDirs c g.dir) :: r ∧ (∀ ev ∈ r, ∃ τ, StepsAt τ ev) ∧
    ∀ ax i τ, (stepTimes ax evs)[i]? = some τ → i < (g.total.get ax).toNat ∧
      ∃ m : F64, m.1 = g.ut c ax i ∧ (Gen.linear g).toAccelerated c m = .ok τ := by
  obtain ⟨evs, N, hN⟩ := linear64_done hgood
  have hrun := hN (N + 1) (by omega)
  rcases linear_run_shape c g N with ⟨e, h2⟩ | ⟨r, h2, h3, h4⟩
  · rw [hrun] at h2; cases h2
  rw [hrun] at h2 h4
  simp only at h2 h4
  have hz : ∀ ax, (⟨0, 0, 0, 0⟩ : V4 Nat).get ax = 0 := fun ax => by cases ax <;> rfl
  refine ⟨evs, r, ⟨N, hN⟩, h2, fun ev hev => ?_, fun ax i τ hi => ?_⟩
  · obtain ⟨t, rfl⟩ := h3 ev hev
    have hev' : Event.pulse t ∈ ((Gen.linear g).run c N ⟨⟨0, 0, 0, 0⟩, some g.dir⟩).1 := by
      rw [h4]; exact hev
    exact run_stepsAt c _ _ _ _ hev' (by simp [IsDir])
  · rw [h2] at hi
    have e : stepTimes ax (Event.dir (invertDirs c g.dir) :: r) = stepTimes ax r := rfl
    have := run_times64 hgood ax N ⟨0, 0, 0, 0⟩ i τ (by rw [h4]; rw [e] at hi; exact hi)
    rwa [hz, Nat.zero_add] at this

/-- The displacement that a generator returns is that it was made for. -/
theorem linear_new_delta {F : Type} [PyNum F] {delta : V4 F} {v : F} {g : LinearGen F}
    (h : LinearGen.new c delta v = .ok g) : (Gen.linear g).delta = delta := by
  unfold LinearGen.new at h
  simp only at h
  rcases h1 : pdiv (v /ₚ secInMin) (Coord.length (Coord.abs delta)) with e | p <;> rw [h1] at h
  · cases h
  rcases h2 : adjustVelocity c (Coord.smul (Coord.abs delta) p) with e | w
  · simp only [bind, Except.bind, h2] at h; cases h
  simp only [bind, Except.bind, h2] at h
  split at h
  · split at h
    · cases h
    · cases h; rfl
  · split at h
    · cases h
    · cases h; rfl

/-- No assertion of the virtual machine fails for a straight move. -/
theorem virtual64 (hc : SaneCfg c) (hl : DecimalLimits c) (hf : ∀ ax, c.maxVel.get ax ≤ 60000)
    (ha : c.autoVel = true) (hslow : ∀ ax, c.ppm.get ax * (c.maxVel.get ax / 60) ≤ 7 * 10 ^ 5)
    {n : V4 ℤ} {w : V4 F64} {v : F64} {g : LinearGen F64} (hs : Steps64 c n w)
    (h0 : ∃ ax, n.get ax ≠ 0) (hv : 1 ≤ v.1) (hg : LinearGen.new c w v = .ok g)
    (hw : ∀ ax, PyNum.round10 (ofInt (n.get ax) /ₚ PyNum.ofRat (c.ppm.get ax)) = w.get ax) :
    ∃ N, ∀ m, N ≤ m → HalVirtual.move c (.linear g) m = some (.ok ()) := by
  obtain ⟨q, F⟩ := facts64 hc hl hf ha hs h0 hv hg
  obtain ⟨evs, r, he, rfl, hpulse, htimes⟩ := events64 F.good
  have hnet := train64 hc hs hg he
  obtain ⟨N, hN⟩ := he
  refine ⟨N, fun m hm => ?_⟩
  have hdelta : (Gen.linear g).delta = w := linear_new_delta hg
  have hgd : ∀ ax, g.dir.get ax = sign1 (w.get ax) := fun ax => (linear_new_total hg ax).2
  have hrange : ∀ ax, ∀ τ ∈ stepTimes ax (Event.dir (invertDirs c g.dir) :: r),
      0 ≤ τ.1 ∧ τ.1 ≤ (Gen.linear g).totalTime.1 := by
    intro ax τ hτ
    obtain ⟨i, hi⟩ := List.mem_iff_getElem?.1 hτ
    obtain ⟨_, m, i2, i3⟩ := htimes ax i τ hi
    exact acc64_range (g := .linear g) F.shape.k_pos F.shape.accT.1 F.shape.linT.1 F.shape.accK
      (by rw [i2]; exact ut_nonneg F.good _ _) i3
  have htot : 0 ≤ (Gen.linear g).totalTime.1 ∧ (Gen.linear g).totalTime.1 ≤ 5 * 10 ^ 6 := by
    change 0 ≤ (g.accT *ₚ PyNum.ofRat 2 +ₚ g.linT).1 ∧ (g.accT *ₚ PyNum.ofRat 2 +ₚ g.linT).1 ≤ _
    rw [val_add, val_mul, val_ofRat, fl_two, mul_comm g.accT.1, fl_double, g.accT.2]
    obtain ⟨a0, a1⟩ := F.shape.accT
    obtain ⟨b0, b1⟩ := F.shape.linT
    refine ⟨fl_nonneg (by linarith), ?_⟩
    have := fl_hi2 (show 0 ≤ 2 * g.accT.1 + g.linT.1 by linarith)
    norm_num at *
    linarith
  -- directions
  have hb : HalVirtual.body c true w (.dir (invertDirs c g.dir)) .init =
      .ok (HalVirtual.St.next c (.dir (invertDirs c g.dir)) .init) := by
    refine HalVirtual.body_dir fun _ ax => ?_
    have h1 : (if c.inverted.get ax then - (invertDirs c g.dir).get ax
        else (invertDirs c g.dir).get ax) = g.dir.get ax := by
      rw [get_invertDirs]
      split <;> simp
    rw [h1, hgd]
    generalize w.get ax = y
    unfold HalVirtual.dirFits sign1
    simp only [Bool.or_eq_true, Bool.and_eq_true, decide_eq_true_eq, PyOrd.lt_val, PyOrd.eq_val]
    generalize PyOrd.val (PyNum.ofRat 0 : F64) = z
    rcases lt_trichotomy (PyOrd.val y) z with h | h | h
    · exact .inl (.inl ⟨by rw [if_pos h]; norm_num, h⟩)
    · exact .inr h
    · exact .inl (.inr ⟨by rw [if_neg (not_lt.2 h.le)]; norm_num, h⟩)
  -- stamps
  have hstamps : ∀ ax, ((stepTimes ax r).map HalVirtual.stamp).Pairwise (· < ·) := by
    intro ax
    have e : stepTimes ax (Event.dir (invertDirs c g.dir) :: r) = stepTimes ax r := rfl
    have hr := hrange ax
    have ht := htimes ax
    rw [e] at hr ht
    have hP : (0 : ℝ) < c.ppm.get ax := by exact_mod_cast hc.ppm_pos ax
    have hM : (60 : ℝ) ≤ c.maxVel.get ax := by exact_mod_cast hc.maxVel ax
    have hS : (c.ppm.get ax : ℝ) * ((c.maxVel.get ax : ℝ) / 60) ≤ 7 * 10 ^ 5 := by
      exact_mod_cast hslow ax
    have hb : 142 / 10 ^ 8 ≤ (1 - 2 / 10 ^ 5) / ((c.ppm.get ax : ℝ) * (c.maxVel.get ax / 60)) := by
      rw [le_div_iff₀ (by positivity)]
      norm_num at *
      linarith
    have hgap : ∀ i (hi : i + 1 < (stepTimes ax r).length),
        ((stepTimes ax r)[i]).1 + 102 / 10 ^ 8 ≤ ((stepTimes ax r)[i + 1]).1 := by
      intro i hi
      obtain ⟨_, m, i2, i3⟩ := ht i _ (List.getElem?_eq_getElem (by omega))
      obtain ⟨j1, m', j2, j3⟩ := ht (i + 1) _ (List.getElem?_eq_getElem hi)
      have := F.gap j1 i2 j2 i3 j3
      norm_num at *
      linarith
    have hchain : ∀ k i (hi : i + 1 + k < (stepTimes ax r).length),
        ((stepTimes ax r)[i]).1 + 102 / 10 ^ 8 ≤ ((stepTimes ax r)[i + 1 + k]).1 := by
      intro k
      induction k with
      | zero => exact fun i hi => hgap i hi
      | succ k ih =>
        intro i hi
        have h1 := ih i (by omega)
        have h2 := hgap (i + 1 + k) (by omega)
        have h3 : (0 : ℝ) ≤ 102 / 10 ^ 8 := by norm_num
        have h4 : (stepTimes ax r)[i + 1 + k + 1] = (stepTimes ax r)[i + 1 + (k + 1)] := rfl
        rw [h4] at h2
        linarith
    rw [List.pairwise_map, List.pairwise_iff_getElem]
    intro i j hi hj hij
    obtain ⟨k, rfl⟩ : ∃ k, j = i + 1 + k := ⟨j - (i + 1), by omega⟩
    exact stamp64_lt (hr _ (List.getElem_mem hi)).1
      ((hr _ (List.getElem_mem hj)).2.trans htot.2) (hchain k i hj)
  obtain ⟨s, hs', hfound⟩ := HalVirtual.loop_pulses (c := c) (linear := true)
    (delta := w) (s := HalVirtual.St.next c (.dir (invertDirs c g.dir)) .init) hpulse hstamps
    (fun ax l hl => by
      exfalso
      have : ((HalVirtual.St.next c (.dir (invertDirs c g.dir))
        (HalVirtual.St.init : HalVirtual.St F64)).tr.get ax).last = none := by cases ax <;> rfl
      rw [this] at hl
      cases hl)
  have hloop : HalVirtual.loop c true w (.dir (invertDirs c g.dir) :: r) .init = .ok s := by
    rw [HalVirtual.loop, hb]
    exact hs'
  unfold HalVirtual.move
  simp only
  rw [hN m hm]
  simp only [hdelta, show HalVirtual.isLinear (.linear g) = true from rfl]
  rw [hloop]
  simp only [Option.some.injEq]
  rw [HalVirtual.finish_iff]
  refine ⟨by rw [hfound]; rfl, fun ax => ?_, ?_⟩
  · have h1 := HalVirtual.loop_count hloop ax
    have h2 : ((HalVirtual.St.init : HalVirtual.St F64).tr.get ax).i = 0 := by cases ax <;> rfl
    have h3 : netFrom c ax ((HalVirtual.St.init : HalVirtual.St F64).tr.get ax).dir
      (.dir (invertDirs c g.dir) :: r) = netSteps c ax (.dir (invertDirs c g.dir) :: r) := rfl
    rw [h2, zero_add, h3, hnet ax] at h1
    rw [h1, hdelta]
    unfold HalVirtual.countFits
    rw [eq64_iff, hw]
  · have h1 := HalVirtual.loop_top hloop
    have h2 : ∀ ax, ((s.tr.get ax).top).1 ≤ (Gen.linear g).totalTime.1 := by
      intro ax
      rcases List.mem_cons.1 (h1 ax).1 with h | h
      · rw [h]
        have : (((HalVirtual.St.init : HalVirtual.St F64).tr.get ax).top).1 = 0 := by
          cases ax <;> exact val_zero
        rw [this]; exact htot.1
      · exact (hrange ax _ h).2
    rw [le64_iff]
    have hx := h2 .x
    have hy := h2 .y
    have hz := h2 .z
    have he := h2 .e
    simp only [V4.get] at hx hy hz he
    unfold pmax
    split_ifs <;> assumption

end PyCNC
