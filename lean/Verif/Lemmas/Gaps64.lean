import Verif.Lemmas.Shape64
import Verif.Lemmas.Warp64

/-!
# How far apart the pulses of a straight move are at most, in binary64
-/

set_option linter.unusedSectionVars false

namespace PyCNC

open Spec

variable [PyRound]

theorem warp_le {k A B p : ℝ} (hk : 0 ≤ k) (hA : 0 ≤ A) (hB : 0 ≤ B) (hp : 0 ≤ p) :
    warp k A B p ≤ 2 * A + B := by
  rcases warp_cases (B := B) hk hA hp with ⟨h1, h⟩ | ⟨_, h1, h2, h⟩ | ⟨_, h1, h2, h⟩ <;> rw [h]
  · have := sqrt_le_of hA h1
    linarith
  · linarith
  · have := Real.sqrt_nonneg (A * A - k * (p - A * A / k - B))
    linarith

/-- The uniform time of a pulse. -/
noncomputable def LinearGen.ut (c : Cfg) (g : LinearGen F64) (ax : Axis) (i : Nat) : ℝ :=
  fl (fl (fl ((i : ℤ) : ℝ) / fl (c.ppm.get ax)) / (g.maxV.get ax).1)

theorem ut_near {i P v : ℝ} (hi : 0 ≤ i) (hP : 0 < P) (hv : 0 < v) :
    |fl (fl (fl i / fl P) / v) * v - i / P| ≤ i / P * (6 / 10 ^ 15) := by
  have a1 := fl_lo hi
  have a2 := fl_hi hi
  have a0 := fl_nonneg hi
  have b1 := fl_lo hP.le
  have b2 := fl_hi hP.le
  have b0 := fl_pos hP
  generalize fl i = a at *
  generalize fl P = b at *
  have hx : 0 ≤ i / P := div_nonneg hi hP.le
  have c1 : a / b ≤ i / P * (1 + 3 / 10 ^ 15) := by
    rw [div_mul_eq_mul_div, div_le_div_iff₀ b0 hP]
    have e : a * P ≤ (i + i * (1 / 10 ^ 15)) * P := mul_le_mul_of_nonneg_right a2 hP.le
    have e2 : i * (1 + 3 / 10 ^ 15) * (P - P * (1 / 10 ^ 15)) ≤ i * (1 + 3 / 10 ^ 15) * b :=
      mul_le_mul_of_nonneg_left b1 (mul_nonneg hi (by norm_num))
    have e3 : 0 ≤ i * P := mul_nonneg hi hP.le
    generalize i * (1 + 3 / 10 ^ 15) * b = Z at *
    have f1 : (i + i * (1 / 10 ^ 15)) * P = i * P * (1 + 1 / 10 ^ 15) := by ring
    have f2 : i * (1 + 3 / 10 ^ 15) * (P - P * (1 / 10 ^ 15)) =
      i * P * ((1 + 3 / 10 ^ 15) * (1 - 1 / 10 ^ 15)) := by ring
    rw [f1] at e
    rw [f2] at e2
    generalize i * P = W at *
    norm_num at *
    linarith
  have c2 : i / P * (1 - 3 / 10 ^ 15) ≤ a / b := by
    rw [div_mul_eq_mul_div, div_le_div_iff₀ hP b0]
    have e : (i - i * (1 / 10 ^ 15)) * P ≤ a * P := mul_le_mul_of_nonneg_right a1 hP.le
    have e2 : i * (1 - 3 / 10 ^ 15) * b ≤ i * (1 - 3 / 10 ^ 15) * (P + P * (1 / 10 ^ 15)) :=
      mul_le_mul_of_nonneg_left b2 (mul_nonneg hi (by norm_num))
    have e3 : 0 ≤ i * P := mul_nonneg hi hP.le
    generalize i * (1 - 3 / 10 ^ 15) * b = Z at *
    have f1 : (i - i * (1 / 10 ^ 15)) * P = i * P * (1 - 1 / 10 ^ 15) := by ring
    have f2 : i * (1 - 3 / 10 ^ 15) * (P + P * (1 / 10 ^ 15)) =
      i * P * ((1 - 3 / 10 ^ 15) * (1 + 1 / 10 ^ 15)) := by ring
    rw [f1] at e
    rw [f2] at e2
    generalize i * P = W at *
    norm_num at *
    linarith
  have c0 : 0 ≤ a / b := div_nonneg a0 b0.le
  generalize a / b = C at *
  have d1 := fl_lo c0
  have d2 := fl_hi c0
  have d0 := fl_nonneg c0
  generalize fl C = D at *
  have e0 : 0 ≤ D / v := div_nonneg d0 hv.le
  have e1 := mul_le_mul_of_nonneg_right (fl_lo e0) hv.le
  have e2 := mul_le_mul_of_nonneg_right (fl_hi e0) hv.le
  have f1 : (D / v - D / v * (1 / 10 ^ 15)) * v = D * (1 - 1 / 10 ^ 15) := by field_simp
  have f2 : (D / v + D / v * (1 / 10 ^ 15)) * v = D * (1 + 1 / 10 ^ 15) := by field_simp
  rw [f1] at e1
  rw [f2] at e2
  generalize fl (D / v) * v = E at *
  generalize i / P = x at *
  rw [abs_le]
  norm_num at *
  constructor <;> linarith

theorem ut_zero (c : Cfg) (g : LinearGen F64) (ax : Axis) : g.ut c ax 0 = 0 := by
  unfold LinearGen.ut
  simp [fl_zero]

theorem ut_mono {c : Cfg} {g : LinearGen F64} (h : g.Good64 c) (ax : Axis) {i j : Nat} (hij : i ≤ j) :
    g.ut c ax i ≤ g.ut c ax j := by
  have hP : (0 : ℝ) < fl (c.ppm.get ax) := fl_pos (by exact_mod_cast h.ppm ax)
  unfold LinearGen.ut
  refine fl_mono (div_le_div_of_nonneg_right (fl_mono (div_le_div_of_nonneg_right (fl_mono ?_) hP.le))
    (h.nonneg ax))
  exact_mod_cast hij

theorem ut_nonneg {c : Cfg} {g : LinearGen F64} (h : g.Good64 c) (ax : Axis) (i : Nat) :
    0 ≤ g.ut c ax i := by
  rw [← ut_zero c g ax]; exact ut_mono h ax (Nat.zero_le i)

/-- The time of the generator. -/
theorem time64 {c : Cfg} {g : LinearGen F64} (h : g.Good64 c) {ax : Axis} {i : Nat} {t : Option F64}
    (ht : g.time c ax i = .ok t) :
    (i < (g.total.get ax).toNat ∧ ∃ τ, t = some τ ∧ τ.1 = g.ut c ax i) ∨
      ((g.total.get ax).toNat ≤ i ∧ t = none) := by
  unfold LinearGen.time linearTime at ht
  split at ht
  · cases ht; exact .inr ⟨by omega, rfl⟩
  · have hv := h.moving ax (by omega)
    rw [pdiv64_ok hv.ne'] at ht
    cases ht
    refine .inl ⟨by omega, _, rfl, ?_⟩
    rw [val_div, val_div, val_ofInt, val_ofRat]
    rfl

section Uniform

variable {c : Cfg} {n : V4 ℤ} {w : V4 F64} {g : LinearGen F64} {q : ℝ}

/-- The uniform times of all pulses, and of those of the fastest axis. -/
theorem uniform64 (hc : SaneCfg c) (hppm : ∀ ax, 10 ≤ c.ppm.get ax) (hw : Steps64 c n w)
    (hs : Shape64 c n w g q) (hg : g.Good64 c) {dom : Axis}
    (hd : (Coord.findMax g.maxV).1 = (g.maxV.get dom).1) :
    (∀ i, i + 1 ≤ (g.total.get dom).toNat →
      g.ut c dom (i + 1) ≤ g.ut c dom i + 12 / 100 / (g.maxV.get dom).1) ∧
    (∀ ax i, i < (g.total.get ax).toNat → g.ut c ax i ≤ 1 / q) ∧
    0 < (g.total.get dom).toNat ∧
    1 / q ≤ g.ut c dom ((g.total.get dom).toNat - 1) + 12 / 100 / (g.maxV.get dom).1 := by
  have hV : 6 / 1000 ≤ (g.maxV.get dom).1 := by rw [← hd]; exact hs.fast
  have hV0 : 0 < (g.maxV.get dom).1 := by linarith
  have hq0 : 0 < q := lt_of_lt_of_le (by norm_num) hs.q_ge
  have hP : (10 : ℝ) ≤ c.ppm.get dom := by exact_mod_cast hppm dom
  have hP0 : (0 : ℝ) < c.ppm.get dom := by linarith
  have hPi : 1 / (c.ppm.get dom : ℝ) ≤ 1 / 10 := one_div_le_one_div_of_le (by norm_num) hP
  have hN : ∀ ax, (((g.total.get ax).toNat : ℕ) : ℝ) = |(n.get ax : ℝ)| := by
    intro ax
    rw [hs.total ax]
    have : ((|n.get ax|.toNat : ℤ) : ℝ) = ((|n.get ax| : ℤ) : ℝ) := by
      rw [Int.toNat_of_nonneg (abs_nonneg _)]
    rw [← Int.cast_abs, ← this, Int.cast_natCast]
  have hle : ∀ ax i, i ≤ (g.total.get ax).toNat → (i : ℝ) / c.ppm.get ax ≤ 10 ^ 4 := by
    intro ax i hi
    have hp : (0 : ℝ) < c.ppm.get ax := by exact_mod_cast hc.ppm_pos ax
    rw [div_le_iff₀ hp]
    refine le_trans ?_ (hw.size ax)
    rw [← hN ax]
    exact_mod_cast hi
  have hut : ∀ ax, 0 < (g.maxV.get ax).1 → ∀ i, |g.ut c ax i * (g.maxV.get ax).1 -
      (i : ℝ) / c.ppm.get ax| ≤ (i : ℝ) / c.ppm.get ax * (6 / 10 ^ 15) := by
    intro ax hv i
    have hp : (0 : ℝ) < c.ppm.get ax := by exact_mod_cast hc.ppm_pos ax
    unfold LinearGen.ut
    rw [Int.cast_natCast]
    exact ut_near (Nat.cast_nonneg _) hp hv
  have hab := abs64 hc hw
  refine ⟨fun i hi => ?_, fun ax i hi => ?_, ?_⟩
  · have h1 := (abs_le.1 (hut dom hV0 (i + 1))).2
    have h2 := (abs_le.1 (hut dom hV0 i)).1
    have h3 := hle dom (i + 1) hi
    have h4 := hle dom i (by omega)
    push_cast at h1 h3
    rw [add_div] at h1 h3
    have e : (g.ut c dom i + 12 / 100 / (g.maxV.get dom).1) =
      (g.ut c dom i * (g.maxV.get dom).1 + 12 / 100) / (g.maxV.get dom).1 := by field_simp
    rw [e, le_div_iff₀ hV0]
    generalize g.ut c dom (i + 1) * (g.maxV.get dom).1 = X at *
    generalize g.ut c dom i * (g.maxV.get dom).1 = Y at *
    generalize (i : ℝ) / c.ppm.get dom = Z at *
    generalize 1 / (c.ppm.get dom : ℝ) = W at *
    clear hut hle hab hN
    norm_num at *
    linarith
  · have hmv : 0 < (g.maxV.get ax).1 := hg.moving ax (by omega)
    have hp : (0 : ℝ) < c.ppm.get ax := by exact_mod_cast hc.ppm_pos ax
    have hp1 : (c.ppm.get ax : ℝ) ≤ 1000 := by exact_mod_cast hc.ppm_le ax
    have hpi : 1 / (1000 : ℝ) ≤ 1 / c.ppm.get ax := one_div_le_one_div_of_le hp hp1
    have h1 := (abs_le.1 (hut ax hmv i)).2
    have h2 := (abs_le.1 (hs.near ax)).1
    obtain ⟨h3, h0, -⟩ := hab ax
    have h3 := (abs_le.1 h3).1
    have h4 : ((i : ℝ) + 1) / c.ppm.get ax ≤ |(n.get ax : ℝ)| / c.ppm.get ax := by
      refine div_le_div_of_nonneg_right ?_ hp.le
      rw [← hN ax]
      exact_mod_cast hi
    rw [add_div] at h4
    have h5 : (g.maxV.get ax).1 ≤ 1001 := (findMax64 _ _).trans hs.slow
    rw [le_div_iff₀ hq0]
    have h6 : g.ut c ax i * (g.maxV.get ax).1 ≤ ((Coord.abs w).get ax).1 - 9 / 10 ^ 4 := by
      have hD : ((Coord.abs w).get ax).1 ≤ 10 ^ 4 + 1 := by
        have h7 := (abs_le.1 (hab ax).1).2
        have h8 : |(n.get ax : ℝ)| / c.ppm.get ax ≤ 10 ^ 4 := by
          rw [div_le_iff₀ hp]; exact hw.size ax
        norm_num at *
        linarith
      have hz := hle ax i hi.le
      generalize g.ut c ax i * (g.maxV.get ax).1 = X at *
      generalize (i : ℝ) / c.ppm.get ax = Z at *
      generalize 1 / (c.ppm.get ax : ℝ) = W at *
      generalize |(n.get ax : ℝ)| / c.ppm.get ax = T at *
      generalize ((Coord.abs w).get ax).1 = D at *
      clear hut hle hab hN
      norm_num at *
      linarith
    have h7 := mul_le_mul_of_nonneg_right h6 hq0.le
    have h8 := hs.q_ge
    have h9 : g.ut c ax i * q * (g.maxV.get ax).1 ≤ 1 * (g.maxV.get ax).1 := by
      have e : g.ut c ax i * q * (g.maxV.get ax).1 = g.ut c ax i * (g.maxV.get ax).1 * q := by ring
      rw [e]
      rw [sub_mul] at h7
      generalize g.ut c ax i * (g.maxV.get ax).1 * q = X at *
      generalize ((Coord.abs w).get ax).1 * q = Y at *
      clear hut hle hab hN h6
      norm_num at *
      linarith
    exact le_of_mul_le_mul_right h9 hmv
  · have h2 := (abs_le.1 (hs.near dom)).2
    obtain ⟨h3, h0, hz⟩ := hab dom
    have h3 := (abs_le.1 h3).2
    have h8 := hs.q_ge
    have hpos : 0 < (g.total.get dom).toNat := by
      by_contra hcon
      have h5 : n.get dom = 0 := by
        have := hs.total dom
        have h6 : |n.get dom| ≤ 0 := by omega
        exact abs_eq_zero.1 (le_antisymm h6 (abs_nonneg _))
      rw [hz h5, zero_mul] at h2
      norm_num at h2 hV
      linarith
    refine ⟨hpos, ?_⟩
    set N := (g.total.get dom).toNat with hNd
    have h1 := (abs_le.1 (hut dom hV0 (N - 1))).1
    have h4 := hle dom (N - 1) (by omega)
    have e1 : ((N - 1 : ℕ) : ℝ) / c.ppm.get dom = |(n.get dom : ℝ)| / c.ppm.get dom -
        1 / c.ppm.get dom := by
      rw [Nat.cast_sub hpos, sub_div, ← hN dom]
      simp [hNd]
    rw [e1] at h1 h4
    have e : (g.ut c dom (N - 1) + 12 / 100 / (g.maxV.get dom).1) =
      (g.ut c dom (N - 1) * (g.maxV.get dom).1 + 12 / 100) / (g.maxV.get dom).1 := by field_simp
    rw [e, div_le_div_iff₀ hq0 hV0, one_mul]
    have key : (((Coord.abs w).get dom).1 + 34 / 10 ^ 5) ≤
        g.ut c dom (N - 1) * (g.maxV.get dom).1 + 12 / 100 := by
      generalize g.ut c dom (N - 1) * (g.maxV.get dom).1 = X at *
      generalize 1 / (c.ppm.get dom : ℝ) = W at *
      generalize |(n.get dom : ℝ)| / c.ppm.get dom = T at *
      generalize ((Coord.abs w).get dom).1 = D at *
      clear hut hle hab hN
      norm_num at *
      linarith
    have key2 := mul_le_mul_of_nonneg_right key hq0.le
    rw [add_mul] at key2
    generalize (g.ut c dom (N - 1) * (g.maxV.get dom).1 + 12 / 100) * q = X at *
    generalize ((Coord.abs w).get dom).1 * q = Y at *
    clear hut hle hab hN key
    norm_num at *
    linarith

end Uniform

/-- A bound on the exact time between events. -/
theorem warp_gap64 {k A B V p p' : ℝ} (hk : 0 < k) (hA : 0 ≤ A) (hB : 0 ≤ B) (hV : 6 / 1000 ≤ V)
    (hkV : k ≤ 2001 / 1000 * V) (hp : 0 ≤ p) (h : p ≤ p') (hpp : p' ≤ p + 12 / 100 / V) :
    warp k A B p' ≤ warp k A B p + 21 := by
  have h1 := warp_step (B := B) hk hA hB hp h
  have hV0 : 0 < V := by linarith
  have hu : 12 / 100 / V ≤ 20 := by
    rw [div_le_iff₀ hV0]; linarith
  have hkp : k * (p' - p) ≤ 25 / 100 := by
    calc k * (p' - p) ≤ 2001 / 1000 * V * (12 / 100 / V) :=
          mul_le_mul hkV (by linarith) (by linarith) (by linarith)
      _ = 2001 / 1000 * (12 / 100) := by field_simp
      _ ≤ 25 / 100 := by norm_num
  have hs : √(k * (p' - p)) ≤ 1 / 2 := sqrt_le_of (by norm_num) (hkp.trans (by norm_num))
  linarith

/-- A time in microseconds. -/
theorem stamp64 {τ : F64} {y : ℝ} (h : |τ.1 - y| ≤ 1 / 10) (hy0 : 0 ≤ y) (hy : y ≤ 5 * 10 ^ 6) :
    |(PyNum.roundI (τ *ₚ PyNum.ofRat 1000000) : ℝ) - y * 1000000| ≤ 100001 := by
  have e : PyNum.roundI (τ *ₚ PyNum.ofRat 1000000) = PyRound.rnd (fl (τ.1 * 1000000)) := by
    change PyRound.rnd (τ *ₚ PyNum.ofRat 1000000).1 = _
    rw [val_mul, val_ofRat]
    have : fl ((1000000 : ℚ) : ℝ) = 1000000 := by
      have := fl_int 1000000 (by norm_num)
      simpa using this
    rw [this]
  rw [e]
  obtain ⟨h1, h2⟩ := abs_le.1 h
  have h3 := fl_near (τ.1 * 1000000)
  have hb : |τ.1 * 1000000| ≤ 6 * 10 ^ 12 := by
    rw [abs_le]; constructor <;> norm_num at * <;> linarith
  obtain ⟨a1, a2⟩ := abs_le.1 (h3.trans (mul_le_mul_of_nonneg_right hb (by norm_num)))
  have b1 := rnd_le (fl (τ.1 * 1000000))
  have b2 := le_rnd (fl (τ.1 * 1000000))
  generalize fl (τ.1 * 1000000) = X at *
  rw [abs_le]
  clear h h3 hb
  constructor <;> norm_num at * <;> linarith

/-! ## The run -/

section Run

variable {c : Cfg} {n : V4 ℤ} {w : V4 F64} {g : LinearGen F64} {q : ℝ}

theorem findMax64_mem (v : V4 F64) : ∃ ax, Coord.findMax v = v.get ax := by
  have key : ∀ a b : F64, pmax a b = a ∨ pmax a b = b := by
    intro a b; unfold pmax; split <;> simp
  unfold Coord.findMax
  rcases key (pmax (pmax v.x v.y) v.z) v.e with h | h
  · rcases key (pmax v.x v.y) v.z with h2 | h2
    · rcases key v.x v.y with h3 | h3
      · exact ⟨.x, by rw [h, h2, h3]; rfl⟩
      · exact ⟨.y, by rw [h, h2, h3]; rfl⟩
    · exact ⟨.z, by rw [h, h2]; rfl⟩
  · exact ⟨.e, by rw [h]; rfl⟩

/-- The state of an iteration relative to the uniform time `X` reached. -/
structure Reached (c : Cfg) (g : LinearGen F64) (dom : Axis) (s : GenState) (X : ℝ) : Prop where
  dir : s.dir = some g.dir
  le : ∀ ax, s.it.get ax ≤ (g.total.get ax).toNat
  nonneg : 0 ≤ X
  fired : s.it.get dom ≠ 0 → g.ut c dom (s.it.get dom - 1) ≤ X
  pending : ∀ ax, s.it.get ax < (g.total.get ax).toNat → X ≤ g.ut c ax (s.it.get ax)

/-- The pulses are never far apart. -/
theorem run_gaps64 (hc : SaneCfg c) (hppm : ∀ ax, 10 ≤ c.ppm.get ax) (hw : Steps64 c n w)
    (hs : Shape64 c n w g q) (hg : g.Good64 c) {dom : Axis}
    (hd : (Coord.findMax g.maxV).1 = (g.maxV.get dom).1) (len : Nat) (N : Nat) :
    ∀ (s : GenState) (X : ℝ) (prev : Int), Reached c g dom s X →
      warp ((Gen.linear g).twoVmaxPerA c).1 g.accT.1 g.linT.1 X * 1000000 - 100001 ≤ prev →
      ∃ ks, Stamps ((Gen.linear g).run c N s).1 ks ∧ ShortGaps len prev ks := by
  obtain ⟨u1, u2, u3, u4⟩ := uniform64 hc hppm hw hs hg hd
  have hV : 6 / 1000 ≤ (g.maxV.get dom).1 := by rw [← hd]; exact hs.fast
  have hkV : ((Gen.linear g).twoVmaxPerA c).1 ≤ 2001 / 1000 * (g.maxV.get dom).1 := by
    rw [← hd]; exact hs.k_le
  have hk1 : ((Gen.linear g).twoVmaxPerA c).1 ≤ 2100 := by
    have h1 := hs.k_le
    have h2 := hs.slow
    linarith
  have hq1 : 1 / q ≤ 2 * 10 ^ 6 := by
    have h8 := hs.q_ge
    have hq0 : 0 < q := lt_of_lt_of_le (by norm_num) h8
    rw [div_le_iff₀ hq0]
    norm_num at *
    linarith
  induction N with
  | zero => exact fun s X prev _ _ => ⟨[], .nil, trivial⟩
  | succ N ih =>
    intro s X prev hR hprev
    rcases run_succ c (.linear g) N s with ⟨e, _, h⟩ | ⟨h1, h⟩ | ⟨ev, s', h1, h⟩ <;> rw [h]
    · exact ⟨[], .nil, trivial⟩
    · exact ⟨[], .nil, trivial⟩
    rcases next_cases c (.linear g) s with ⟨e, _, h2⟩ | ⟨d, t, hi, h2⟩
    · rw [h1] at h2; cases h2
    obtain ⟨hdir, htime⟩ := linear_interp hi
    rcases h2 with ⟨h3, h2⟩ | ⟨_, _, h2⟩ | ⟨m, _, hm, ⟨e, _, h2⟩ | ⟨am, ham, h2⟩⟩
    · rw [hR.dir, hdir] at h3; exact absurd rfl h3
    · rw [h1] at h2; cases h2
    · rw [h1] at h2; cases h2
    have hst := next_stepsAt h2
    rw [h1] at h2
    cases h2
    obtain ⟨⟨ax0, hax0⟩, hmin⟩ := minTime_some hm
    have hmin : ∀ ax τ, t.get ax = some τ → m.1 ≤ τ.1 := hmin
    have htimes : ∀ ax, (s.it.get ax < (g.total.get ax).toNat ∧
        ∃ τ, t.get ax = some τ ∧ τ.1 = g.ut c ax (s.it.get ax)) ∨
        ((g.total.get ax).toNat ≤ s.it.get ax ∧ t.get ax = none) := fun ax => time64 hg (htime ax)
    have hm0 : s.it.get ax0 < (g.total.get ax0).toNat ∧ m.1 = g.ut c ax0 (s.it.get ax0) := by
      rcases htimes ax0 with ⟨a, τ, b, e⟩ | ⟨_, b⟩
      · rw [hax0] at b; cases b; exact ⟨a, e⟩
      · rw [hax0] at b; cases b
    have hXm : X ≤ m.1 := by rw [hm0.2]; exact hR.pending ax0 hm0.1
    have hmq : m.1 ≤ 1 / q := by rw [hm0.2]; exact u2 ax0 _ hm0.1
    have hmG : m.1 ≤ X + 12 / 100 / (g.maxV.get dom).1 := by
      have hG : 0 ≤ 12 / 100 / (g.maxV.get dom).1 := div_nonneg (by norm_num) (by linarith)
      rcases htimes dom with ⟨a, τ, b, e⟩ | ⟨a, _⟩
      · have h4 := hmin dom τ b
        rw [e] at h4
        by_cases h0 : s.it.get dom = 0
        · rw [h0, ut_zero] at h4
          have := hR.nonneg
          linarith
        · have h5 := u1 (s.it.get dom - 1) (by omega)
          rw [Nat.sub_add_cancel (by omega)] at h5
          have := hR.fired h0
          linarith
      · have h5 : s.it.get dom = (g.total.get dom).toNat := le_antisymm (hR.le dom) a
        have h6 := hR.fired (by omega)
        rw [h5] at h6
        linarith
    have hadv : ∀ ax, (advanced t m am s.it).get ax = s.it.get ax ∧
          (∀ τ, t.get ax = some τ → m.1 < τ.1) ∨
        (s.it.get ax < (g.total.get ax).toNat ∧ m.1 = g.ut c ax (s.it.get ax) ∧
          (advanced t m am s.it).get ax = s.it.get ax + 1) := by
      intro ax
      unfold advanced
      rw [get_ofFn]
      unfold fireAxis
      rcases htimes ax with ⟨a, τ, b, e⟩ | ⟨a, b⟩
      · rw [b]
        simp only
        by_cases hlt : (m <ₚ τ) = true
        · rw [if_pos hlt]
          refine .inl ⟨rfl, fun τ' h' => ?_⟩
          cases h'
          exact (lt64_iff _ _).1 hlt
        · rw [if_neg hlt]
          rw [lt64_iff, not_lt] at hlt
          refine .inr ⟨a, ?_, rfl⟩
          rw [← e]
          exact le_antisymm (hmin ax τ b) hlt
      · rw [b]
        exact .inl ⟨rfl, fun τ h' => by cases h'⟩
    have hR' : Reached c g dom ⟨advanced t m am s.it, s.dir⟩ m.1 := by
      refine ⟨hR.dir, fun ax => ?_, hR.nonneg.trans hXm, fun h0 => ?_, fun ax hax => ?_⟩
      · rcases hadv ax with ⟨a, _⟩ | ⟨a, _, b⟩
        · change (advanced t m am s.it).get ax ≤ _
          rw [a]; exact hR.le ax
        · change (advanced t m am s.it).get ax ≤ _
          rw [b]; exact a
      · change g.ut c dom ((advanced t m am s.it).get dom - 1) ≤ _
        change (advanced t m am s.it).get dom ≠ 0 at h0
        rcases hadv dom with ⟨a, _⟩ | ⟨_, a, b⟩
        · rw [a] at h0 ⊢; exact (hR.fired h0).trans hXm
        · rw [b, a]; exact le_rfl
      · change (advanced t m am s.it).get ax < _ at hax
        change _ ≤ g.ut c ax ((advanced t m am s.it).get ax)
        rcases hadv ax with ⟨a, b⟩ | ⟨_, a, b⟩
        · rw [a] at hax ⊢
          rcases htimes ax with ⟨_, τ, b', e⟩ | ⟨a', _⟩
          · rw [← e]; exact hmin ax τ b'
          · omega
        · rw [b, a]; exact ut_mono hg ax (Nat.le_succ _)
    have hm00 : 0 ≤ m.1 := hR.nonneg.trans hXm
    have hacc := warp64 hs.k_pos hk1 hs.accT hs.linT hs.accK ⟨hm00, hmq.trans hq1⟩ ham
    have hgap := warp_gap64 (k := ((Gen.linear g).twoVmaxPerA c).1) hs.k_pos hs.accT.1 hs.linT.1 hV hkV
      hR.nonneg hXm hmG
    have hw0 := warp_nonneg hs.k_pos.le hs.accT.1 hs.linT.1 hm00
    have hwle := warp_le hs.k_pos.le hs.accT.1 hs.linT.1 hm00
    have hstamp := stamp64 hacc hw0 (hwle.trans (by
      have h1 := hs.accT.2
      have h2 := hs.linT.2
      change 2 * g.accT.1 + g.linT.1 ≤ _
      norm_num at *
      linarith))
    obtain ⟨b1, b2⟩ := abs_le.1 hstamp
    obtain ⟨τ, hτ⟩ := hst
    have hτe : τ = am := by
      have e1 : (fired t m am s.it).get ax0 = some am := by
        unfold fired
        rw [get_ofFn, hax0]
        unfold fireAxis
        simp only
        rw [if_neg]
        rw [lt64_iff]; exact lt_irrefl _
      exact (hτ.2 ax0 am e1).symm
    subst hτe
    change |τ.1 - warp ((Gen.linear g).twoVmaxPerA c).1 g.accT.1 g.linT.1 m.1| ≤ _ at hacc
    change -100001 ≤ (PyNum.roundI (τ *ₚ PyNum.ofRat 1000000) : ℝ) -
      warp ((Gen.linear g).twoVmaxPerA c).1 g.accT.1 g.linT.1 m.1 * 1000000 at b1
    change (PyNum.roundI (τ *ₚ PyNum.ofRat 1000000) : ℝ) -
      warp ((Gen.linear g).twoVmaxPerA c).1 g.accT.1 g.linT.1 m.1 * 1000000 ≤ 100001 at b2
    have hlen : (0 : ℝ) ≤ len := Nat.cast_nonneg _
    obtain ⟨ks, k1, k2⟩ := ih _ m.1 (PyNum.roundI (τ *ₚ PyNum.ofRat 1000000) + len) hR'
      (by push_cast; linarith)
    refine ⟨_, .pulse hτ k1, ?_, k2⟩
    have : ((PyNum.roundI (τ *ₚ PyNum.ofRat 1000000) : ℤ) : ℝ) - prev < 2 ^ 26 := by
      norm_num
      linarith
    exact_mod_cast this

end Run

end PyCNC
