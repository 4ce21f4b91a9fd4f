import Verif.Spec.Motor
import Verif.Lemmas.LinearRun

/-!
# How far apart the pulses of a straight move are at most
-/

set_option linter.unusedSectionVars false

namespace PyCNC

open Spec

theorem sqrt_sub_le {a b c : ℝ} (h : a ≤ b + c) : √a - √b ≤ √c := by
  rcases le_total b 0 with hb | hb
  · rw [Real.sqrt_eq_zero_of_nonpos hb]
    have := Real.sqrt_le_sqrt (show a ≤ c by linarith)
    linarith
  rcases le_total c 0 with hc | hc
  · have h1 := Real.sqrt_le_sqrt (show a ≤ b by linarith)
    have h2 := Real.sqrt_nonneg c
    linarith
  have : √a ≤ √b + √c := by
    rw [Real.sqrt_le_iff]
    refine ⟨add_nonneg (Real.sqrt_nonneg _) (Real.sqrt_nonneg _), ?_⟩
    have h1 := Real.sq_sqrt hb
    have h2 := Real.sq_sqrt hc
    have h3 := mul_nonneg (Real.sqrt_nonneg b) (Real.sqrt_nonneg c)
    nlinarith
  linarith

/-- Accelerating and braking delay a pulse by a bounded time. -/
theorem warp_step {k A B p q : ℝ} (hk : 0 < k) (hA : 0 ≤ A) (hB : 0 ≤ B) (hp : 0 ≤ p)
    (hpq : p ≤ q) : warp k A B q - warp k A B p ≤ 2 * √(k * (q - p)) + (q - p) := by
  have hq := hp.trans hpq
  have hs := Real.sqrt_nonneg (k * (q - p))
  have hAA : √(A * A) = A := Real.sqrt_mul_self hA
  have hkA : k * (A * A / k) = A * A := by field_simp
  rcases warp_cases (B := B) hk.le hA hp with ⟨h1, h⟩ | ⟨_, h1, h2, h⟩ | ⟨_, h1, h2, h⟩ <;>
  rcases warp_cases (B := B) hk.le hA hq with ⟨g1, g⟩ | ⟨_, g1, g2, g⟩ | ⟨_, g1, g2, g⟩ <;>
  rw [h, g]
  · have := sqrt_sub_le (a := q * k) (b := p * k) (c := k * (q - p)) (by nlinarith)
    linarith
  · have := sqrt_sub_le (a := A * A) (b := p * k) (c := k * (q - p)) (by nlinarith)
    rw [hAA] at this
    have hp' : p ≤ A * A / k := by rw [le_div_iff₀ hk]; exact h1
    linarith
  · have e1 := sqrt_sub_le (a := A * A) (b := p * k) (c := k * (q - p)) (by nlinarith)
    have e2 := sqrt_sub_le (a := A * A) (b := A * A - k * (q - A * A / k - B))
      (c := k * (q - p)) (by
        have hp' : p ≤ A * A / k := by rw [le_div_iff₀ hk]; exact h1
        nlinarith)
    rw [hAA] at e1 e2
    have hp' : p ≤ A * A / k := by rw [le_div_iff₀ hk]; exact h1
    linarith
  · exfalso
    have : q ≤ A * A / k := by rw [le_div_iff₀ hk]; exact g1
    linarith
  · linarith
  · have e2 := sqrt_sub_le (a := A * A) (b := A * A - k * (q - A * A / k - B))
      (c := k * (q - p)) (by nlinarith)
    rw [hAA] at e2
    linarith
  · exfalso
    have : q ≤ A * A / k := by rw [le_div_iff₀ hk]; exact g1
    linarith
  · exfalso; linarith
  · have e2 := sqrt_sub_le (a := A * A - k * (p - A * A / k - B))
      (b := A * A - k * (q - A * A / k - B)) (c := k * (q - p)) (by nlinarith)
    linarith

variable [PyRound] {c : Cfg} {delta : V4 ℝ} {v : ℝ} {g : LinearGen ℝ}

/-- The velocities of a straight move are proportional to its distances. -/
structure Prop10 (delta : V4 ℝ) (g : LinearGen ℝ) (q : ℝ) : Prop where
  q_ge : 1 / 1200000 ≤ q
  near : ∀ ax, |g.maxV.get ax - (Coord.abs delta).get ax * q| ≤ 1 / E10
  fast : 1 / 200 ≤ Coord.findMax g.maxV

theorem linear_prop (hc : SaneCfg c) (hm : OrdinaryMove delta v) {w : V4 ℝ} {q : ℝ}
    (hi : InitVel c delta v w q) (h : LongMove c delta w g ∨ ShortMove c delta w g) :
    ∃ q, Prop10 delta g q := by
  have hE : (1 : ℝ) / 2 / E10 ≤ 1 / E10 := by rw [e10_val]; norm_num
  rcases h with h | h
  · exact ⟨q, hi.q_lower hm, by rw [h.maxV]; exact hi.near, by rw [h.maxV]; exact hi.max_ge hm⟩
  · have hA := h.accT_pos hc hm
    have hA2 := h.accT_le hc hm
    have hAsq := h.accT_sq hc hm
    have ha1 := accel_ge hc
    have hL := norm_ge hm
    refine ⟨1 / g.accT, ?_, fun ax => ?_, ?_⟩
    · exact one_div_le_one_div_of_le hA (by linarith)
    · rw [mul_one_div]; exact (h.near ax).trans hE
    · obtain ⟨mx, hmx⟩ := findMax_mem (Coord.abs delta)
      have h6 := half_norm_le hm
      rw [hmx] at h6
      have h8 := le_findMax g.maxV mx
      have h9 := (abs_le.1 (h.near mx)).1
      have e1 : (1 : ℝ) / 2 / E10 ≤ 1 / 1000 := by rw [e10_val]; norm_num
      have h10 : norm4 (Coord.abs delta) / 2 / g.accT ≤ (Coord.abs delta).get mx / g.accT :=
        div_le_div_of_nonneg_right (by linarith) hA.le
      -- L / A = a A and A^2 = L / a
      have h11 : (3 : ℝ) / 100 ≤ norm4 (Coord.abs delta) / g.accT := by
        rw [le_div_iff₀ hA]
        have h12 : g.accT ^ 2 * c.accel = norm4 (Coord.abs delta) := by
          rw [hAsq]; field_simp
        have h13 : g.accT ^ 2 ≤ norm4 (Coord.abs delta) := by nlinarith [sq_nonneg g.accT]
        nlinarith
      have h14 : norm4 (Coord.abs delta) / 2 / g.accT = norm4 (Coord.abs delta) / g.accT / 2 := by
        ring
      linarith

/-- The longest uniform time between two events. -/
noncomputable def uGap (P V q : ℝ) : ℝ := 3 / 2 / (P * V) + 1 / E10 / (q * V)

/-- The uniform times of all pulses, and of those of the fastest axis. -/
theorem uniform_gaps (hc : SaneCfg c) (hm : OrdinaryMove delta v) (hf : LinFacts c delta g)
    {q : ℝ} (hq : Prop10 delta g q) {dom : Axis} (hd : Coord.findMax g.maxV = g.maxV.get dom) :
    (∀ i, g.pt c dom (i + 1) ≤ g.pt c dom i + uGap (c.ppm.get dom) (g.maxV.get dom) q) ∧
    (∀ ax i, i < (g.total.get ax).toNat → g.pt c ax i ≤ 1 / q) ∧
    (1 / q ≤ uGap (c.ppm.get dom) (g.maxV.get dom) q ∨
      0 < (g.total.get dom).toNat ∧ 1 / q ≤ g.pt c dom ((g.total.get dom).toNat - 1) +
        uGap (c.ppm.get dom) (g.maxV.get dom) q) := by
  have hV : 1 / 200 ≤ g.maxV.get dom := by rw [← hd]; exact hq.fast
  have hP : (0 : ℝ) < c.ppm.get dom := by exact_mod_cast hc.ppm_pos dom
  have hV0 : 0 < g.maxV.get dom := by linarith
  have hq0 : 0 < q := lt_of_lt_of_le (by norm_num) hq.q_ge
  have hE := E10_pos
  have hPV : 0 < (c.ppm.get dom : ℝ) * g.maxV.get dom := mul_pos hP hV0
  have hqV : 0 < q * g.maxV.get dom := mul_pos hq0 hV0
  have e32 : 3 / 2 / ((c.ppm.get dom : ℝ) * g.maxV.get dom) =
    1 / ((c.ppm.get dom : ℝ) * g.maxV.get dom) + 1 / 2 / ((c.ppm.get dom : ℝ) * g.maxV.get dom) := by
    rw [← add_div]; norm_num
  refine ⟨fun i => ?_, fun ax i hi => ?_, ?_⟩
  · rw [pt_succ, uGap, e32]
    have h1 : 0 ≤ 1 / E10 / (q * g.maxV.get dom) := by positivity
    have h2 : 0 ≤ 1 / 2 / ((c.ppm.get dom : ℝ) * g.maxV.get dom) := by positivity
    linarith
  · have hmv : 0 < g.maxV.get ax := hf.moving ax (total_pos (hf.total ax) (by omega))
    have h1 := total_le (hc := hc) (hf.total ax) hi
    have h2 := ppm_inv hc ax
    have h3 := (abs_le.1 (hq.near ax)).1
    have h4 := hq.q_ge
    rw [← abs_get hm] at h1
    unfold LinearGen.pt
    rw [div_le_div_iff₀ hmv hq0, one_mul]
    have h7 : (i : ℝ) / c.ppm.get ax ≤ (Coord.abs delta).get ax - 1 / 2000 := by linarith
    have h8 := mul_le_mul_of_nonneg_right h7 hq0.le
    have e1 : (1 : ℝ) / E10 = 1 / 10000000000 := by rw [e10_val]; norm_num
    rw [e1] at h3
    nlinarith
  · have h3 := (abs_le.1 (hq.near dom)).2
    have h5 := hf.total dom
    have h6 := le_rnd (|delta.get dom| * c.ppm.get dom)
    rw [← h5, ← abs_get hm] at h6
    -- the last pulse of the fastest axis
    have key : 1 / q ≤ ((g.total.get dom : ℝ) - 1) / c.ppm.get dom / g.maxV.get dom +
        uGap (c.ppm.get dom) (g.maxV.get dom) q := by
      have k1 : 1 / q ≤ (Coord.abs delta).get dom / g.maxV.get dom +
          1 / E10 / (q * g.maxV.get dom) := by
        have : (Coord.abs delta).get dom / g.maxV.get dom + 1 / E10 / (q * g.maxV.get dom) =
            ((Coord.abs delta).get dom * q + 1 / E10) / (q * g.maxV.get dom) := by
          field_simp
        rw [this, div_le_div_iff₀ hq0 hqV]
        nlinarith
      have k2 : (Coord.abs delta).get dom / g.maxV.get dom -
          3 / 2 / ((c.ppm.get dom : ℝ) * g.maxV.get dom) ≤
          ((g.total.get dom : ℝ) - 1) / c.ppm.get dom / g.maxV.get dom := by
        have : (Coord.abs delta).get dom / g.maxV.get dom -
          3 / 2 / ((c.ppm.get dom : ℝ) * g.maxV.get dom) =
          ((Coord.abs delta).get dom * c.ppm.get dom - 3 / 2) / c.ppm.get dom / g.maxV.get dom := by
          field_simp
        rw [this]
        refine div_le_div_of_nonneg_right (div_le_div_of_nonneg_right ?_ hP.le) hV0.le
        linarith
      unfold uGap
      linarith
    by_cases hN : 0 < (g.total.get dom).toNat
    · refine .inr ⟨hN, ?_⟩
      unfold LinearGen.pt
      have e : (((g.total.get dom).toNat - 1 : ℕ) : ℝ) = (g.total.get dom : ℝ) - 1 := by
        rw [Nat.cast_sub hN]
        have : ((g.total.get dom).toNat : ℤ) = g.total.get dom := by omega
        have h' : (((g.total.get dom).toNat : ℤ) : ℝ) = ((g.total.get dom : ℤ) : ℝ) := by rw [this]
        push_cast at h' ⊢
        linarith
      rw [e]
      exact key
    · refine .inl (key.trans ?_)
      have h0 : (g.total.get dom : ℝ) ≤ 0 := by
        have : g.total.get dom ≤ 0 := by omega
        exact_mod_cast this
      have : ((g.total.get dom : ℝ) - 1) / c.ppm.get dom / g.maxV.get dom ≤ 0 :=
        div_nonpos_of_nonpos_of_nonneg (div_nonpos_of_nonpos_of_nonneg (by linarith) hP.le) hV0.le
      linarith

/-- A bound on the time between events, for at least ten pulses per millimetre. -/
theorem warp_uGap (hc : SaneCfg c) (hf : LinFacts c delta g) (hppm : ∀ ax, 10 ≤ c.ppm.get ax)
    {q : ℝ} (hq : Prop10 delta g q) {dom : Axis} (hd : Coord.findMax g.maxV = g.maxV.get dom)
    {p p' : ℝ} (hp : 0 ≤ p) (hpp : p' ≤ p + uGap (c.ppm.get dom) (g.maxV.get dom) q)
    (hp' : 0 ≤ p') : g.at c p' ≤ g.at c p + 32 := by
  rcases le_total p' p with h | h
  · have := warp_mono (B := g.linT) hf.k_pos.le hf.good.accT hf.good.linT hp' h
    unfold LinearGen.at
    linarith
  have h1 := warp_step (B := g.linT) hf.k_pos hf.good.accT hf.good.linT hp h
  have hV : 1 / 200 ≤ g.maxV.get dom := by rw [← hd]; exact hq.fast
  have hP : (10 : ℝ) ≤ c.ppm.get dom := by exact_mod_cast hppm dom
  have hV0 : 0 < g.maxV.get dom := by linarith
  have hq0 : 0 < q := lt_of_lt_of_le (by norm_num) hq.q_ge
  have ha := accel_ge hc
  set V := g.maxV.get dom with hVd
  have hu : V * uGap (c.ppm.get dom) V q ≤ 151 / 1000 := by
    have e : V * uGap (c.ppm.get dom) V q = 3 / 2 / c.ppm.get dom + 1 / E10 / q := by
      unfold uGap
      field_simp
    rw [e]
    have k1 : 3 / 2 / (c.ppm.get dom : ℝ) ≤ 3 / 2 / 10 :=
      div_le_div_of_nonneg_left (by norm_num) (by norm_num) hP
    have k2 : 1 / E10 / q ≤ 1 / 1000 := by
      rw [div_le_iff₀ hq0, e10_val]
      have := hq.q_ge
      norm_num
      linarith
    linarith
  have hu2 : uGap (c.ppm.get dom) V q ≤ 302 / 10 := by
    by_contra hn
    push Not at hn
    nlinarith
  have hk : (Gen.linear g).twoVmaxPerA c * (p' - p) ≤ 4 / 9 := by
    rw [twoVmaxPerA_eq, hd]
    have : 2 * V / (c.accel : ℝ) ≤ 2 * V := div_le_self (by linarith) ha
    calc 2 * V / (c.accel : ℝ) * (p' - p) ≤ 2 * V * (p' - p) :=
          mul_le_mul_of_nonneg_right this (by linarith)
      _ ≤ 2 * V * uGap (c.ppm.get dom) V q :=
          mul_le_mul_of_nonneg_left (by linarith) (by linarith)
      _ ≤ 4 / 9 := by nlinarith
  have hs : √((Gen.linear g).twoVmaxPerA c * (p' - p)) ≤ 2 / 3 := by
    rw [Real.sqrt_le_iff]
    exact ⟨by norm_num, hk.trans (by norm_num)⟩
  unfold LinearGen.at
  linarith

/-! ### The list of events -/

theorem mem_stepTimes {F : Type} [PyNum F] {ax : Axis} {τ : F} {evs : List (Event F)}
    (h : τ ∈ stepTimes ax evs) : ∃ t, .pulse t ∈ evs ∧ t.get ax = some τ := by
  induction evs with
  | nil => cases h
  | cons ev evs ih =>
    rw [stepTimes_cons] at h
    rcases List.mem_append.1 h with h | h
    · cases ev with
      | dir d => cases h
      | pulse t =>
        cases ht : t.get ax with
        | none => simp [stepTimes, ht] at h
        | some τ' =>
          simp only [stepTimes, ht, List.mem_singleton] at h
          subst h
          exact ⟨t, by simp, ht⟩
    · obtain ⟨t, h1, h2⟩ := ih h
      exact ⟨t, List.mem_cons_of_mem _ h1, h2⟩

/-- Successive events are at most 32 seconds apart and the first one is at time zero. -/
theorem good_gaps (hc : SaneCfg c) (hm : OrdinaryMove delta v) (hf : LinFacts c delta g)
    (hppm : ∀ ax, 10 ≤ c.ppm.get ax) {q : ℝ} (hq : Prop10 delta g q) {r : List (Event ℝ)}
    (hat : ∀ ev ∈ r, ∃ τ, StepsAt τ ev)
    (ht : ∀ ax, stepTimes ax r = (List.range (g.total.get ax).toNat).map fun i =>
      g.at c (g.pt c ax i))
    (hs : r.Pairwise fun e₁ e₂ => ∀ τ₁ τ₂, StepsAt τ₁ e₁ → StepsAt τ₂ e₂ → τ₁ ≤ τ₂) :
    (∀ e suf τ, r = e :: suf → StepsAt τ e → τ = 0) ∧
    (∀ pre e e' suf τ τ', r = pre ++ e :: e' :: suf → StepsAt τ e → StepsAt τ' e' →
      0 ≤ τ ∧ τ ≤ τ' ∧ τ' ≤ τ + 32) := by
  have hat0 : g.at c 0 = 0 := warp_zero hf.good.accT
  -- every event is a pulse of some axis
  have hev : ∀ ev ∈ r, ∀ τ, StepsAt τ ev →
      ∃ ax i, i < (g.total.get ax).toNat ∧ τ = g.at c (g.pt c ax i) := by
    intro ev hev τ hτ
    cases ev with
    | dir d => exact absurd hτ (by simp [StepsAt])
    | pulse t =>
      obtain ⟨⟨ax, hax⟩, -⟩ := hτ
      obtain ⟨a, b, rfl⟩ := List.append_of_mem hev
      have : τ ∈ stepTimes ax (a ++ .pulse t :: b) := by
        rw [stepTimes_append, stepTimes_cons]
        simp [stepTimes, hax]
      rw [ht] at this
      obtain ⟨i, hi, e⟩ := List.mem_map.1 this
      exact ⟨ax, i, List.mem_range.1 hi, e.symm⟩
  have hmem : ∀ {l : List (Event ℝ)} {ax : Axis} {τ : ℝ}, (∀ ev ∈ l, ev ∈ r) →
      τ ∈ stepTimes ax l → ∃ ev ∈ l, StepsAt τ ev := by
    intro l ax τ hl hτ
    obtain ⟨t, h1, h2⟩ := mem_stepTimes hτ
    obtain ⟨τ', h3⟩ := hat _ (hl _ h1)
    have : τ = τ' := h3.2 ax τ h2
    subst this
    exact ⟨_, h1, h3⟩
  constructor
  · intro e suf τ hr hτ
    cases e with
    | dir d => exact absurd hτ (by simp [StepsAt])
    | pulse t =>
      obtain ⟨⟨ax, hax⟩, -⟩ := hτ
      have h1 := ht ax
      rw [hr] at h1
      simp only [stepTimes, hax] at h1
      cases hN : (g.total.get ax).toNat with
      | zero => rw [hN] at h1; cases h1
      | succ n =>
        rw [hN, List.range_succ_eq_map, List.map_cons] at h1
        injection h1 with h1 _
        rw [h1, pt_zero, hat0]
  · intro pre e e' suf τ τ' hr hτ hτ'
    obtain ⟨dom, hd⟩ := findMax_mem g.maxV
    obtain ⟨u1, u2, u3⟩ := uniform_gaps hc hm hf hq hd
    have he : e ∈ r := by rw [hr]; simp
    have he' : e' ∈ r := by rw [hr]; simp
    obtain ⟨ax1, i1, l1, k1⟩ := hev e he τ hτ
    obtain ⟨ax2, i2, l2, k2⟩ := hev e' he' τ' hτ'
    have hτ0 : 0 ≤ τ := by
      rw [k1]
      exact warp_nonneg hf.k_pos.le hf.good.accT hf.good.linT (pt_nonneg hf.good _ _)
    rw [hr] at hs
    have hs' := List.pairwise_append.1 hs
    have hs2 := List.pairwise_cons.1 hs'.2.1
    have hs3 := List.pairwise_cons.1 hs2.2
    refine ⟨hτ0, hs2.1 e' (by simp) τ τ' hτ hτ', ?_⟩
    -- the steps of the fastest axis in the two parts
    have hsplit := ht dom
    have hr2 : r = (pre ++ [e]) ++ (e' :: suf) := by rw [hr]; simp
    rw [hr2, stepTimes_append] at hsplit
    have hbefore : ∀ x ∈ stepTimes dom (pre ++ [e]), x ≤ τ := by
      intro x hx
      obtain ⟨ev, h1, h2⟩ := hmem (fun ev h => by rw [hr2]; exact List.mem_append_left _ h) hx
      rcases List.mem_append.1 h1 with h1 | h1
      · exact hs'.2.2 ev h1 e (by simp) x τ h2 hτ
      · obtain rfl := List.mem_singleton.1 h1
        cases ev with
        | dir d => exact absurd hτ (by simp [StepsAt])
        | pulse t =>
          obtain ⟨⟨ax, hax⟩, h3⟩ := h2
          exact (hτ.2 ax x hax).le
    have hafter : ∀ x ∈ stepTimes dom (e' :: suf), τ' ≤ x := by
      intro x hx
      obtain ⟨ev, h1, h2⟩ := hmem (fun ev h => by rw [hr2]; exact List.mem_append_right _ h) hx
      rcases List.mem_cons.1 h1 with rfl | h1
      · cases ev with
        | dir d => exact absurd hτ' (by simp [StepsAt])
        | pulse t =>
          obtain ⟨⟨ax, hax⟩, h3⟩ := h2
          exact (hτ'.2 ax x hax).ge
      · exact hs3.1 ev h1 τ' x hτ' h2
    set n := (stepTimes dom (pre ++ [e])).length with hn
    have hlen : n + (stepTimes dom (e' :: suf)).length = (g.total.get dom).toNat := by
      have := congrArg List.length hsplit
      simpa using this
    have hget : ∀ i, i < (g.total.get dom).toNat →
        (stepTimes dom (pre ++ [e]) ++ stepTimes dom (e' :: suf))[i]? =
          some (g.at c (g.pt c dom i)) := by
      intro i hi
      rw [hsplit]
      simp [hi]
    have hlast : 0 < n → g.at c (g.pt c dom (n - 1)) ≤ τ := by
      intro h0
      have h1 := hget (n - 1) (by omega)
      rw [List.getElem?_append_left (by omega)] at h1
      exact hbefore _ (List.mem_of_getElem? h1)
    by_cases hmore : n < (g.total.get dom).toNat
    · have h1 := hget n hmore
      rw [List.getElem?_append_right (by omega)] at h1
      have h2 := hafter _ (List.mem_of_getElem? h1)
      by_cases h0 : 0 < n
      · have h3 := u1 (n - 1)
        rw [Nat.sub_add_cancel h0] at h3
        have h4 := warp_uGap hc hf hppm hq hd (pt_nonneg hf.good dom (n - 1)) h3
          (pt_nonneg hf.good dom n)
        have h5 := hlast h0
        linarith
      · have h00 : n = 0 := by omega
        rw [h00, pt_zero, hat0] at h2
        linarith
    · have hN : n = (g.total.get dom).toNat := by omega
      have h1 : τ' ≤ g.at c (1 / q) := by
        rw [k2]
        exact warp_mono hf.k_pos.le hf.good.accT hf.good.linT (pt_nonneg hf.good _ _) (u2 _ _ l2)
      have hq0 : 0 < q := lt_of_lt_of_le (by norm_num) hq.q_ge
      rcases u3 with u3 | ⟨h0, u3⟩
      · have h4 := warp_uGap hc hf hppm hq hd (p := 0) (p' := 1 / q) le_rfl (by linarith)
          (by positivity)
        rw [hat0] at h4
        linarith
      · have h4 := warp_uGap hc hf hppm hq hd (pt_nonneg hf.good dom _) u3 (by positivity)
        rw [← hN] at h4 h0
        have h5 := hlast h0
        linarith

/-- The stamps of pulses that are not far apart. -/
theorem stamps_of_gaps (len : Nat) {r : List (Event ℝ)} (hat : ∀ ev ∈ r, ∃ τ, StepsAt τ ev) :
    ∀ (prev : Int) (x : ℝ), (prev : ℝ) ≤ x * 1000000 + 1 / 2 + len →
      x * 1000000 - 1 / 2 ≤ prev →
      (∀ e suf τ, r = e :: suf → StepsAt τ e → τ ≤ x + 32) →
      (∀ pre e e' suf τ τ', r = pre ++ e :: e' :: suf → StepsAt τ e → StepsAt τ' e' →
        τ' ≤ τ + 32) →
      ∃ ks, Stamps r ks ∧ ShortGaps len prev ks := by
  induction r with
  | nil => exact fun _ _ _ _ _ _ => ⟨[], .nil, trivial⟩
  | cons e r ih =>
    intro prev x h1 h1' h2 h3
    obtain ⟨τ, hτ⟩ := hat e (by simp)
    have hx := h2 e r τ rfl hτ
    have n1 := rnd_le (τ * 1000000)
    have n2 := le_rnd (τ * 1000000)
    have hk : PyNum.roundI (τ *ₚ PyNum.ofRat 1000000) = PyRound.rnd (τ * 1000000) := by
      simp
    have hlen : (0 : ℝ) ≤ len := Nat.cast_nonneg _
    obtain ⟨ks, g1, g2⟩ := ih (fun ev h => hat ev (by simp [h]))
      (PyRound.rnd (τ * 1000000) + len) τ (by push_cast; linarith) (by push_cast; linarith)
      (fun e' suf τ' hr hτ' => h3 [] e e' suf τ τ' (by rw [hr]; rfl) hτ hτ')
      (fun pre e1 e2 suf τ1 τ2 hr => h3 (e :: pre) e1 e2 suf τ1 τ2 (by rw [hr]; rfl))
    cases e with
    | dir d => exact absurd hτ (by simp [StepsAt])
    | pulse t =>
      refine ⟨_, .pulse hτ g1, ?_⟩
      rw [hk]
      refine ⟨?_, g2⟩
      have : (PyRound.rnd (τ * 1000000) : ℝ) - prev < 2 ^ 26 := by norm_num; linarith
      exact_mod_cast this

theorem length_le_steps {F : Type} [PyNum F] {r : List (Event F)}
    (h : ∀ ev ∈ r, ∃ τ, StepsAt τ ev) :
    r.length ≤ steps .x r + steps .y r + steps .z r + steps .e r := by
  induction r with
  | nil => exact Nat.zero_le _
  | cons ev r ih =>
    have ih := ih fun e he => h e (by simp [he])
    obtain ⟨τ, hτ⟩ := h ev (by simp)
    cases ev with
    | dir d => exact absurd hτ (by simp [StepsAt])
    | pulse t =>
      obtain ⟨⟨ax, hax⟩, -⟩ := hτ
      rw [steps_cons .x, steps_cons .y, steps_cons .z, steps_cons .e, List.length_cons]
      have : steps ax [Event.pulse t] = 1 := by simp [steps, stepTimes, hax]
      cases ax <;> omega

theorem room_pulses {F : Type} {r : List (Event F)} (h : ∀ ev ∈ r, ∃ t, ev = .pulse t) :
    room r = 128 * r.length := by
  induction r with
  | nil => rfl
  | cons ev r ih =>
    obtain ⟨t, rfl⟩ := h ev (by simp)
    simp only [room, List.length_cons, ih fun e he => h e (by simp [he])]
    ring

/-- What the generator of an ordinary straight move emits fits into a large buffer and is
dense enough for the engine. -/
theorem linear_stream (hc : SaneCfg c) (hm : OrdinaryMove delta v)
    (hppm : ∀ ax, 10 ≤ c.ppm.get ax) (hg : LinearGen.new c delta v = .ok g) :
    ∃ r ks, Emits c (.linear g) (.dir (invertDirs c g.dir) :: r) ∧
      (∀ ev ∈ r, ∃ t, ev = .pulse t) ∧
      Stamps (.dir (invertDirs c g.dir) :: r) ks ∧ ShortGaps c.pulseLenUs 0 ks ∧
      room (.dir (invertDirs c g.dir) :: r) ≤ 32 + 128 * ((g.total.x).toNat + (g.total.y).toNat +
        (g.total.z).toNat + (g.total.e).toNat) ∧
      ∀ ax, g.dir.get ax = 1 ∨ g.dir.get ax = -1 := by
  obtain ⟨g', w, q, h1, hi, -, htot, hdir, hls⟩ := linear_new hc hm
  rw [hg] at h1
  cases h1
  have hf : LinFacts c delta g := by
    rcases hls with h | h
    · exact long_facts hc hm hi h htot
    · exact short_facts hc hm h htot
  obtain ⟨q', hq⟩ := linear_prop hc hm hi hls
  obtain ⟨r, he, hpre, hp, hst, htimes, hsort⟩ := good_emits hf.good
  have hat : ∀ ev ∈ r, ∃ τ, StepsAt τ ev := by
    intro ev hev
    obtain ⟨t, rfl⟩ := hp ev hev
    obtain ⟨N, hN⟩ := hpre r.length
    rw [List.take_length] at hN
    rw [hN] at hev
    exact run_stepsAt c _ _ _ _ hev (by simp [IsDir])
  obtain ⟨f1, f2⟩ := good_gaps hc hm hf hppm hq hat htimes hsort
  obtain ⟨ks, k1, k2⟩ := stamps_of_gaps c.pulseLenUs hat 0 0
    (by have : (0 : ℝ) ≤ c.pulseLenUs := Nat.cast_nonneg _
        push_cast; linarith) (by norm_num)
    (fun e suf τ hr hτ => by rw [f1 e suf τ hr hτ]; norm_num)
    (fun pre e e' suf τ τ' hr h1 h2 => (f2 pre e e' suf τ τ' hr h1 h2).2.2)
  refine ⟨r, ks, he, hp, .dir k1, k2, ?_, fun ax => ?_⟩
  · rw [room, room_pulses hp]
    have := length_le_steps hat
    have hx := hst .x; have hy := hst .y; have hz := hst .z; have he' := hst .e
    simp only [V4.get] at hx hy hz he'
    omega
  · rw [hdir]
    split
    · exact .inr rfl
    · exact .inl rfl

end PyCNC
