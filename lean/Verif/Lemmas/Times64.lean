import Verif.Lemmas.Rate64
import Verif.Lemmas.Pins64

/-!
# The events of straight moves in binary64
-/

namespace PyCNC

open Spec

variable [PyRound] {c : Cfg} {g : LinearGen F64}

/-- One call of `next` on a generator whose direction was announced. -/
theorem next64 (hg : g.Good64 c) {it : V4 Nat} {ev : Event F64} {s' : GenState}
    (h1 : (Gen.linear g).next c ⟨it, some g.dir⟩ = .ok (some (ev, s'))) :
    ∃ (m am : F64) (it' : V4 Nat) (t : V4 (Option F64)), ev = .pulse t ∧ s' = ⟨it', some g.dir⟩ ∧
      (Gen.linear g).toAccelerated c m = .ok am ∧
      (∃ ax, it.get ax < (g.total.get ax).toNat ∧ m.1 = g.ut c ax (it.get ax)) ∧
      ∀ ax, (it.get ax < (g.total.get ax).toNat ∧ m.1 = g.ut c ax (it.get ax) ∧
          it'.get ax = it.get ax + 1 ∧ t.get ax = some am) ∨
        ((it.get ax < (g.total.get ax).toNat → m.1 < g.ut c ax (it.get ax)) ∧
          it'.get ax = it.get ax ∧ t.get ax = none) := by
  rcases next_cases c (.linear g) ⟨it, some g.dir⟩ with ⟨e, _, h2⟩ | ⟨d, t, hi, h2⟩
  · rw [h1] at h2; cases h2
  obtain ⟨hdir, htime⟩ := linear_interp hi
  rcases h2 with ⟨h3, h2⟩ | ⟨_, _, h2⟩ | ⟨m, _, hm, ⟨e, _, h2⟩ | ⟨am, ham, h2⟩⟩
  · rw [hdir] at h3; exact absurd rfl h3
  · rw [h1] at h2; cases h2
  · rw [h1] at h2; cases h2
  rw [h1] at h2
  cases h2
  obtain ⟨⟨ax0, hax0⟩, hmin⟩ := minTime_some hm
  have hmin : ∀ ax τ, t.get ax = some τ → m.1 ≤ τ.1 := hmin
  have htimes : ∀ ax, (it.get ax < (g.total.get ax).toNat ∧
      ∃ τ, t.get ax = some τ ∧ τ.1 = g.ut c ax (it.get ax)) ∨
      ((g.total.get ax).toNat ≤ it.get ax ∧ t.get ax = none) := fun ax => time64 hg (htime ax)
  refine ⟨m, am, _, _, rfl, rfl, ham, ?_, fun ax => ?_⟩
  · rcases htimes ax0 with ⟨a, τ, b, e⟩ | ⟨_, b⟩
    · rw [hax0] at b; cases b; exact ⟨ax0, a, e⟩
    · rw [hax0] at b; cases b
  · unfold advanced fired
    rw [get_ofFn, get_ofFn]
    unfold fireAxis
    rcases htimes ax with ⟨a, τ, b, e⟩ | ⟨a, b⟩
    · rw [b]
      simp only
      by_cases hlt : (m <ₚ τ) = true
      · rw [if_pos hlt]
        refine .inr ⟨fun _ => ?_, rfl, rfl⟩
        rw [← e]; exact (lt64_iff _ _).1 hlt
      · rw [if_neg hlt]
        rw [lt64_iff, not_lt] at hlt
        refine .inl ⟨a, ?_, rfl, rfl⟩
        rw [← e]
        exact le_antisymm (hmin ax τ b) hlt
    · rw [b]
      exact .inr ⟨fun h => by omega, rfl, rfl⟩

/-- The times of the pulses of one axis. -/
theorem run_times64 (hg : g.Good64 c) (ax : Axis) (N : Nat) : ∀ (it : V4 Nat) (j : Nat) (τ : F64),
    (stepTimes ax ((Gen.linear g).run c N ⟨it, some g.dir⟩).1)[j]? = some τ →
    it.get ax + j < (g.total.get ax).toNat ∧
      ∃ m : F64, m.1 = g.ut c ax (it.get ax + j) ∧ (Gen.linear g).toAccelerated c m = .ok τ := by
  induction N with
  | zero => intro it j τ h; simp [Gen.run, stepTimes] at h
  | succ N ih =>
    intro it j τ h
    rcases run_succ c (.linear g) N ⟨it, some g.dir⟩ with ⟨e, _, h2⟩ | ⟨_, h2⟩ | ⟨ev, s', h1, h2⟩ <;>
      rw [h2] at h
    · simp [stepTimes] at h
    · simp [stepTimes] at h
    obtain ⟨m, am, it', t, rfl, rfl, h3, -, h4⟩ := next64 hg h1
    rw [stepTimes_cons] at h
    rcases h4 ax with ⟨a, b, e, f⟩ | ⟨_, e, f⟩
    · have e1 : stepTimes ax [Event.pulse t] = [am] := by simp [stepTimes, f]
      rw [e1] at h
      cases j with
      | zero =>
        simp at h
        subst h
        exact ⟨a, m, b, h3⟩
      | succ j =>
        have h5 := ih it' j τ (by simpa using h)
        rw [e] at h5
        have e2 : it.get ax + (j + 1) = it.get ax + 1 + j := by omega
        rw [e2]
        exact h5
    · have e1 : stepTimes ax [Event.pulse t] = [] := by simp [stepTimes, f]
      rw [e1] at h
      have h5 := ih it' j τ (by simpa using h)
      rw [e] at h5
      exact h5

/-- All later events have a later uniform time. -/
theorem run_after64 (hg : g.Good64 c) (N : Nat) : ∀ (it : V4 Nat) (x : ℝ),
    (∀ ax, it.get ax < (g.total.get ax).toNat → x ≤ g.ut c ax (it.get ax)) →
    ∀ ev ∈ ((Gen.linear g).run c N ⟨it, some g.dir⟩).1, ∀ τ, StepsAt τ ev →
      ∃ (ax : Axis) (i : Nat) (m : F64), i < (g.total.get ax).toNat ∧ m.1 = g.ut c ax i ∧ x ≤ m.1 ∧
        (Gen.linear g).toAccelerated c m = .ok τ := by
  induction N with
  | zero => intro it x _ ev hev; cases hev
  | succ N ih =>
    intro it x hx ev hev τ hτ
    rcases run_succ c (.linear g) N ⟨it, some g.dir⟩ with ⟨e, _, h2⟩ | ⟨_, h2⟩ | ⟨ev', s', h1, h2⟩ <;>
      rw [h2] at hev
    · cases hev
    · cases hev
    obtain ⟨m, am, it', t, rfl, rfl, h3, ⟨a0, b0, c0⟩, h4⟩ := next64 hg h1
    have hxm : x ≤ m.1 := by rw [c0]; exact hx a0 b0
    rcases List.mem_cons.1 hev with rfl | hev
    · obtain ⟨⟨a, ha⟩, -⟩ := hτ
      refine ⟨a0, _, m, b0, c0, hxm, ?_⟩
      rcases h4 a with ⟨_, _, _, f⟩ | ⟨_, _, f⟩ <;> rw [f] at ha <;> cases ha
      exact h3
    · refine ih it' x (fun ax hlt => ?_) ev hev τ hτ
      rcases h4 ax with ⟨_, b, e, _⟩ | ⟨b, e, _⟩ <;> rw [e] at hlt ⊢
      · rw [b] at hxm
        exact hxm.trans (ut_mono hg ax (Nat.le_succ _))
      · exact hxm.trans (b hlt).le

/-- Events are ordered in time, up to the error of the arithmetic. -/
theorem run_sorted64 (hg : g.Good64 c) (hacc : ∀ (ax : Axis) (i : Nat) (m m' r r' : F64),
      i < (g.total.get ax).toNat → m'.1 = g.ut c ax i → 0 ≤ m.1 → m.1 ≤ m'.1 →
      (Gen.linear g).toAccelerated c m = .ok r → (Gen.linear g).toAccelerated c m' = .ok r' →
      r.1 ≤ r'.1 + 1 / 10 ^ 7) (N : Nat) : ∀ (it : V4 Nat),
    ((Gen.linear g).run c N ⟨it, some g.dir⟩).1.Pairwise
      fun e₁ e₂ => ∀ τ₁ τ₂, StepsAt τ₁ e₁ → StepsAt τ₂ e₂ → τ₁.1 ≤ τ₂.1 + 1 / 10 ^ 7 := by
  induction N with
  | zero => intro it; simp [Gen.run]
  | succ N ih =>
    intro it
    rcases run_succ c (.linear g) N ⟨it, some g.dir⟩ with ⟨e, _, h2⟩ | ⟨_, h2⟩ | ⟨ev', s', h1, h2⟩ <;>
      rw [h2]
    · exact .nil
    · exact .nil
    obtain ⟨m, am, it', t, rfl, rfl, h3, ⟨a0, b0, c0⟩, h4⟩ := next64 hg h1
    refine List.Pairwise.cons (fun ev hev τ₁ τ₂ h5 h6 => ?_) (ih it')
    have e1 : τ₁ = am := by
      obtain ⟨⟨a, ha⟩, -⟩ := h5
      rcases h4 a with ⟨_, _, _, f⟩ | ⟨_, _, f⟩ <;> rw [f] at ha <;> cases ha
      rfl
    subst e1
    obtain ⟨ax, i, m', i1, i2, i3, i4⟩ := run_after64 hg N it' m.1 (fun ax hlt => by
      rcases h4 ax with ⟨_, b, e, _⟩ | ⟨b, e, _⟩ <;> rw [e] at hlt ⊢
      · rw [b]; exact ut_mono hg ax (Nat.le_succ _)
      · exact (b hlt).le) ev hev τ₂ h6
    exact hacc ax i m m' τ₁ τ₂ i1 i2 (by rw [c0]; exact ut_nonneg hg _ _) i3 h3 i4

/-- After every event the axes have made all pulses up to one common uniform time. -/
theorem run_state64 (hg : g.Good64 c) {X : ℝ}
    (hX : ∀ ax i, i < (g.total.get ax).toNat → g.ut c ax i ≤ X) (N : Nat) : ∀ (it : V4 Nat) (x : ℝ),
    (∀ ax, it.get ax ≤ (g.total.get ax).toNat ∧
      (it.get ax < (g.total.get ax).toNat → x ≤ g.ut c ax (it.get ax)) ∧
      (0 < it.get ax → g.ut c ax (it.get ax - 1) ≤ x)) → 0 ≤ x → x ≤ X →
    let r := ((Gen.linear g).run c N ⟨it, some g.dir⟩).1
    ∃ x, 0 ≤ x ∧ x ≤ X ∧ ∀ ax, it.get ax + steps ax r ≤ (g.total.get ax).toNat ∧
      (it.get ax + steps ax r < (g.total.get ax).toNat → x ≤ g.ut c ax (it.get ax + steps ax r)) ∧
      (0 < it.get ax + steps ax r → g.ut c ax (it.get ax + steps ax r - 1) ≤ x) := by
  induction N with
  | zero => exact fun it x h h0 h0' => ⟨x, h0, h0', h⟩
  | succ N ih =>
    intro it x h h0 h0'
    rcases run_succ c (.linear g) N ⟨it, some g.dir⟩ with ⟨e, _, h2⟩ | ⟨_, h2⟩ | ⟨ev', s', h1, h2⟩ <;>
      rw [h2]
    · exact ⟨x, h0, h0', h⟩
    · exact ⟨x, h0, h0', h⟩
    obtain ⟨m, am, it', t, rfl, rfl, h3, ⟨a0, b0, c0⟩, h4⟩ := next64 hg h1
    have hxm : x ≤ m.1 := by rw [c0]; exact (h a0).2.1 b0
    have key : ∀ ax, it.get ax + steps ax (Event.pulse t :: ((Gen.linear g).run c N
        ⟨it', some g.dir⟩).1) = it'.get ax + steps ax ((Gen.linear g).run c N
        ⟨it', some g.dir⟩).1 := by
      intro ax
      rw [steps_cons, ← Nat.add_assoc]
      congr 1
      rcases h4 ax with ⟨_, _, h5, h6⟩ | ⟨_, h5, h6⟩ <;> rw [h5] <;> simp [steps, stepTimes, h6]
    simp only [key]
    refine ih it' m.1 (fun ax => ?_) (h0.trans hxm) (by rw [c0]; exact hX a0 _ b0)
    rcases h4 ax with ⟨a, b, e, _⟩ | ⟨b, e, _⟩
    · rw [e]
      refine ⟨a, fun hlt => ?_, fun _ => ?_⟩
      · rw [b]; exact ut_mono hg ax (Nat.le_succ _)
      · rw [b]; exact le_rfl
    · rw [e]
      refine ⟨(h ax).1, fun hlt => (b hlt).le, fun hpos => ((h ax).2.2 hpos).trans hxm⟩

omit [PyRound] in
/-- The steps of an axis at a uniform time. -/
theorem stepCount64 {x q d v P n : ℝ} {i : Nat} {u : Nat → ℝ} (hx : 0 ≤ x) (hxq : x ≤ 1 / q)
    (hq : 8 / 10 ^ 7 ≤ q) (hv : 0 < v) (hP : 0 < P) (hn : 0 ≤ n) (hnP : n / P ≤ 10 ^ 4)
    (hd : |d - n / P| ≤ 3 / 10 ^ 10) (hvd : |v - d * q| ≤ 2 / 10 ^ 10) (hin : (i : ℝ) ≤ n)
    (hu : ∀ j : Nat, |u j * v - j / P| ≤ j / P * (6 / 10 ^ 15))
    (h1 : (i : ℝ) < n → x ≤ u i) (h2 : 0 < i → u (i - 1) ≤ x) :
    |(i : ℝ) - x * q * n| ≤ 1 + 3 / 10 ^ 4 * P := by
  have hq0 : 0 < q := lt_of_lt_of_le (by norm_num) hq
  have hl1 : x * q ≤ 1 := by rwa [le_div_iff₀ hq0] at hxq
  have hl0 : 0 ≤ x * q := by positivity
  have hx2 : x ≤ 125 * 10 ^ 4 := by
    refine hxq.trans ?_
    rw [div_le_iff₀ hq0]
    norm_num at *
    linarith
  obtain ⟨v1, v2⟩ := abs_le.1 hvd
  obtain ⟨d1, d2⟩ := abs_le.1 hd
  have e : x * q * n = x * q * (n / P) * P := by field_simp
  have hN0 : 0 ≤ n / P := by positivity
  have hxv : |x * v - x * q * (n / P)| ≤ 26 / 10 ^ 5 := by
    have a1 : |x * (v - d * q)| ≤ 125 * 10 ^ 4 * (2 / 10 ^ 10) := by
      rw [abs_mul, abs_of_nonneg hx]
      exact mul_le_mul hx2 hvd (abs_nonneg _) (by norm_num)
    have a2 : |x * q * (d - n / P)| ≤ 1 * (3 / 10 ^ 10) := by
      rw [abs_mul, abs_of_nonneg hl0]
      exact mul_le_mul hl1 hd (abs_nonneg _) (by norm_num)
    have e1 : x * v - x * q * (n / P) = x * (v - d * q) + x * q * (d - n / P) := by ring
    rw [e1]
    refine (abs_add_le _ _).trans ((add_le_add a1 a2).trans (by norm_num))
  obtain ⟨w1, w2⟩ := abs_le.1 hxv
  have hlN : x * q * (n / P) ≤ 1 * 10 ^ 4 := mul_le_mul hl1 hnP hN0 (by norm_num)
  have hln : x * q * n ≤ n := mul_le_of_le_one_left hn hl1
  have hln0 : 0 ≤ x * q * n := by positivity
  have hP3 : 0 ≤ 3 / 10 ^ 4 * P := by positivity
  rw [abs_le]
  constructor
  · by_cases hi : (i : ℝ) < n
    · have h3 := mul_le_mul_of_nonneg_right (h1 hi) hv.le
      have h4 := (abs_le.1 (hu i)).2
      have h5 : (i : ℝ) / P ≤ 10 ^ 4 := (div_le_div_of_nonneg_right hin hP.le).trans hnP
      have h6 : x * q * (n / P) ≤ i / P + 3 / 10 ^ 4 := by
        generalize x * q * (n / P) = A at *
        generalize (i : ℝ) / P = B at *
        generalize u i * v = C at *
        generalize x * v = D at *
        clear hu hxv hvd hd e
        norm_num at *
        linarith
      have h7 := mul_le_mul_of_nonneg_right h6 hP.le
      rw [add_mul, div_mul_cancel₀ _ hP.ne', ← e] at h7
      linarith
    · have : n ≤ i := not_lt.1 hi
      linarith
  · by_cases hi : 0 < i
    · have h3 := mul_le_mul_of_nonneg_right (h2 hi) hv.le
      have h4 := (abs_le.1 (hu (i - 1))).1
      have e1 : ((i - 1 : ℕ) : ℝ) = i - 1 := by rw [Nat.cast_sub hi]; simp
      rw [e1] at h4
      have h5 : ((i : ℝ) - 1) / P ≤ 10 ^ 4 :=
        (div_le_div_of_nonneg_right (by linarith) hP.le).trans hnP
      have h6 : ((i : ℝ) - 1) / P ≤ x * q * (n / P) + 3 / 10 ^ 4 := by
        generalize x * q * (n / P) = A at *
        generalize ((i : ℝ) - 1) / P = B at *
        generalize u (i - 1) * v = C at *
        generalize x * v = D at *
        clear hu hxv hvd hd e
        norm_num at *
        linarith
      have h7 := mul_le_mul_of_nonneg_right h6 hP.le
      rw [add_mul, div_mul_cancel₀ _ hP.ne', ← e] at h7
      linarith
    · have : i = 0 := by omega
      rw [this]
      push_cast
      linarith

/-- What is known of a straight move. -/
theorem facts64 {n : V4 ℤ} {w : V4 F64} {v : F64} (hc : SaneCfg c) (hd : DecimalLimits c)
    (hf : ∀ ax, c.maxVel.get ax ≤ 60000) (ha : c.autoVel = true) (h : Steps64 c n w)
    (hn : ∃ ax, n.get ax ≠ 0) (hv : 1 ≤ v.1) (hg : LinearGen.new c w v = .ok g) :
    ∃ q, Facts64 c n w v g q := by
  obtain ⟨g', h1, hgood⟩ := linear64_new hc h hn hv
  rw [hg] at h1
  cases h1
  have hlim : ∀ ax, (g.maxV.get ax).1 ≤ 1001 := by
    intro ax
    refine (limit64 hc hd hf ha h hn hv hg ax).trans ?_
    have h2 : ((c.maxVel.get ax : ℚ) : ℝ) ≤ 60000 := by exact_mod_cast hf ax
    have h3 : fl ((c.maxVel.get ax : ℝ) / 60) ≤ fl ((1000 : ℤ) : ℝ) :=
      fl_mono (by push_cast; linarith)
    rw [fl_int 1000 (by norm_num)] at h3
    push_cast at h3
    linarith
  obtain ⟨q, hs⟩ := shape64 hc hf ha h hn hv hg hlim
  exact ⟨q, hc, hd, hf, ha, h, hn, hv, hg, hs, hgood⟩

namespace Facts64

variable {n : V4 ℤ} {w : V4 F64} {v : F64} {q : ℝ} (h : Facts64 c n w v g q)

include h

theorem q_pos : 0 < q := lt_of_lt_of_le (by norm_num) h.shape.q_ge

theorem last (ax : Axis) (i : Nat) (hi : i < (g.total.get ax).toNat) : g.ut c ax i ≤ 1 / q :=
  (axisTimes h.sane h.steps h.shape h.good hi).last

/-- The pulses made so far are near a point of the segment. -/
theorem straight (N : Nat) : ∃ lam : ℝ, 0 ≤ lam ∧ lam ≤ 1 ∧ ∀ ax,
    |(Spec.steps ax ((Gen.linear g).run c N ⟨⟨0, 0, 0, 0⟩, some g.dir⟩).1 : ℝ) - lam * (|(n.get ax : ℝ)|)| ≤
      1 + 3 / 10 ^ 4 * c.ppm.get ax := by
  have hq0 := h.q_pos
  have hz : ∀ ax, (⟨0, 0, 0, 0⟩ : V4 Nat).get ax = 0 := fun ax => by cases ax <;> rfl
  obtain ⟨x, x0, x1, hx⟩ := run_state64 h.good h.last N ⟨0, 0, 0, 0⟩ 0
    (fun ax => by
      rw [hz]
      exact ⟨Nat.zero_le _, fun _ => ut_nonneg h.good _ _, fun h0 => absurd h0 (lt_irrefl _)⟩)
    le_rfl (by positivity)
  refine ⟨x * q, by positivity, by rwa [le_div_iff₀ hq0] at x1, fun ax => ?_⟩
  obtain ⟨x2, x3, x4⟩ := hx ax
  rw [hz, Nat.zero_add] at x2 x3 x4
  have hp : (0 : ℝ) < c.ppm.get ax := by exact_mod_cast h.sane.ppm_pos ax
  have hN : (((g.total.get ax).toNat : ℕ) : ℝ) = |(n.get ax : ℝ)| := by
    rw [h.shape.total ax]
    have : ((|n.get ax|.toNat : ℤ) : ℝ) = ((|n.get ax| : ℤ) : ℝ) := by
      rw [Int.toNat_of_nonneg (abs_nonneg _)]
    rw [Int.cast_natCast] at this
    rw [this, Int.cast_abs]
  by_cases h0 : (g.total.get ax).toNat = 0
  · have e1 : Spec.steps ax ((Gen.linear g).run c N ⟨⟨0, 0, 0, 0⟩, some g.dir⟩).1 = 0 := by omega
    rw [e1, ← hN, h0]
    push_cast
    rw [mul_zero, sub_zero, abs_zero]
    positivity
  have hmv : 0 < (g.maxV.get ax).1 := h.good.moving ax (by omega)
  refine stepCount64 (u := g.ut c ax) (v := (g.maxV.get ax).1) (d := ((Coord.abs w).get ax).1) x0 x1
    h.shape.q_ge hmv hp (abs_nonneg _) ?_ (abs64 h.sane h.steps ax).1 (h.shape.near ax) ?_
    (fun j => ?_) (fun hlt => ?_) x4
  · rw [div_le_iff₀ hp]; exact h.steps.size ax
  · rw [← hN]; exact_mod_cast x2
  · unfold LinearGen.ut
    rw [Int.cast_natCast]
    exact ut_near (Nat.cast_nonneg _) hp hmv
  · refine x3 ?_
    rw [← hN] at hlt
    exact_mod_cast hlt

/-- Two uniform times in order. -/
theorem order (ax : Axis) (i : Nat) (m m' r r' : F64) (hi : i < (g.total.get ax).toNat)
    (hm' : m'.1 = g.ut c ax i) (h0 : 0 ≤ m.1) (hmm : m.1 ≤ m'.1)
    (hr : (Gen.linear g).toAccelerated c m = .ok r)
    (hr' : (Gen.linear g).toAccelerated c m' = .ok r') : r.1 ≤ r'.1 + 1 / 10 ^ 7 := by
  refine order64 (g := .linear g) h.shape.k_pos h.shape.accT h.shape.linT h.shape.accK h0 hmm ?_ hr hr'
  have h1 := h.last ax i hi
  rw [hm']
  refine h1.trans ?_
  rw [div_le_iff₀ h.q_pos]
  have := h.shape.q_ge
  norm_num at *
  linarith

/-- The total time. -/
theorem total : 2 * g.accT.1 + g.linT.1 ≤ (Gen.linear g).totalTime.1 + 5 / 10 ^ 8 := by
  change _ ≤ (g.accT *ₚ PyNum.ofRat 2 +ₚ g.linT).1 + _
  rw [val_add, val_mul, val_ofRat, fl_two, mul_comm g.accT.1, fl_double, g.accT.2]
  obtain ⟨a0, a1⟩ := h.shape.accT
  obtain ⟨b0, b1⟩ := h.shape.linT
  have f1 := fl_lo2 (show 0 ≤ 2 * g.accT.1 + g.linT.1 by linarith)
  generalize fl (2 * g.accT.1 + g.linT.1) = X at *
  norm_num at *
  linarith

end Facts64

end PyCNC
