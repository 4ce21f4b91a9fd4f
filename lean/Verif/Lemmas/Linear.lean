import Verif.Lemmas.Pulses
import Verif.Lemmas.Warp

/-!
# Linear generators in exact arithmetic
-/

set_option linter.unusedSectionVars false

namespace PyCNC

open Spec

variable [PyRound]

/-- What the iterator needs of a linear generator to run without exception. -/
structure LinearGen.Good (c : Cfg) (g : LinearGen ℝ) : Prop where
  ppm : ∀ ax, 0 < c.ppm.get ax
  accel : 0 < c.accel
  nonneg : ∀ ax, 0 ≤ g.maxV.get ax
  moving : ∀ ax, 0 < g.total.get ax → 0 < g.maxV.get ax
  accT : 0 ≤ g.accT
  linT : 0 ≤ g.linT

/-- Uniform time of the pulse number `i` of an axis. -/
noncomputable def LinearGen.pt (c : Cfg) (g : LinearGen ℝ) (ax : Axis) (i : Nat) : ℝ :=
  (i : ℝ) / (c.ppm.get ax : ℝ) / g.maxV.get ax

/-- Accelerated time. -/
noncomputable def LinearGen.at (c : Cfg) (g : LinearGen ℝ) (p : ℝ) : ℝ :=
  warp ((Gen.linear g).twoVmaxPerA c) g.accT g.linT p

theorem findMax_eq (v : V4 ℝ) : Coord.findMax v = max (max (max v.x v.y) v.z) v.e := by
  simp [Coord.findMax, pmax_eq]

theorem le_findMax (v : V4 ℝ) (ax : Axis) : v.get ax ≤ Coord.findMax v := by
  rw [findMax_eq]
  cases ax <;> simp [V4.get]

theorem findMax_mem (v : V4 ℝ) : ∃ ax, Coord.findMax v = v.get ax := by
  rw [findMax_eq]
  rcases max_choice (max (max v.x v.y) v.z) v.e with h | h <;> rw [h]
  · rcases max_choice (max v.x v.y) v.z with h | h <;> rw [h]
    · rcases max_choice v.x v.y with h | h <;> rw [h]
      · exact ⟨.x, rfl⟩
      · exact ⟨.y, rfl⟩
    · exact ⟨.z, rfl⟩
  · exact ⟨.e, rfl⟩

theorem twoVmaxPerA_eq (c : Cfg) (g : LinearGen ℝ) :
    (Gen.linear g).twoVmaxPerA c = 2 * Coord.findMax g.maxV / (c.accel : ℝ) := by
  simp [Gen.twoVmaxPerA, Gen.maxVSec]

theorem LinearGen.Good.k_nonneg {c : Cfg} {g : LinearGen ℝ} (h : g.Good c) :
    0 ≤ (Gen.linear g).twoVmaxPerA c := by
  rw [twoVmaxPerA_eq]
  have h1 : 0 ≤ Coord.findMax g.maxV := (h.nonneg .x).trans (le_findMax _ _)
  have h2 : (0 : ℝ) < c.accel := by exact_mod_cast h.accel
  positivity

theorem LinearGen.Good.ppmR {c : Cfg} {g : LinearGen ℝ} (h : g.Good c) (ax : Axis) :
    (0 : ℝ) < (c.ppm.get ax : ℝ) := by exact_mod_cast h.ppm ax

theorem pt_nonneg {c : Cfg} {g : LinearGen ℝ} (h : g.Good c) (ax : Axis) (i : Nat) :
    0 ≤ g.pt c ax i := by
  have h1 := h.ppmR ax
  have h2 := h.nonneg ax
  unfold LinearGen.pt
  positivity

theorem pt_zero {c : Cfg} {g : LinearGen ℝ} (ax : Axis) : g.pt c ax 0 = 0 := by
  simp [LinearGen.pt]

theorem pt_mono {c : Cfg} {g : LinearGen ℝ} (h : g.Good c) (ax : Axis) {i j : Nat} (hij : i ≤ j) :
    g.pt c ax i ≤ g.pt c ax j := by
  have h1 := h.ppmR ax
  have h2 := h.nonneg ax
  have h3 : (i : ℝ) ≤ j := by exact_mod_cast hij
  unfold LinearGen.pt
  gcongr

theorem pt_succ {c : Cfg} {g : LinearGen ℝ} (ax : Axis) (i : Nat) :
    g.pt c ax (i + 1) = g.pt c ax i + 1 / ((c.ppm.get ax : ℝ) * g.maxV.get ax) := by
  unfold LinearGen.pt
  push_cast
  rw [div_div, div_div, ← add_div]

theorem pt_lt {c : Cfg} {g : LinearGen ℝ} (h : g.Good c) (ax : Axis) {i j : Nat} (hij : i < j)
    (hm : 0 < g.maxV.get ax) : g.pt c ax i < g.pt c ax j := by
  have h1 := h.ppmR ax
  have h3 : (i : ℝ) < j := by exact_mod_cast hij
  unfold LinearGen.pt
  gcongr

/-- `_to_accelerated_time` of any generator in exact arithmetic. -/
theorem toAccelerated_warp {c : Cfg} {g : Gen ℝ} (hk : 0 ≤ g.twoVmaxPerA c) (hA : 0 ≤ g.accT)
    {p : ℝ} (hp : 0 ≤ p) :
    g.toAccelerated c p = .ok (warp (g.twoVmaxPerA c) g.accT g.linT p) := by
  unfold Gen.toAccelerated warp
  generalize g.twoVmaxPerA c = k at *
  generalize g.accT = A at *
  generalize g.linT = B at *
  simp only
  have h1 : psqrt (p *ₚ k) = .ok (√(p * k)) := by
    unfold psqrt
    rw [if_neg (by simpa using mul_nonneg hp hk)]
    rfl
  rw [h1]
  by_cases h2 : √(p * k) ≤ A
  · rw [if_pos h2]
    change (if _ then _ else _) = _
    rw [if_pos (by simpa using h2)]
    rfl
  · rw [if_neg h2]
    change (if _ then _ else _) = _
    rw [if_neg (by simpa using h2)]
    have hk0 : k ≠ 0 := by
      rintro rfl
      rw [mul_zero, Real.sqrt_zero] at h2
      exact h2 hA
    have h3 : pdiv (A *ₚ A) k = .ok (A * A / k) := by
      unfold pdiv
      rw [if_neg (by simpa using hk0)]
      rfl
    rw [h3]
    change (if _ then _ else _) = _
    by_cases h4 : A + p - A * A / k - A - B ≤ 0
    · rw [if_pos h4, if_pos (by simpa using h4)]
      rfl
    · rw [if_neg h4, if_neg (by simpa using h4)]
      change Except.ok _ = _
      congr 1
      simp only [sub_eq, add_eq, mul_eq, ofRat_eq, lt_iff, zeroF_eq, sqrt_eq]
      by_cases h5 : 0 < A * A - k * (A + p - A * A / k - A - B)
      · rw [if_pos h5]; norm_num
      · rw [if_neg h5, Real.sqrt_eq_zero_of_nonpos (not_lt.1 h5)]; norm_num

theorem toAccelerated_ok {c : Cfg} {g : LinearGen ℝ} (h : g.Good c) {p : ℝ} (hp : 0 ≤ p) :
    (Gen.linear g).toAccelerated c p = .ok (g.at c p) :=
  toAccelerated_warp h.k_nonneg h.accT hp

theorem linear_time_ok {c : Cfg} {g : LinearGen ℝ} (h : g.Good c) (ax : Axis) (i : Nat) :
    g.time c ax i = .ok (if i < (g.total.get ax).toNat then some (g.pt c ax i) else none) := by
  unfold LinearGen.time linearTime
  by_cases h1 : i < (g.total.get ax).toNat
  · rw [if_pos h1, if_neg (by omega)]
    have h2 := h.moving ax (by omega)
    unfold pdiv
    rw [if_neg (by simpa using h2.ne')]
    simp only [ofInt_eq, div_eq, ofRat_eq, LinearGen.pt]
    norm_cast
  · rw [if_neg h1, if_pos (by omega)]
    rfl

/-- The times of the next pulses of all axes. -/
noncomputable def LinearGen.times (c : Cfg) (g : LinearGen ℝ) (it : V4 Nat) : V4 (Option ℝ) :=
  V4.ofFn fun ax => if it.get ax < (g.total.get ax).toNat then some (g.pt c ax (it.get ax)) else none

theorem linear_interp_times {c : Cfg} {g : LinearGen ℝ} (h : g.Good c) (it : V4 Nat) :
    (Gen.linear g).interp c it = .ok (g.dir, g.times c it) := by
  refine linear_interp_ok fun ax => ?_
  rw [linear_time_ok h, LinearGen.times, get_ofFn]

theorem get_times {c : Cfg} {g : LinearGen ℝ} {it : V4 Nat} {ax : Axis} {τ : ℝ}
    (h : (g.times c it).get ax = some τ) :
    it.get ax < (g.total.get ax).toNat ∧ τ = g.pt c ax (it.get ax) := by
  rw [LinearGen.times, get_ofFn] at h
  split at h
  · cases h; exact ⟨by assumption, rfl⟩
  · cases h

/-- One call of `next` on a good generator whose direction was announced. -/
theorem good_next {c : Cfg} {g : LinearGen ℝ} (h : g.Good c) (it : V4 Nat) :
    ((∀ ax, (g.total.get ax).toNat ≤ it.get ax) ∧
      (Gen.linear g).next c ⟨it, some g.dir⟩ = .ok none) ∨
    ∃ m it' t, 0 ≤ m ∧ (Gen.linear g).next c ⟨it, some g.dir⟩ =
        .ok (some (.pulse t, ⟨it', some g.dir⟩)) ∧
      (∃ ax, it.get ax < (g.total.get ax).toNat ∧ m = g.pt c ax (it.get ax)) ∧
      ∀ ax, (it.get ax < (g.total.get ax).toNat ∧ g.pt c ax (it.get ax) = m ∧
          it'.get ax = it.get ax + 1 ∧ t.get ax = some (g.at c m)) ∨
        ((it.get ax < (g.total.get ax).toNat → m < g.pt c ax (it.get ax)) ∧
          it'.get ax = it.get ax ∧ t.get ax = none) := by
  rcases next_cases c (.linear g) ⟨it, some g.dir⟩ with ⟨e, h1, _⟩ | ⟨d, t, hi, h2⟩
  · rw [linear_interp_times h] at h1; cases h1
  rw [linear_interp_times h] at hi
  cases hi
  rcases h2 with ⟨hd, _⟩ | ⟨_, hm, h2⟩ | ⟨m, _, hm, h2⟩
  · exact absurd rfl hd
  · refine .inl ⟨fun ax => ?_, h2⟩
    have := minTime_none hm ax
    rw [LinearGen.times, get_ofFn] at this
    by_contra hc
    push Not at hc
    rw [if_pos hc] at this
    cases this
  · obtain ⟨⟨ax, hax⟩, hmin⟩ := minTime_some hm
    obtain ⟨hlt, hmeq⟩ := get_times hax
    have hm0 : 0 ≤ m := by rw [hmeq]; exact pt_nonneg h _ _
    rcases h2 with ⟨e, h1, _⟩ | ⟨am, h1, h2⟩
    · rw [toAccelerated_ok h hm0] at h1; cases h1
    rw [toAccelerated_ok h hm0] at h1
    cases h1
    refine .inr ⟨m, _, _, hm0, h2, ⟨ax, hlt, hmeq⟩, fun ax => ?_⟩
    simp only [advanced, fired, get_ofFn]
    rcases ht : (g.times c it).get ax with _ | τ
    · refine .inr ⟨fun hlt => ?_, rfl, rfl⟩
      rw [LinearGen.times, get_ofFn, if_pos hlt] at ht
      cases ht
    · have h3 := hmin ax τ ht
      change m ≤ τ at h3
      obtain ⟨hlt, rfl⟩ := get_times ht
      by_cases h4 : m < g.pt c ax (it.get ax)
      · refine .inr ⟨fun _ => h4, ?_, ?_⟩ <;> simp [fireAxis, h4]
      · refine .inl ⟨hlt, le_antisymm (not_lt.1 h4) h3, ?_, ?_⟩ <;> simp [fireAxis, h4]

/-- No exception. -/
theorem good_run_ends {c : Cfg} {g : LinearGen ℝ} (h : g.Good c) (n : Nat) (it : V4 Nat) (e : PyErr) :
    ((Gen.linear g).run c n ⟨it, some g.dir⟩).2 ≠ .raised e := by
  induction n generalizing it with
  | zero => simp [Gen.run]
  | succ n ih =>
    rcases good_next h it with ⟨_, h1⟩ | ⟨m, it', t, _, h1, _⟩
    · simp [Gen.run, h1]
    · simp [Gen.run, h1, ih]

/-- The times of the pulses of one axis. -/
theorem good_run_times {c : Cfg} {g : LinearGen ℝ} (h : g.Good c) (n : Nat) (it : V4 Nat)
    (ax : Axis) :
    stepTimes ax ((Gen.linear g).run c n ⟨it, some g.dir⟩).1 =
      (List.range' (it.get ax) (steps ax ((Gen.linear g).run c n ⟨it, some g.dir⟩).1)).map
        fun i => g.at c (g.pt c ax i) := by
  induction n generalizing it with
  | zero => simp [Gen.run, stepTimes, steps]
  | succ n ih =>
    rcases good_next h it with ⟨_, h1⟩ | ⟨m, it', t, _, h1, _, h2⟩
    · simp [Gen.run, h1, stepTimes, steps]
    · simp only [Gen.run, h1]
      rw [steps_cons, stepTimes_cons, ih it']
      rcases h2 ax with ⟨_, h3, h4, h5⟩ | ⟨_, h4, h5⟩
      · have e1 : stepTimes ax [Event.pulse t] = [g.at c m] := by simp [stepTimes, h5]
        have e2 : steps ax [Event.pulse t] = 1 := by simp [steps, e1]
        rw [e1, e2, h4, Nat.add_comm 1, List.range'_succ, List.map_cons, h3]
        rfl
      · have e1 : stepTimes ax [Event.pulse t] = [] := by simp [stepTimes, h5]
        have e2 : steps ax [Event.pulse t] = 0 := by simp [steps, e1]
        rw [e1, e2, h4, Nat.zero_add]
        rfl

/-- All later events are not before `m` if no axis has its next pulse before `m`. -/
theorem good_run_after {c : Cfg} {g : LinearGen ℝ} (h : g.Good c) (n : Nat) (it : V4 Nat) (m : ℝ)
    (hm0 : 0 ≤ m) (hm : ∀ ax, it.get ax < (g.total.get ax).toNat → m ≤ g.pt c ax (it.get ax)) :
    ∀ ev ∈ ((Gen.linear g).run c n ⟨it, some g.dir⟩).1, ∀ τ, StepsAt τ ev → g.at c m ≤ τ := by
  induction n generalizing it with
  | zero => intro ev hev; cases hev
  | succ n ih =>
    rcases good_next h it with ⟨_, h1⟩ | ⟨m', it', t, hm', h1, ⟨ax, hlt, he⟩, h2⟩
    · simp [Gen.run, h1]
    · simp only [Gen.run, h1, List.mem_cons]
      intro ev hev τ hτ
      have hmm : m ≤ m' := by rw [he]; exact hm ax hlt
      rcases hev with rfl | hev
      · obtain ⟨⟨ax', hax'⟩, _⟩ := hτ
        rcases h2 ax' with ⟨_, _, _, h5⟩ | ⟨_, _, h5⟩
        · rw [h5] at hax'
          cases hax'
          exact warp_mono h.k_nonneg h.accT h.linT hm0 hmm
        · rw [h5] at hax'; cases hax'
      · refine ih it' (fun ax hlt => ?_) ev hev τ hτ
        rcases h2 ax with ⟨_, h3, h4, _⟩ | ⟨h3, h4, _⟩
        · refine (hmm.trans h3.symm.le).trans ?_
          rw [h4]; exact pt_mono h ax (Nat.le_succ _)
        · rw [h4] at hlt ⊢
          exact hmm.trans (h3 hlt).le

/-- Events are ordered in time. -/
theorem good_run_sorted {c : Cfg} {g : LinearGen ℝ} (h : g.Good c) (n : Nat) (it : V4 Nat) :
    ((Gen.linear g).run c n ⟨it, some g.dir⟩).1.Pairwise
      fun e₁ e₂ => ∀ τ₁ τ₂, StepsAt τ₁ e₁ → StepsAt τ₂ e₂ → τ₁ ≤ τ₂ := by
  induction n generalizing it with
  | zero => simp [Gen.run]
  | succ n ih =>
    rcases good_next h it with ⟨_, h1⟩ | ⟨m, it', t, hm0, h1, ⟨ax, hlt, he⟩, h2⟩
    · simp [Gen.run, h1]
    · simp only [Gen.run, h1]
      refine List.Pairwise.cons (fun ev hev τ₁ τ₂ h3 h4 => ?_) (ih it')
      have : τ₁ = g.at c m := by
        obtain ⟨⟨ax', hax'⟩, _⟩ := h3
        rcases h2 ax' with ⟨_, _, _, h5⟩ | ⟨_, _, h5⟩ <;> rw [h5] at hax' <;> cases hax'
        rfl
      rw [this]
      refine good_run_after h n it' m hm0 (fun ax hlt => ?_) ev hev τ₂ h4
      rcases h2 ax with ⟨_, h3, h4, _⟩ | ⟨h3, h4, _⟩
      · rw [h4, ← h3]; exact pt_mono h ax (Nat.le_succ _)
      · rw [h4] at hlt ⊢
        exact (h3 hlt).le

/-- After every event the axes have made all pulses up to one common uniform time. -/
theorem good_run_state {c : Cfg} {g : LinearGen ℝ} (h : g.Good c) (n : Nat) (it : V4 Nat)
    (hit : (∀ ax, it.get ax = 0) ∨ ∃ m, ∀ ax, it.get ax ≤ (g.total.get ax).toNat ∧
      (it.get ax < (g.total.get ax).toNat → m < g.pt c ax (it.get ax)) ∧
      (0 < it.get ax → g.pt c ax (it.get ax - 1) ≤ m) ∧ 0 ≤ m) :
    let r := ((Gen.linear g).run c n ⟨it, some g.dir⟩).1
    (∀ ax, it.get ax + steps ax r = 0) ∨ ∃ m, ∀ ax,
      it.get ax + steps ax r ≤ (g.total.get ax).toNat ∧
      (it.get ax + steps ax r < (g.total.get ax).toNat → m < g.pt c ax (it.get ax + steps ax r)) ∧
      (0 < it.get ax + steps ax r → g.pt c ax (it.get ax + steps ax r - 1) ≤ m) ∧ 0 ≤ m := by
  induction n generalizing it with
  | zero => exact hit
  | succ n ih =>
    rcases good_next h it with ⟨_, h1⟩ | ⟨m, it', t, hm0, h1, ⟨ax, hlt, he⟩, h2⟩
    · simpa [Gen.run, h1, steps, stepTimes] using hit
    · simp only [Gen.run, h1]
      have key : ∀ ax, it.get ax + steps ax (Event.pulse t :: ((Gen.linear g).run c n
          ⟨it', some g.dir⟩).1) = it'.get ax + steps ax ((Gen.linear g).run c n
          ⟨it', some g.dir⟩).1 := by
        intro ax
        rw [steps_cons, ← Nat.add_assoc]
        congr 1
        rcases h2 ax with ⟨_, _, h4, h5⟩ | ⟨_, h4, h5⟩ <;> rw [h4] <;> simp [steps, stepTimes, h5]
      simp only [key]
      refine ih it' (.inr ⟨m, fun ax => ?_⟩)
      rcases h2 ax with ⟨h3, h4, h5, h6⟩ | ⟨h4, h5, h6⟩
      · rw [h5]
        refine ⟨h3, fun hl => ?_, fun _ => ?_, hm0⟩
        · rw [← h4]
          refine pt_lt h ax (Nat.lt_succ_self _) (h.moving ax ?_)
          omega
        · rw [Nat.add_sub_cancel, h4]
      · rw [h5]
        rcases hit with hit | ⟨m', hit⟩
        · refine ⟨by rw [hit ax]; omega, h4, fun hp => by rw [hit ax] at hp; omega, hm0⟩
        · obtain ⟨g1, g2, g3, g4⟩ := hit ax
          refine ⟨g1, h4, fun hp => (g3 hp).trans ?_, hm0⟩
          rw [he]
          exact ((hit _).2.1 hlt).le

end PyCNC
