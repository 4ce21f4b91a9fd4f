import Verif.Lemmas.Float
import Verif.Lemmas.ArcRun

/-!
# Iterating the generators in binary64
-/

set_option linter.unusedSectionVars false

namespace PyCNC

open Spec

variable [PyRound]

/-! ## Values of the operations -/

section Ops

variable (a b : F64)

theorem val_add : (a +ₚ b).1 = fl (a.1 + b.1) := rfl
theorem val_sub : (a -ₚ b).1 = fl (a.1 - b.1) := rfl
theorem val_mul : (a *ₚ b).1 = fl (a.1 * b.1) := rfl
theorem val_div : (a /ₚ b).1 = fl (a.1 / b.1) := rfl
theorem val_sqrt : (PyNum.sqrt a).1 = fl (√a.1) := rfl
theorem val_ofRat (q : ℚ) : (PyNum.ofRat q : F64).1 = fl q := rfl
theorem val_pi : (PyNum.pi : F64).1 = fl Real.pi := rfl
theorem val_acos : (PyNum.acos a).1 = fl (Real.arccos a.1) := rfl

theorem val_neg : (PyNum.neg a).1 = -a.1 := fl_neg_rep a.2
theorem val_abs : (PyNum.abs a).1 = |a.1| := fl_abs_rep a.2

theorem val_ofInt (n : ℤ) : (ofInt n : F64).1 = fl n := by
  change fl (((n : ℚ)) : ℝ) = _
  norm_cast

theorem val_zero : (zeroF : F64).1 = 0 := by
  change fl ((0 : ℚ) : ℝ) = 0
  simp [fl_zero]

theorem val_ofRat0 : (PyNum.ofRat 0 : F64).1 = 0 := val_zero

theorem lt64_iff : (a <ₚ b) = true ↔ a.1 < b.1 := decide_eq_true_iff
theorem le64_iff : (a ≤ₚ b) = true ↔ a.1 ≤ b.1 := decide_eq_true_iff
theorem eq64_iff : (a =ₚ b) = true ↔ a.1 = b.1 := decide_eq_true_iff

theorem ext64 {a b : F64} (h : a.1 = b.1) : a = b := Subtype.ext h

theorem pdiv64_ok {a b : F64} (h : b.1 ≠ 0) : pdiv a b = .ok (a /ₚ b) := by
  unfold pdiv
  rw [if_neg]
  rw [eq64_iff, val_ofRat0]
  exact h

theorem psqrt64_ok {a : F64} (h : 0 ≤ a.1) : psqrt a = .ok (PyNum.sqrt a) := by
  unfold psqrt
  rw [if_neg]
  rw [lt64_iff, val_ofRat0]
  exact not_lt.2 h

theorem pacos64_ok {a : F64} (h : |a.1| ≤ 1) : pacos a = .ok (PyNum.acos a) := by
  obtain ⟨h1, h2⟩ := abs_le.1 h
  unfold pacos
  rw [if_neg]
  rw [Bool.or_eq_true, lt64_iff, lt64_iff, val_ofRat, val_ofRat]
  have e1 : fl ((1 : ℚ) : ℝ) = 1 := by simp [fl_one]
  have e2 : fl ((-1 : ℚ) : ℝ) = -1 := by
    have := fl_neg_rep fl_one
    simpa using this
  rw [e1, e2]
  rintro (h | h) <;> linarith

end Ops

theorem fl_sqrt_nonneg (x : ℝ) : 0 ≤ fl (√x) := fl_nonneg (Real.sqrt_nonneg _)

/-- `2 * math.pi` is exact. -/
theorem two_pi64 : ((PyNum.ofRat 2 : F64) *ₚ PyNum.pi).1 = 2 * fl Real.pi := by
  rw [val_mul, val_ofRat, val_pi]
  have e : fl ((2 : ℚ) : ℝ) = 2 := by
    have := fl_int 2 (by norm_num)
    simpa using this
  rw [e]
  obtain ⟨m, k, hm, h⟩ := fl_form Real.pi
  rw [h, show 2 * ((m : ℝ) * 2 ^ k) = m * 2 ^ (k + 1) by rw [zpow_add₀ (by norm_num)]; ring]
  exact fl_representable m _ hm

/-- The hypotenuse computed in binary64 is not shorter than a leg. -/
theorem hypot_ge {a b : ℝ} (hb : fl b = b) : |b| ≤ fl (√(fl (fl (a * a) + fl (b * b)))) := by
  rw [← fl_sqrt_sq hb]
  refine fl_mono (Real.sqrt_le_sqrt ?_)
  refine le_fl_of_le (fl_idem _) ?_
  have := fl_nonneg (mul_self_nonneg a)
  linarith

/-- `__angle` in binary64. -/
theorem angle64_ok {a b : F64} (h : a.1 ≠ 0 ∨ b.1 ≠ 0) :
    ∃ φ, angle a b = .ok φ ∧ 0 ≤ φ.1 ∧ φ.1 ≤ 2 * fl Real.pi := by
  have h1 : |b.1| ≤ (PyNum.sqrt (a *ₚ a +ₚ b *ₚ b)).1 := hypot_ge b.2
  have h2 : |a.1| ≤ (PyNum.sqrt (a *ₚ a +ₚ b *ₚ b)).1 := by
    have := hypot_ge (a := b.1) a.2
    rwa [add_comm] at this
  have h0 : 0 < (PyNum.sqrt (a *ₚ a +ₚ b *ₚ b)).1 := by
    rcases h with h | h
    · exact (abs_pos.2 h).trans_le h2
    · exact (abs_pos.2 h).trans_le h1
  unfold angle
  rw [pdiv64_ok h0.ne']
  have hq : |(b /ₚ PyNum.sqrt (a *ₚ a +ₚ b *ₚ b)).1| ≤ 1 := by
    rw [val_div]
    have h3 : |b.1 / (PyNum.sqrt (a *ₚ a +ₚ b *ₚ b)).1| ≤ 1 := by
      rw [abs_div, abs_of_pos h0, div_le_one h0]; exact h1
    obtain ⟨h4, h5⟩ := abs_le.1 h3
    exact abs_le.2 ⟨le_fl_of_le (fl_neg_rep fl_one) h4, fl_le_of_le fl_one h5⟩
  generalize b /ₚ PyNum.sqrt (a *ₚ a +ₚ b *ₚ b) = q at hq
  change ∃ φ, (pacos q >>= _) = _ ∧ _
  rw [pacos64_ok hq]
  refine ⟨_, rfl, ?_⟩
  have hp : 0 ≤ (PyNum.acos q).1 := fl_nonneg (Real.arccos_nonneg _)
  have hp2 : (PyNum.acos q).1 ≤ fl Real.pi := fl_mono (Real.arccos_le_pi _)
  have hpi : 0 < fl Real.pi := fl_pos Real.pi_pos
  split
  · rw [val_sub, two_pi64]
    refine ⟨fl_nonneg (by linarith), ?_⟩
    have e : fl (2 * fl Real.pi) = 2 * fl Real.pi := by
      rw [← two_pi64]; exact (PyNum.ofRat 2 *ₚ PyNum.pi : F64).2
    exact fl_le_of_le e (by linarith)
  · exact ⟨hp, by linarith⟩

/-- `__angle` of the centre raises `ZeroDivisionError`. -/
theorem angle64_zero {a b : F64} (ha : a.1 = 0) (hb : b.1 = 0) : angle a b = .error .zeroDiv := by
  unfold angle pdiv
  rw [if_pos]
  · rfl
  · rw [eq64_iff, val_ofRat0, val_sqrt, val_add, val_mul, val_mul, ha, hb]
    simp [fl_zero]

/-! ## Accelerated time -/

theorem toAccelerated64_ok {c : Cfg} {g : Gen F64} (hk : 0 ≤ (g.twoVmaxPerA c).1)
    (hA : 0 ≤ g.accT.1) {p : F64} (hp : 0 ≤ p.1) : ∃ r, g.toAccelerated c p = .ok r := by
  unfold Gen.toAccelerated
  simp only
  have h1 : 0 ≤ (p *ₚ g.twoVmaxPerA c).1 := fl_nonneg (mul_nonneg hp hk)
  rw [psqrt64_ok h1]
  by_cases h2 : (PyNum.sqrt (p *ₚ g.twoVmaxPerA c) ≤ₚ g.accT) = true
  · simp only [bind, Except.bind, if_pos h2]; exact ⟨_, rfl⟩
  · have hk0 : (g.twoVmaxPerA c).1 ≠ 0 := by
      intro h0
      refine h2 ?_
      rw [le64_iff, val_sqrt, val_mul, h0, mul_zero, fl_zero, Real.sqrt_zero, fl_zero]
      exact hA
    rw [pdiv64_ok hk0]
    simp only [bind, Except.bind, if_neg h2]
    split <;> exact ⟨_, rfl⟩

/-- A generator whose pulse times are computed and are not negative never raises. -/
theorem run64_ok {c : Cfg} {g : Gen F64} (hk : 0 ≤ (g.twoVmaxPerA c).1) (hA : 0 ≤ g.accT.1)
    (hi : ∀ it, ∃ d t, g.interp c it = .ok (d, t) ∧ ∀ ax τ, t.get ax = some τ → 0 ≤ τ.1)
    (n : Nat) (s : GenState) (e : PyErr) : (g.run c n s).2 ≠ .raised e := by
  induction n generalizing s with
  | zero => simp [Gen.run]
  | succ n ih =>
    rcases run_succ c g n s with ⟨e', h1, _⟩ | ⟨_, h2⟩ | ⟨ev, s', _, h2⟩
    · obtain ⟨d, t, h2, ht⟩ := hi s.it
      rcases next_cases c g s with ⟨e, h3, _⟩ | ⟨d', t', h3, h4⟩
      · rw [h2] at h3; cases h3
      rw [h2] at h3
      cases h3
      rcases h4 with ⟨_, h4⟩ | ⟨_, _, h4⟩ | ⟨m, _, hm, ⟨e, h5, _⟩ | ⟨am, _, h4⟩⟩
      · rw [h1] at h4; cases h4
      · rw [h1] at h4; cases h4
      · obtain ⟨⟨ax, hax⟩, _⟩ := minTime_some hm
        obtain ⟨r, hr⟩ := toAccelerated64_ok hk hA (ht ax m hax)
        rw [hr] at h5; cases h5
      · rw [h1] at h4; cases h4
    · rw [h2]; simp
    · rw [h2]; exact ih s'

/-! ## Linear generators -/

/-- What iterating a linear generator needs. -/
structure LinearGen.Good64 (c : Cfg) (g : LinearGen F64) : Prop where
  ppm : ∀ ax, 0 < c.ppm.get ax
  nonneg : ∀ ax, 0 ≤ (g.maxV.get ax).1
  moving : ∀ ax, 0 < g.total.get ax → 0 < (g.maxV.get ax).1
  accT : 0 ≤ g.accT.1
  k : 0 ≤ ((Gen.linear g).twoVmaxPerA c).1

theorem linear64_interp {c : Cfg} {g : LinearGen F64} (h : g.Good64 c) (it : V4 Nat) :
    ∃ d t, (Gen.linear g).interp c it = .ok (d, t) ∧ ∀ ax τ, t.get ax = some τ → 0 ≤ τ.1 := by
  have key : ∀ ax, ∃ t, g.time c ax (it.get ax) = .ok t ∧ ∀ τ, t = some τ → 0 ≤ τ.1 := by
    intro ax
    unfold LinearGen.time linearTime
    split
    · exact ⟨none, rfl, fun τ hτ => by cases hτ⟩
    · next hn =>
      have hv := h.moving ax (by omega)
      rw [pdiv64_ok hv.ne']
      refine ⟨some _, rfl, fun τ hτ => ?_⟩
      cases hτ
      rw [val_div, val_div, val_ofInt, val_ofRat]
      have hp : (0 : ℝ) < c.ppm.get ax := by exact_mod_cast h.ppm ax
      have := fl_pos hp
      have h2 : 0 ≤ fl ((it.get ax : ℤ) : ℝ) := fl_nonneg (by positivity)
      exact fl_nonneg (div_nonneg (fl_nonneg (div_nonneg h2 this.le)) hv.le)
  choose t h1 h2 using key
  refine ⟨g.dir, V4.ofFn t, linear_interp_ok (fun ax => ?_), fun ax τ hτ => h2 ax τ ?_⟩
  · rw [h1 ax, get_ofFn]
  · rwa [get_ofFn] at hτ

/-- Iterating a good linear generator ends without an exception. -/
theorem linear64_done {c : Cfg} {g : LinearGen F64} (h : g.Good64 c) :
    ∃ evs N, ∀ n, N ≤ n → (Gen.linear g).run c n .init = (evs, .done) := by
  set N := g.left GenState.init + 2 with hN
  have hends := linear_run_ends c g N .init (fun ax => by cases ax <;> exact Nat.zero_le _)
    (by split <;> omega)
  have hr := run64_ok h.k (g := .linear g) h.accT (linear64_interp h) N .init
  have hd : ((Gen.linear g).run c N .init).2 = .done := by
    rcases hx : ((Gen.linear g).run c N .init).2 with _ | e | _
    · rfl
    · exact absurd hx (hr e)
    · exact absurd hx hends
  refine ⟨((Gen.linear g).run c N .init).1, N, fun n hn => ?_⟩
  rw [run_done_mono c (.linear g) N .init hd n hn]
  exact Prod.ext rfl hd

/-! ## Circular generators -/

/-- What iterating a circular generator needs. -/
structure CircGood64 (c : Cfg) (g : CircGen F64) : Prop where
  ppm : ∀ ax, 0 < c.ppm.get ax
  time : 0 ≤ g.rDivV.1
  start : 0 ≤ g.startAngle.1 ∧ g.startAngle.1 ≤ 2 * fl Real.pi
  turn : 0 ≤ g.deltaAngle.1
  v3 : 0 < g.it3.1 → 0 < g.vel3.1
  vE : 0 < g.itE.1 → 0 < g.velE.1
  k : 0 ≤ ((Gen.circular g).twoVmaxPerA c).1
  acc : 0 ≤ g.accT.1
  a : ∃ L : ℤ, 0 < L ∧ g.radiusA2.1 = fl (fl (fl L / fl (c.ppm.get (axisA g.plane))) *
      fl (fl L / fl (c.ppm.get (axisA g.plane)))) ∧
    ∀ i : Nat, (i : ℤ) + 1 < g.itA →
      -L ≤ (circularHelper g.startAP (i + 1) g.radiusAP g.sideA g.dirA).1 ∧
      (circularHelper g.startAP (i + 1) g.radiusAP g.sideA g.dirA).1 ≤ L
  b : ∃ L : ℤ, 0 < L ∧ g.radiusB2.1 = fl (fl (fl L / fl (c.ppm.get (axisB g.plane))) *
      fl (fl L / fl (c.ppm.get (axisB g.plane)))) ∧
    ∀ i : Nat, (i : ℤ) + 1 < g.itB →
      -L ≤ (circularHelper g.startBP (i + 1) g.radiusBP g.sideB g.dirB).1 ∧
      (circularHelper g.startBP (i + 1) g.radiusBP g.sideB g.dirB).1 ≤ L

theorem findTime64_ok {g : CircGen F64} (hv : 0 ≤ g.rDivV.1)
    (hs : 0 ≤ g.startAngle.1 ∧ g.startAngle.1 ≤ 2 * fl Real.pi) {a b : F64}
    (hne : a.1 ≠ 0 ∨ b.1 ≠ 0) : ∃ t, g.findTime a b = .ok t ∧ 0 ≤ t.1 := by
  obtain ⟨φ, h1, h2, h3⟩ := angle64_ok hne
  unfold CircGen.findTime
  rw [h1]
  refine ⟨_, rfl, ?_⟩
  have hrep : fl (2 * fl Real.pi) = 2 * fl Real.pi := by
    rw [← two_pi64]; exact (PyNum.ofRat 2 *ₚ PyNum.pi : F64).2
  have key : ∀ d : F64, -(2 * fl Real.pi) ≤ d.1 →
      0 ≤ (g.rDivV *ₚ (if d ≤ₚ zeroF then d +ₚ PyNum.ofRat 2 *ₚ PyNum.pi else d)).1 := by
    intro d hd
    refine fl_nonneg (mul_nonneg hv ?_)
    split
    · rw [val_add, two_pi64]; exact fl_nonneg (by linarith)
    · next h =>
      rw [le64_iff, val_zero] at h
      exact (not_le.1 h).le
  have hs1 := hs.1
  have hs2 := hs.2
  cases g.rot
  · exact key (φ -ₚ g.startAngle) (le_fl_of_le (fl_neg_rep hrep) (by linarith))
  · exact key (g.startAngle -ₚ φ) (le_fl_of_le (fl_neg_rep hrep) (by linarith))

/-- A step of the walk lies on the circle. -/
theorem on_circle64 {L q : ℤ} {p : ℝ} (hp : 0 < p) (hL : 0 < L) (h1 : -L ≤ q) (h2 : q ≤ L) :
    0 ≤ fl (fl (fl (fl L / p) * fl (fl L / p)) - fl (fl (fl q / p) * fl (fl q / p))) ∧
      (fl (fl q / p) ≠ 0 ∨
        0 < fl (fl (fl (fl L / p) * fl (fl L / p)) - fl (fl (fl q / p) * fl (fl q / p)))) := by
  have hL' : (0 : ℝ) < L := by exact_mod_cast hL
  have hr : |fl (fl q / p)| ≤ fl (fl L / p) := by
    rw [← fl_abs, abs_div, ← fl_abs, abs_of_pos hp]
    refine fl_mono (div_le_div_of_nonneg_right (fl_mono ?_) hp.le)
    exact_mod_cast abs_le.2 ⟨h1, h2⟩
  have hR : 0 < fl (fl L / p) := fl_pos (div_pos (fl_pos hL') hp)
  have hsq : fl (fl (fl q / p) * fl (fl q / p)) ≤ fl (fl (fl L / p) * fl (fl L / p)) := by
    refine fl_mono ?_
    rw [← abs_mul_abs_self (fl (fl q / p))]
    exact mul_self_le_mul_self (abs_nonneg _) hr
  refine ⟨fl_nonneg (sub_nonneg.2 hsq), ?_⟩
  by_cases h0 : fl (fl q / p) = 0
  · right
    rw [h0, mul_zero, fl_zero, sub_zero]
    exact fl_pos (fl_pos (mul_pos hR hR))
  · exact .inl h0

section Axes

variable {c : Cfg} {g : CircGen F64}

theorem circularA64_ok (h : CircGood64 c g) (i : Nat) :
    ∃ d t, g.circularA i (c.ppm.get (axisA g.plane)) = .ok (d, t) ∧ ∀ τ, t = some τ → 0 ≤ τ.1 := by
  have hp : (0 : ℝ) < fl (c.ppm.get (axisA g.plane)) := fl_pos (by exact_mod_cast h.ppm _)
  unfold CircGen.circularA
  split
  · exact ⟨_, none, rfl, fun τ hτ => by cases hτ⟩
  next hi =>
  obtain ⟨L, hL, h2, hr⟩ := h.a
  have hr := hr i
  rcases hh : circularHelper g.startAP (i + 1) g.radiusAP g.sideA g.dirA with ⟨q, d, side⟩
  rw [hh] at hr
  simp only at hr ⊢
  split
  · exact ⟨_, _, rfl, fun τ hτ => by cases hτ; exact fl_nonneg (mul_nonneg h.time h.turn)⟩
  next hl =>
  have hr := hr (by omega)
  obtain ⟨h3, h4⟩ := on_circle64 hp hL hr.1 hr.2
  have ha : (ofInt q /ₚ PyNum.ofRat (c.ppm.get (axisA g.plane)) : F64).1 =
      fl (fl q / fl (c.ppm.get (axisA g.plane))) := by rw [val_div, val_ofInt, val_ofRat]
  rw [← ha, ← h2] at h3 h4
  generalize (ofInt q /ₚ PyNum.ofRat (c.ppm.get (axisA g.plane)) : F64) = a at h3 h4 ⊢
  have e1 : 0 ≤ (g.radiusA2 -ₚ a *ₚ a).1 := h3
  rw [psqrt64_ok e1]
  have e2 : ∀ s : Bool, ∃ t, g.findTime a (if s then PyNum.neg (PyNum.sqrt (g.radiusA2 -ₚ a *ₚ a))
      else PyNum.sqrt (g.radiusA2 -ₚ a *ₚ a)) = .ok t ∧ 0 ≤ t.1 := by
    intro s
    refine findTime64_ok h.time h.start (h4.imp_right fun h5 => ?_)
    have h6 : (PyNum.sqrt (g.radiusA2 -ₚ a *ₚ a)).1 ≠ 0 := fl_ne (Real.sqrt_pos.2 h5).ne'
    cases s
    · exact h6
    · change (PyNum.neg _ : F64).1 ≠ 0
      rw [val_neg]; exact neg_ne_zero.2 h6
  obtain ⟨t, e3, e4⟩ := e2 side
  refine ⟨d, some t, ?_, fun τ hτ => by cases hτ; exact e4⟩
  change (g.findTime _ _ >>= _) = _
  rw [e3]; rfl

theorem circularB64_ok (h : CircGood64 c g) (i : Nat) :
    ∃ d t, g.circularB i (c.ppm.get (axisB g.plane)) = .ok (d, t) ∧ ∀ τ, t = some τ → 0 ≤ τ.1 := by
  have hp : (0 : ℝ) < fl (c.ppm.get (axisB g.plane)) := fl_pos (by exact_mod_cast h.ppm _)
  unfold CircGen.circularB
  split
  · exact ⟨_, none, rfl, fun τ hτ => by cases hτ⟩
  next hi =>
  obtain ⟨L, hL, h2, hr⟩ := h.b
  have hr := hr i
  rcases hh : circularHelper g.startBP (i + 1) g.radiusBP g.sideB g.dirB with ⟨q, d, side⟩
  rw [hh] at hr
  simp only at hr ⊢
  split
  · exact ⟨_, _, rfl, fun τ hτ => by cases hτ; exact fl_nonneg (mul_nonneg h.time h.turn)⟩
  next hl =>
  have hr := hr (by omega)
  obtain ⟨h3, h4⟩ := on_circle64 hp hL hr.1 hr.2
  have ha : (ofInt q /ₚ PyNum.ofRat (c.ppm.get (axisB g.plane)) : F64).1 =
      fl (fl q / fl (c.ppm.get (axisB g.plane))) := by rw [val_div, val_ofInt, val_ofRat]
  rw [← ha, ← h2] at h3 h4
  generalize (ofInt q /ₚ PyNum.ofRat (c.ppm.get (axisB g.plane)) : F64) = a at h3 h4 ⊢
  have e1 : 0 ≤ (g.radiusB2 -ₚ a *ₚ a).1 := h3
  rw [psqrt64_ok e1]
  have e2 : ∀ s : Bool, ∃ t, g.findTime (if s then PyNum.neg (PyNum.sqrt (g.radiusB2 -ₚ a *ₚ a))
      else PyNum.sqrt (g.radiusB2 -ₚ a *ₚ a)) a = .ok t ∧ 0 ≤ t.1 := by
    intro s
    refine findTime64_ok h.time h.start (h4.symm.imp_left fun h5 => ?_)
    have h6 : (PyNum.sqrt (g.radiusB2 -ₚ a *ₚ a)).1 ≠ 0 := fl_ne (Real.sqrt_pos.2 h5).ne'
    cases s
    · exact h6
    · change (PyNum.neg _ : F64).1 ≠ 0
      rw [val_neg]; exact neg_ne_zero.2 h6
  obtain ⟨t, e3, e4⟩ := e2 side
  refine ⟨d, some t, ?_, fun τ hτ => by cases hτ; exact e4⟩
  change (g.findTime _ _ >>= _) = _
  rw [e3]; rfl

theorem circLinear64_ok {i : Nat} {total v : F64} {ppm : ℚ} (hp : 0 < ppm)
    (hv : 0 < total.1 → 0 < v.1) :
    ∃ t, circLinear i total ppm v = .ok t ∧ ∀ τ, t = some τ → 0 ≤ τ.1 := by
  have hp' : (0 : ℝ) < fl ppm := fl_pos (by exact_mod_cast hp)
  unfold circLinear
  split
  · exact ⟨none, rfl, fun τ hτ => by cases hτ⟩
  next hi =>
  rw [le64_iff, val_ofInt, not_le] at hi
  have h0 : 0 ≤ fl ((i : ℤ) : ℝ) := fl_nonneg (by positivity)
  have hv' := hv (h0.trans_lt hi)
  rw [pdiv64_ok hv'.ne']
  refine ⟨some _, rfl, fun τ hτ => ?_⟩
  cases hτ
  rw [val_div, val_div, val_ofInt, val_ofRat]
  exact fl_nonneg (div_nonneg (fl_nonneg (div_nonneg h0 hp'.le)) hv'.le)

theorem axisAt64_ok (h : CircGood64 c g) (ax : Axis) (i : Nat) :
    ∃ d t, g.axisAt c ax i = .ok (d, t) ∧ ∀ τ, t = some τ → 0 ≤ τ.1 := by
  unfold CircGen.axisAt
  split
  · next e => subst e; exact circularA64_ok h i
  split
  · next e => subst e; exact circularB64_ok h i
  split
  · obtain ⟨t, h1, h2⟩ := circLinear64_ok (i := i) (h.ppm ax) h.v3
    rw [h1]; exact ⟨_, t, rfl, h2⟩
  · obtain ⟨t, h1, h2⟩ := circLinear64_ok (i := i) (h.ppm ax) h.vE
    rw [h1]; exact ⟨_, t, rfl, h2⟩

theorem circ64_interp (h : CircGood64 c g) (it : V4 Nat) :
    ∃ d t, (Gen.circular g).interp c it = .ok (d, t) ∧ ∀ ax τ, t.get ax = some τ → 0 ≤ τ.1 := by
  choose d t h1 h2 using fun ax => axisAt64_ok h ax (it.get ax)
  refine ⟨V4.ofFn d, V4.ofFn t, circ_interp.2 fun ax => ?_, fun ax τ hτ => ?_⟩
  · rw [h1 ax, get_ofFn, get_ofFn]
  · rw [get_ofFn] at hτ; exact h2 ax τ hτ

/-- The number of pulses of each axis: integers are exact as long as they are small, so the pulses
of the third axis and the extruder are bounded. -/
theorem fires64_iff (x : F64) (hx : x.1 ≤ 2 ^ 53) (i : Nat) :
    (!(x ≤ₚ ofInt i)) = true ↔ i < ⌈x.1⌉₊ := by
  rw [Bool.not_eq_true', ← Bool.not_eq_true, le64_iff, val_ofInt, not_le, Nat.lt_ceil]
  rcases le_or_gt i (2 ^ 53) with h | h
  · rw [fl_int _ (by rw [abs_of_nonneg (by positivity)]; exact_mod_cast h)]
    simp
  · have h1 : (2 : ℝ) ^ 53 ≤ i := by exact_mod_cast h.le
    have h2 : (2 : ℝ) ^ 53 ≤ fl ((i : ℤ) : ℝ) := by
      refine le_fl_of_le ?_ (by simpa using h1)
      have := fl_two_zpow 53
      exact_mod_cast this
    constructor <;> intro h3 <;> linarith

/-- The number of pulses of each axis. -/
noncomputable def CircGen.totals64 (g : CircGen F64) (ax : Axis) : Nat :=
  if ax = axisA g.plane then g.itA.toNat
  else if ax = axisB g.plane then g.itB.toNat
  else if ax = axis3 g.plane then ⌈g.it3.1⌉₊ else ⌈g.itE.1⌉₊

theorem circ64_fires (g : CircGen F64) (h3 : g.it3.1 ≤ 2 ^ 53) (hE : g.itE.1 ≤ 2 ^ 53) (ax : Axis)
    (i : Nat) : g.firesAt ax i = true ↔ i < g.totals64 ax := by
  unfold CircGen.firesAt CircGen.totals64
  split
  · simp only [decide_eq_true_eq]; omega
  split
  · simp only [decide_eq_true_eq]; omega
  split
  · exact fires64_iff _ h3 i
  · exact fires64_iff _ hE i

/-- Iterating a good generator ends without an exception. -/
theorem circ64_done (h : CircGood64 c g) (h3 : g.it3.1 ≤ 2 ^ 53) (hE : g.itE.1 ≤ 2 ^ 53) :
    ∃ evs N, ∀ n, N ≤ n → (Gen.circular g).run c n .init = (evs, .done) := by
  set N := 2 * leftOf g.totals64 GenState.init + 2 with hN
  have hends := planned_ends (circ_planned c g) g.totals64 (circ64_fires g h3 hE) N .init
    (fun ax => by cases ax <;> exact Nat.zero_le _) (by split <;> omega)
  have hr := run64_ok (g := .circular g) h.k h.acc (circ64_interp h) N .init
  have hd : ((Gen.circular g).run c N .init).2 = .done := by
    rcases hx : ((Gen.circular g).run c N .init).2 with _ | e | _
    · rfl
    · exact absurd hx (hr e)
    · exact absurd hx hends
  refine ⟨((Gen.circular g).run c N .init).1, N, fun n hn => ?_⟩
  rw [run_done_mono c (.circular g) N .init hd n hn]
  exact Prod.ext rfl hd

end Axes

end PyCNC
