import Verif.Lemmas.ArcExact
import Verif.Lemmas.LinearRun

/-!
# Iterating a circular generator in exact arithmetic
-/

set_option linter.unusedSectionVars false

namespace PyCNC

open Spec Real

variable [PyRound]

/-- The positions of an axis that starts inside the circle stay inside. -/
theorem helper_inside {s R d it : ℤ} {side : Bool} (h1 : -R ≤ s ∧ s ≤ R) (hR : 0 < R)
    (hd : d = 1 ∨ d = -1) (hit : it ≤ 4 * R) (i : Nat) (hi : (i : ℤ) + 1 < it) :
    -R ≤ (circularHelper s (i + 1) R side d).1 ∧ (circularHelper s (i + 1) R side d).1 ≤ R := by
  have hw := helper_walk (s := s) (R := R) (d := d) (side := side) (i + 1) h1.1 h1.2 hd
    (by push_cast; omega)
  have hr := walk_range h1.1 h1.2 hR hd (i + 1)
  push_cast at hw
  rw [← hw] at hr
  exact hr

/-- What iterating a circular generator needs, apart from the positions. -/
structure CircBase (c : Cfg) (g : CircGen ℝ) : Prop where
  ppm : ∀ ax, 0 < c.ppm.get ax
  time : 0 ≤ g.rDivV
  start : 0 ≤ g.startAngle ∧ g.startAngle < 2 * π
  turn : 0 ≤ g.deltaAngle
  v3 : 0 < g.it3 → 0 < g.vel3
  vE : 0 < g.itE → 0 < g.velE
  k : 0 ≤ (Gen.circular g).twoVmaxPerA c
  acc : 0 ≤ g.accT

/-- What iterating a circular generator needs. -/
structure CircGood (c : Cfg) (g : CircGen ℝ) : Prop extends CircBase c g where
  a : ∃ L : ℤ, 0 < L ∧ g.radiusA2 = ((L : ℝ) / c.ppm.get (axisA g.plane)) ^ 2 ∧
    ∀ i : Nat, (i : ℤ) + 1 < g.itA →
      -L ≤ (circularHelper g.startAP (i + 1) g.radiusAP g.sideA g.dirA).1 ∧
      (circularHelper g.startAP (i + 1) g.radiusAP g.sideA g.dirA).1 ≤ L
  b : ∃ L : ℤ, 0 < L ∧ g.radiusB2 = ((L : ℝ) / c.ppm.get (axisB g.plane)) ^ 2 ∧
    ∀ i : Nat, (i : ℤ) + 1 < g.itB →
      -L ≤ (circularHelper g.startBP (i + 1) g.radiusBP g.sideB g.dirB).1 ∧
      (circularHelper g.startBP (i + 1) g.radiusBP g.sideB g.dirB).1 ≤ L

/-- The time of a point of the circle. -/
theorem findTime_ok {g : CircGen ℝ} (hv : 0 ≤ g.rDivV)
    (hs : 0 ≤ g.startAngle ∧ g.startAngle < 2 * π) {a b : ℝ} (hne : a ^ 2 + b ^ 2 ≠ 0) :
    ∃ t, g.findTime a b = .ok t ∧ 0 ≤ t := by
  obtain ⟨φ, h1, h2, h3, _⟩ := angle_spec hne
  unfold CircGen.findTime
  rw [h1]
  refine ⟨_, rfl, ?_⟩
  have key : ∀ d : ℝ, -(2 * π) < d → 0 ≤ g.rDivV * (if d ≤ 0 then d + 2 * π else d) := by
    intro d hd
    refine mul_nonneg hv ?_
    split
    · linarith
    · next h => exact (not_le.1 h).le
  have := hs.1
  have := hs.2
  cases g.rot
  · have := key (φ - g.startAngle) (by linarith)
    simpa using this
  · have := key (g.startAngle - φ) (by linarith)
    simpa using this

/-- A step of the walk lies on the circle. -/
theorem on_circle {R q : ℤ} {p : ℝ} (hp : 0 < p) (hR : 0 < R) (h1 : -R ≤ q) (h2 : q ≤ R) :
    0 ≤ ((R : ℝ) / p) ^ 2 - ((q : ℝ) / p) * ((q : ℝ) / p) ∧
      ((q : ℝ) / p) ^ 2 + √(((R : ℝ) / p) ^ 2 - ((q : ℝ) / p) * ((q : ℝ) / p)) ^ 2 ≠ 0 := by
  have h1' : -(R : ℝ) ≤ q := by exact_mod_cast h1
  have h2' : (q : ℝ) ≤ R := by exact_mod_cast h2
  have hR' : (0 : ℝ) < R := by exact_mod_cast hR
  have h3 : 0 ≤ ((R : ℝ) / p) ^ 2 - ((q : ℝ) / p) * ((q : ℝ) / p) := by
    rw [← pow_two, div_pow, div_pow, ← sub_div]
    exact div_nonneg (by nlinarith) (by positivity)
  refine ⟨h3, ?_⟩
  rw [Real.sq_sqrt h3]
  have : 0 < ((R : ℝ) / p) ^ 2 := by positivity
  nlinarith

section Axes

variable {c : Cfg} {g : CircGen ℝ}

theorem circularA_ok (h : CircGood c g) (i : Nat) :
    ∃ d t, g.circularA i (c.ppm.get (axisA g.plane)) = .ok (d, t) ∧ ∀ τ, t = some τ → 0 ≤ τ := by
  have hp : (0 : ℝ) < c.ppm.get (axisA g.plane) := by exact_mod_cast h.ppm _
  unfold CircGen.circularA
  split
  · exact ⟨_, none, rfl, fun τ hτ => by cases hτ⟩
  next hi =>
  obtain ⟨L, hL, h2, hr⟩ := h.a
  have hr := hr i
  rcases hh : circularHelper g.startAP (i + 1) g.radiusAP g.sideA g.dirA with ⟨q, d, side⟩
  rw [hh] at hr
  simp only at hr ⊢
  split
  · exact ⟨_, _, rfl, fun τ hτ => by cases hτ; exact mul_nonneg h.time h.turn⟩
  next hl =>
  have hr := hr (by omega)
  obtain ⟨h3, h4⟩ := on_circle hp hL hr.1 hr.2
  rw [h2]
  have e1 : psqrt (((L : ℝ) / c.ppm.get (axisA g.plane)) ^ 2 -ₚ
      (ofInt q /ₚ PyNum.ofRat (c.ppm.get (axisA g.plane))) *ₚ
      (ofInt q /ₚ PyNum.ofRat (c.ppm.get (axisA g.plane)))) =
      .ok (√(((L : ℝ) / c.ppm.get (axisA g.plane)) ^ 2 -
        ((q : ℝ) / c.ppm.get (axisA g.plane)) * ((q : ℝ) / c.ppm.get (axisA g.plane)))) := by
    simp only [sub_eq, mul_eq, div_eq, ofInt_eq, ofRat_eq]; exact psqrt_ok h3
  rw [e1]
  have e2 : ∀ s : Bool, ∃ t, g.findTime (ofInt q /ₚ PyNum.ofRat (c.ppm.get (axisA g.plane)))
      (if s then PyNum.neg (√(((L : ℝ) / c.ppm.get (axisA g.plane)) ^ 2 -
        ((q : ℝ) / c.ppm.get (axisA g.plane)) * ((q : ℝ) / c.ppm.get (axisA g.plane)))) else
        √(((L : ℝ) / c.ppm.get (axisA g.plane)) ^ 2 -
        ((q : ℝ) / c.ppm.get (axisA g.plane)) * ((q : ℝ) / c.ppm.get (axisA g.plane)))) = .ok t ∧ 0 ≤ t := by
    intro s
    refine findTime_ok h.time h.start ?_
    cases s <;> simp only [div_eq, ofInt_eq, ofRat_eq, neg_eq, Bool.false_eq_true, if_false, if_true,
      neg_sq] <;> exact h4
  obtain ⟨t, e3, e4⟩ := e2 side
  refine ⟨d, some t, ?_, fun τ hτ => by cases hτ; exact e4⟩
  change (g.findTime _ _ >>= _) = _
  rw [e3]; rfl

theorem circularB_ok (h : CircGood c g) (i : Nat) :
    ∃ d t, g.circularB i (c.ppm.get (axisB g.plane)) = .ok (d, t) ∧ ∀ τ, t = some τ → 0 ≤ τ := by
  have hp : (0 : ℝ) < c.ppm.get (axisB g.plane) := by exact_mod_cast h.ppm _
  unfold CircGen.circularB
  split
  · exact ⟨_, none, rfl, fun τ hτ => by cases hτ⟩
  next hi =>
  obtain ⟨L, hL, h2, hr⟩ := h.b
  have hr := hr i
  rcases hh : circularHelper g.startBP (i + 1) g.radiusBP g.sideB g.dirB with ⟨q, d, side⟩
  rw [hh] at hr
  simp only at hr ⊢
  split
  · exact ⟨_, _, rfl, fun τ hτ => by cases hτ; exact mul_nonneg h.time h.turn⟩
  next hl =>
  have hr := hr (by omega)
  obtain ⟨h3, h4⟩ := on_circle hp hL hr.1 hr.2
  rw [h2]
  have e1 : psqrt (((L : ℝ) / c.ppm.get (axisB g.plane)) ^ 2 -ₚ
      (ofInt q /ₚ PyNum.ofRat (c.ppm.get (axisB g.plane))) *ₚ
      (ofInt q /ₚ PyNum.ofRat (c.ppm.get (axisB g.plane)))) =
      .ok (√(((L : ℝ) / c.ppm.get (axisB g.plane)) ^ 2 -
        ((q : ℝ) / c.ppm.get (axisB g.plane)) * ((q : ℝ) / c.ppm.get (axisB g.plane)))) := by
    simp only [sub_eq, mul_eq, div_eq, ofInt_eq, ofRat_eq]; exact psqrt_ok h3
  rw [e1]
  have e2 : ∀ s : Bool, ∃ t, g.findTime
      (if s then PyNum.neg (√(((L : ℝ) / c.ppm.get (axisB g.plane)) ^ 2 -
        ((q : ℝ) / c.ppm.get (axisB g.plane)) * ((q : ℝ) / c.ppm.get (axisB g.plane)))) else
        √(((L : ℝ) / c.ppm.get (axisB g.plane)) ^ 2 -
        ((q : ℝ) / c.ppm.get (axisB g.plane)) * ((q : ℝ) / c.ppm.get (axisB g.plane))))
      (ofInt q /ₚ PyNum.ofRat (c.ppm.get (axisB g.plane))) = .ok t ∧ 0 ≤ t := by
    intro s
    refine findTime_ok h.time h.start ?_
    cases s <;> simp only [div_eq, ofInt_eq, ofRat_eq, neg_eq, Bool.false_eq_true, if_false, if_true,
      neg_sq] <;> rw [add_comm] <;> exact h4
  obtain ⟨t, e3, e4⟩ := e2 side
  refine ⟨d, some t, ?_, fun τ hτ => by cases hτ; exact e4⟩
  change (g.findTime _ _ >>= _) = _
  rw [e3]; rfl

theorem circLinear_ok {i : Nat} {total v : ℝ} {ppm : ℚ} (hp : 0 < ppm) (hv : 0 < total → 0 < v) :
    ∃ t, circLinear i total ppm v = .ok t ∧ ∀ τ, t = some τ → 0 ≤ τ := by
  have hp' : (0 : ℝ) < ppm := by exact_mod_cast hp
  unfold circLinear
  split
  · exact ⟨none, rfl, fun τ hτ => by cases hτ⟩
  next hi =>
  have hi' : (i : ℝ) < total := by simpa [ofInt_eq] using hi
  have hv' := hv (lt_of_le_of_lt (Nat.cast_nonneg i) hi')
  rw [pdiv_ok hv'.ne']
  refine ⟨some _, rfl, fun τ hτ => ?_⟩
  cases hτ
  simp only [div_eq, ofInt_eq, ofRat_eq]
  positivity

theorem axisAt_ok (h : CircGood c g) (ax : Axis) (i : Nat) :
    ∃ d t, g.axisAt c ax i = .ok (d, t) ∧ ∀ τ, t = some τ → 0 ≤ τ := by
  unfold CircGen.axisAt
  split
  · next e => subst e; exact circularA_ok h i
  split
  · next e => subst e; exact circularB_ok h i
  split
  · obtain ⟨t, h1, h2⟩ := circLinear_ok (i := i) (h.ppm ax) h.v3
    rw [h1]; exact ⟨_, t, rfl, h2⟩
  · obtain ⟨t, h1, h2⟩ := circLinear_ok (i := i) (h.ppm ax) h.vE
    rw [h1]; exact ⟨_, t, rfl, h2⟩

/-- `next` never raises. -/
theorem circ_next_ok (h : CircGood c g) (s : GenState) : ∃ r, (Gen.circular g).next c s = .ok r := by
  have hall : ∃ (d : V4 Int) (t : V4 (Option ℝ)), g.interp c s.it = .ok (d, t) ∧
      ∀ ax τ, t.get ax = some τ → 0 ≤ τ := by
    choose d t h1 h2 using fun ax => axisAt_ok h ax (s.it.get ax)
    refine ⟨V4.ofFn d, V4.ofFn t, circ_interp.2 fun ax => ?_, fun ax τ hτ => ?_⟩
    · rw [h1 ax]; cases ax <;> rfl
    · refine h2 ax τ ?_
      rw [← hτ]; cases ax <;> rfl
  obtain ⟨d, t, hi, ht⟩ := hall
  rcases next_cases c (.circular g) s with ⟨e, h1, _⟩ | ⟨d', t', h1, h2⟩
  · rw [show (Gen.circular g).interp c s.it = g.interp c s.it from rfl, hi] at h1; cases h1
  rw [show (Gen.circular g).interp c s.it = g.interp c s.it from rfl, hi] at h1
  cases h1
  rcases h2 with ⟨_, h2⟩ | ⟨_, _, h2⟩ | ⟨m, _, hm, h2⟩
  · exact ⟨_, h2⟩
  · exact ⟨_, h2⟩
  · rcases h2 with ⟨e, h3, _⟩ | ⟨am, _, h3⟩
    · obtain ⟨⟨ax, hax⟩, _⟩ := minTime_some hm
      rw [toAccelerated_warp h.k (show 0 ≤ (Gen.circular g).accT from h.acc) (ht ax m hax)] at h3
      cases h3
    · exact ⟨_, h3⟩

theorem circ_not_raised (h : CircGood c g) (n : Nat) (s : GenState) (e : PyErr) :
    ((Gen.circular g).run c n s).2 ≠ .raised e := by
  induction n generalizing s with
  | zero => simp [Gen.run]
  | succ n ih =>
    rcases run_succ c (.circular g) n s with ⟨e', h1, _⟩ | ⟨_, h2⟩ | ⟨ev, s', _, h2⟩
    · obtain ⟨r, hr⟩ := circ_next_ok h s; rw [hr] at h1; cases h1
    · rw [h2]; simp
    · rw [h2]; exact ih s'

/-- The number of pulses of each axis. -/
noncomputable def CircGen.totals (g : CircGen ℝ) (ax : Axis) : Nat :=
  if ax = axisA g.plane then g.itA.toNat
  else if ax = axisB g.plane then g.itB.toNat
  else if ax = axis3 g.plane then ⌈g.it3⌉₊ else ⌈g.itE⌉₊

theorem circ_fires (g : CircGen ℝ) (ax : Axis) (i : Nat) :
    g.firesAt ax i = true ↔ i < g.totals ax := by
  unfold CircGen.firesAt CircGen.totals
  split
  · simp only [decide_eq_true_eq]; omega
  split
  · simp only [decide_eq_true_eq]; omega
  split
  · simp only [Bool.not_eq_true', le_false_iff, ofInt_eq, Int.cast_natCast, Nat.lt_ceil]
  · simp only [Bool.not_eq_true', le_false_iff, ofInt_eq, Int.cast_natCast, Nat.lt_ceil]

/-- Iterating a good generator ends without an exception. -/
theorem circ_emits (h : CircGood c g) : ∃ evs, Emits c (.circular g) evs := by
  set N := 2 * leftOf g.totals GenState.init + 2 with hN
  have hends := planned_ends (circ_planned c g) g.totals (circ_fires g) N .init
    (fun ax => by cases ax <;> exact Nat.zero_le _) (by split <;> omega)
  have hr := circ_not_raised h N .init
  have hd : ((Gen.circular g).run c N .init).2 = .done := by
    rcases hx : ((Gen.circular g).run c N .init).2 with _ | e | _
    · rfl
    · exact absurd hx (hr e)
    · exact absurd hx hends
  refine ⟨((Gen.circular g).run c N .init).1, N, fun n hn => ?_⟩
  rw [run_done_mono c (.circular g) N .init hd n hn]
  exact Prod.ext rfl hd

end Axes

end PyCNC
