import Verif.Lemmas.ArcPath
import Verif.Lemmas.Timed
import Verif.Lemmas.ArcBuild
import Verif.Lemmas.ArcNet
import Verif.Spec.ArcPath

/-!
# Iterating the generator of an arc: the pulses follow the circle
-/

set_option linter.unusedSectionVars false

namespace PyCNC

open Spec Real PyNum

variable [PyRound]

/-! ## Runs -/

theorem run_prefix {c : Cfg} {g : Gen ℝ} (n m : ℕ) (s : GenState) :
    ∃ l, (g.run c (n + m) s).1 = (g.run c n s).1 ++ l := by
  induction n generalizing s with
  | zero => exact ⟨_, rfl⟩
  | succ n ih =>
    rw [Nat.succ_add]
    rcases run_succ c g (n + m) s with ⟨e, h1, h2⟩ | ⟨h1, h2⟩ | ⟨ev, s', h1, h2⟩ <;>
    rcases run_succ c g n s with ⟨e', h3, h4⟩ | ⟨h3, h4⟩ | ⟨ev', s'', h3, h4⟩ <;>
      rw [h1] at h3 <;> cases h3 <;> rw [h2, h4]
    · exact ⟨[], rfl⟩
    · exact ⟨[], rfl⟩
    · obtain ⟨l, hl⟩ := ih s'
      exact ⟨l, by simp [hl]⟩

theorem steps_mono {c : Cfg} {g : Gen ℝ} {n m : ℕ} (h : n ≤ m) (s : GenState) (ax : Axis) :
    steps ax (g.run c n s).1 ≤ steps ax (g.run c m s).1 := by
  obtain ⟨l, hl⟩ := run_prefix (c := c) (g := g) n (m - n) s
  rw [Nat.add_sub_cancel' h] at hl
  rw [hl]
  simp [steps, stepTimes_append]

/-! ## The time reached -/

/-- The time of the last pulse sent to an axis. -/
noncomputable def lastOf (pt : Axis → ℕ → ℝ) (k : Axis → ℕ) (ax : Axis) : ℝ :=
  if k ax = 0 then 0 else pt ax (k ax - 1)

/-- The time of the last pulse sent at all. -/
noncomputable def lastSent (pt : Axis → ℕ → ℝ) (k : Axis → ℕ) : ℝ :=
  max (max (lastOf pt k .x) (lastOf pt k .y)) (max (lastOf pt k .z) (lastOf pt k .e))

section

variable {c : Cfg} {g : Gen ℝ} {total : Axis → ℕ} {pt : Axis → ℕ → ℝ}

theorem lastOf_le (k : Axis → ℕ) (ax : Axis) : lastOf pt k ax ≤ lastSent pt k := by
  unfold lastSent
  cases ax
  · exact (le_max_left _ _).trans (le_max_left _ _)
  · exact (le_max_right _ _).trans (le_max_left _ _)
  · exact (le_max_left _ _).trans (le_max_right _ _)
  · exact (le_max_right _ _).trans (le_max_right _ _)

theorem lastSent_le {k : Axis → ℕ} {x : ℝ} (h : ∀ ax, lastOf pt k ax ≤ x) : lastSent pt k ≤ x :=
  max_le (max_le (h _) (h _)) (max_le (h _) (h _))

theorem Timed.lastOf_nonneg (h : Timed c g total pt) {k : Axis → ℕ} (hk : ∀ ax, k ax ≤ total ax)
    (ax : Axis) : 0 ≤ lastOf pt k ax := by
  unfold lastOf
  split
  · exact le_rfl
  · exact h.nonneg ax _ (by have := hk ax; omega)

theorem Timed.last_nonneg (h : Timed c g total pt) {k : Axis → ℕ} (hk : ∀ ax, k ax ≤ total ax) :
    0 ≤ lastSent pt k := (h.lastOf_nonneg hk .x).trans (lastOf_le k .x)

theorem Timed.sent_le (h : Timed c g total pt) {k : Axis → ℕ} (hk : ∀ ax, k ax ≤ total ax)
    (ax : Axis) {i : ℕ} (hi : i < k ax) : pt ax i ≤ lastSent pt k := by
  refine le_trans ?_ (lastOf_le k ax)
  unfold lastOf
  rw [if_neg (by omega)]
  exact h.mono ax _ _ (by omega) (by have := hk ax; omega)

theorem Timed.last_le (h : Timed c g total pt) {k : Axis → ℕ} (hk : InOrder total pt k)
    (ax : Axis) (hi : k ax < total ax) : lastSent pt k ≤ pt ax (k ax) := by
  refine lastSent_le fun ax' => ?_
  unfold lastOf
  split
  · exact h.nonneg ax _ hi
  · exact hk ax' ax _ _ (by omega) le_rfl hi

theorem Timed.last_mono (h : Timed c g total pt) {k k' : Axis → ℕ} (hk : ∀ ax, k' ax ≤ total ax)
    (hkk : ∀ ax, k ax ≤ k' ax) : lastSent pt k ≤ lastSent pt k' := by
  refine lastSent_le fun ax => ?_
  have := hkk ax
  conv_lhs => unfold lastOf
  split
  · exact h.last_nonneg hk
  · exact h.sent_le hk ax (by omega)

end

/-! ## The timetable of an arc -/

variable {c : Cfg} {delta radius : V4 ℝ} {plane : Plane} {rot : Rot} {v : ℝ} {g : CircGen ℝ}
  {R RB A B uA uB : ℤ} {φ : ℝ}

/-- The uniform times of the pulses. -/
noncomputable def arcPt (c : Cfg) (rot : Rot) (g : CircGen ℝ) (R RB uA uB : ℤ) (φ : ℝ) (ax : Axis) (i : ℕ) : ℝ :=
  if ax = axisA g.plane then
    g.rDivV * turnAt R (rotSign rot * uA) (rotSign rot * φ) g.deltaAngle g.itA.toNat i
  else if ax = axisB g.plane then
    g.rDivV * turnAt RB (rotSign rot * uB) (rotSign rot * (φ + π / 2)) g.deltaAngle g.itB.toNat i
  else if ax = axis3 g.plane then i / c.ppm.get ax / g.vel3
  else i / c.ppm.get ax / g.velE

theorem circLinear_time {i : ℕ} {total v : ℝ} {p : ℚ} {t : Option ℝ}
    (h : circLinear i total p v = .ok t) :
    t = if i < ⌈total⌉₊ then some ((i : ℝ) / p / v) else none := by
  unfold circLinear at h
  split at h
  · next hle =>
    cases h
    have hle : total ≤ (i : ℝ) := by simpa using hle
    rw [if_neg (by simpa using hle)]
  · next hle =>
    have hle : (i : ℝ) < total := by simpa using hle
    rw [if_pos (Nat.lt_ceil.2 hle)]
    unfold pdiv at h
    split at h
    · cases h
    · cases h; simp

theorem lin_nonneg (h : CircGen.new c delta radius plane rot v = .ok g) : 0 ≤ g.linT := by
  obtain ⟨he, φs, φe, maxV, q, h1, h2, _, _, h5⟩ := new_ok h
  unfold arcTimes at h5
  simp only at h5
  split at h5
  · cases h5; simp [arcMk]
  split at h5
  · unfold pdiv at h5
    split at h5
    · cases h5
    · cases h5; simp [arcMk]
  · next hlt =>
    unfold pdiv at h5
    split at h5
    · cases h5
    · cases h5
      simp only [lt_false_iff, mul_eq, div_eq, sub_eq, ofRat_eq, sqrt_eq, arcMk, Bool.not_eq_true] at hlt ⊢
      refine div_nonneg ?_ (Real.sqrt_nonneg _)
      nlinarith [hlt]

theorem rDivV_ne (hg : CircGen.new c delta radius plane rot v = .ok g) (h : GridArc c delta radius plane) :
    g.rDivV ≠ 0 := by
  obtain ⟨φs, φe, hf⟩ := new_facts hg
  obtain ⟨R, RB, A, B, EA, EB, hi, -, -, -, -, p1, -, -, -, -, q1, -⟩ := arc_ints h hf
  obtain ⟨he, φs, φe, maxV, q, h1, h2, _, h4, h5⟩ := new_ok hg
  obtain ⟨mV, aT, lT, rfl⟩ := times_mk h5
  change q ≠ 0
  unfold pdiv at h4
  split at h4
  · cases h4
  · next hz =>
    cases h4
    have hz : arcCirc plane maxV ≠ 0 := by simpa using hz
    have hr : arcRad (arcMpm c plane) plane radius ≠ 0 := by
      intro h0
      rw [h0, zero_mul] at q1
      have : R = 0 := by exact_mod_cast q1.symm
      omega
    exact div_ne_zero hr hz

theorem arc_timed (ht : ArcTracks c delta radius plane rot g R RB A B uA uB φ) (hb : CircBase c g)
    (hl : 0 ≤ g.linT) : Timed c (.circular g) g.totals (arcPt c rot g R RB uA uB φ) := by
  refine ⟨?_, ?_, ?_, hb.k, hb.acc, hl⟩
  · intro it d t hi ax
    have h := circ_interp.1 hi ax
    unfold CircGen.axisAt at h
    unfold arcPt CircGen.totals
    split at h
    · next hax =>
      rw [if_pos hax, if_pos hax]
      refine ht.timeA _ (d.get ax) _ ?_
      rw [← ht.plane_eq, ← hax]; exact h
    split at h
    · next hn hax =>
      rw [if_neg hn, if_pos hax, if_neg hn, if_pos hax]
      refine ht.timeB _ (d.get ax) _ ?_
      rw [← ht.plane_eq, ← hax]; exact h
    split at h
    · next hn hn' hax =>
      rw [if_neg hn, if_neg hn', if_pos hax, if_neg hn, if_neg hn', if_pos hax]
      rcases hq : circLinear (it.get ax) g.it3 (c.ppm.get ax) g.vel3 with e | q <;> rw [hq] at h
      · cases h
      · have hs : q = t.get ax := congrArg Prod.snd (Except.ok.inj h)
        rw [← hs]; exact circLinear_time hq
    · next hn hn' hax =>
      rw [if_neg hn, if_neg hn', if_neg hax, if_neg hn, if_neg hn', if_neg hax]
      rcases hq : circLinear (it.get ax) g.itE (c.ppm.get ax) g.velE with e | q <;> rw [hq] at h
      · cases h
      · have hs : q = t.get ax := congrArg Prod.snd (Except.ok.inj h)
        rw [← hs]; exact circLinear_time hq
  · intro ax i j hij hj
    have hp : (0 : ℝ) < c.ppm.get ax := by exact_mod_cast hb.ppm ax
    have hij' : (i : ℝ) ≤ j := by exact_mod_cast hij
    unfold arcPt
    unfold CircGen.totals at hj
    split at hj
    · next hax =>
      rw [if_pos hax, if_pos hax]
      rcases hij.eq_or_lt with rfl | hlt
      · exact le_rfl
      · exact mul_le_mul_of_nonneg_left (ht.ta.turn_lt hlt hj).le hb.time
    split at hj
    · next hn hax =>
      rw [if_neg hn, if_pos hax, if_neg hn, if_pos hax]
      rcases hij.eq_or_lt with rfl | hlt
      · exact le_rfl
      · exact mul_le_mul_of_nonneg_left (ht.tb.turn_lt hlt hj).le hb.time
    split at hj
    · next hn hn' hax =>
      rw [if_neg hn, if_neg hn', if_pos hax, if_neg hn, if_neg hn', if_pos hax]
      have hv := hb.v3 (by have := Nat.lt_ceil.1 hj; exact lt_of_le_of_lt (Nat.cast_nonneg j) this)
      gcongr
    · next hn hn' hax =>
      rw [if_neg hn, if_neg hn', if_neg hax, if_neg hn, if_neg hn', if_neg hax]
      have hv := hb.vE (by have := Nat.lt_ceil.1 hj; exact lt_of_le_of_lt (Nat.cast_nonneg j) this)
      gcongr
  · intro ax i hj
    have hp : (0 : ℝ) < c.ppm.get ax := by exact_mod_cast hb.ppm ax
    unfold arcPt
    unfold CircGen.totals at hj
    split at hj
    · next hax =>
      rw [if_pos hax]
      exact mul_nonneg hb.time (ht.ta.turn_pos hj).le
    split at hj
    · next hn hax =>
      rw [if_neg hn, if_pos hax]
      exact mul_nonneg hb.time (ht.tb.turn_pos hj).le
    split at hj
    · next hn hn' hax =>
      rw [if_neg hn, if_neg hn', if_pos hax]
      have hv := hb.v3 (by have := Nat.lt_ceil.1 hj; exact lt_of_le_of_lt (Nat.cast_nonneg i) this)
      positivity
    · next hn hn' hax =>
      rw [if_neg hn, if_neg hn', if_neg hax]
      have hv := hb.vE (by have := Nat.lt_ceil.1 hj; exact lt_of_le_of_lt (Nat.cast_nonneg i) this)
      positivity

/-- How far the arc has turned after `n` events. -/
noncomputable def arcPhi (c : Cfg) (rot : Rot) (g : CircGen ℝ) (R RB uA uB : ℤ) (φ : ℝ) (n : ℕ) : ℝ :=
  min g.deltaAngle (lastSent (arcPt c rot g R RB uA uB φ)
    (fun ax => steps ax ((Gen.circular g).run c n .init).1) / g.rDivV)

theorem circ_steps (c : Cfg) (g : CircGen ℝ) (n : ℕ) (ax : Axis) :
    steps ax ((Gen.circular g).run c n .init).1 ≤ g.totals ax ∧
    (((Gen.circular g).run c n .init).2 = .done →
      steps ax ((Gen.circular g).run c n .init).1 = g.totals ax) := by
  have hz : GenState.init.it.get ax = 0 := by cases ax <;> rfl
  have := planned_steps (circ_planned c g) ax (g.totals ax) (circ_fires g ax) n .init (by omega)
  rw [hz, Nat.zero_add] at this
  exact this

section

variable (ht : ArcTracks c delta radius plane rot g R RB A B uA uB φ) (hb : CircBase c g)
  (hl : 0 ≤ g.linT) (hr : 0 < g.rDivV)

include ht hb hl hr

theorem phi_mono : Monotone (arcPhi c rot g R RB uA uB φ) := by
  have h := arc_timed ht hb hl
  intro n m hnm
  refine min_le_min_left _ (div_le_div_of_nonneg_right ?_ hr.le)
  exact h.last_mono (fun ax => (circ_steps c g m ax).1) (fun ax => steps_mono hnm _ ax)

theorem phi_nonneg (n : ℕ) : 0 ≤ arcPhi c rot g R RB uA uB φ n := by
  have h := arc_timed ht hb hl
  exact le_min hb.turn (div_nonneg (h.last_nonneg fun ax => (circ_steps c g n ax).1) hr.le)

theorem phi_zero : arcPhi c rot g R RB uA uB φ 0 = 0 := by
  have h0 : lastSent (arcPt c rot g R RB uA uB φ)
      (fun ax => steps ax ((Gen.circular g).run c 0 .init).1) = 0 := by
    unfold lastSent lastOf
    simp [Gen.run, steps, stepTimes]
  unfold arcPhi
  rw [h0, zero_div]
  exact min_eq_right hb.turn

/-- The first axis of the plane. -/
theorem phi_a (n : ℕ) :
    |(A : ℝ) + netSteps c (axisA plane) ((Gen.circular g).run c n .init).1 -
      R * sin (φ + rotSign rot * arcPhi c rot g R RB uA uB φ n)| ≤ 3 / 2 := by
  have h := arc_timed ht hb hl
  obtain ⟨k, hk, hs, -, hp⟩ := ht.posA c n
  have hle := fun ax => (circ_steps c g n ax).1
  have hpl := ht.plane_eq
  have hord := (timed_init h n).2.1
  have htot : g.totals (axisA g.plane) = g.itA.toNat := by simp [CircGen.totals]
  have hpt : ∀ i, arcPt c rot g R RB uA uB φ (axisA g.plane) i = g.rDivV *
      turnAt R (rotSign rot * uA) (rotSign rot * φ) g.deltaAngle g.itA.toNat i := by
    intro i; simp [arcPt]
  have hs' : steps (axisA g.plane) ((Gen.circular g).run c n .init).1 = k := by rw [hpl]; exact hs
  have hdev := ht.ta.dev (k := k) (φ := arcPhi c rot g R RB uA uB φ n) hk
    (phi_nonneg ht hb hl hr n) (min_le_left _ _) (fun i hi => by
      refine le_min (ht.ta.turn_le (by omega)) ?_
      rw [le_div_iff₀ hr, mul_comm, ← hpt]
      exact h.sent_le hle (axisA g.plane) (by omega))
    (fun hkm => by
      refine (min_le_right _ _).trans ?_
      rw [div_le_iff₀ hr, mul_comm, ← hpt]
      have := h.last_le hord (axisA g.plane) (by rw [hs', htot]; exact hkm)
      simp only [hs'] at this
      exact this)
  rw [hp]
  push_cast at hdev
  rw [psi_signed ht.ta.R'] at hdev
  refine le_trans (le_of_eq ?_) hdev
  cases rot
  · simp [rotSign]
  · simp only [rotSign, Int.cast_neg, Int.cast_one, neg_mul, one_mul]
    rw [show -φ + arcPhi c .ccw g R RB uA uB φ n = -(φ + -arcPhi c .ccw g R RB uA uB φ n) by ring,
      sin_neg, sin_neg, ← abs_neg]
    congr 1; ring

/-- The second axis of the plane. -/
theorem phi_b (n : ℕ) :
    |(B : ℝ) + netSteps c (axisB plane) ((Gen.circular g).run c n .init).1 -
      RB * cos (φ + rotSign rot * arcPhi c rot g R RB uA uB φ n)| ≤ 3 / 2 := by
  have h := arc_timed ht hb hl
  obtain ⟨k, hk, hs, -, hp⟩ := ht.posB c n
  have hle := fun ax => (circ_steps c g n ax).1
  have hpl := ht.plane_eq
  have hord := (timed_init h n).2.1
  have hne := axisB_ne g.plane
  have htot : g.totals (axisB g.plane) = g.itB.toNat := by simp [CircGen.totals, hne]
  have hpt : ∀ i, arcPt c rot g R RB uA uB φ (axisB g.plane) i = g.rDivV *
      turnAt RB (rotSign rot * uB) (rotSign rot * (φ + π / 2)) g.deltaAngle g.itB.toNat i := by
    intro i; simp [arcPt, hne]
  have hs' : steps (axisB g.plane) ((Gen.circular g).run c n .init).1 = k := by rw [hpl]; exact hs
  have hdev := ht.tb.dev (k := k) (φ := arcPhi c rot g R RB uA uB φ n) hk
    (phi_nonneg ht hb hl hr n) (min_le_left _ _) (fun i hi => by
      refine le_min (ht.tb.turn_le (by omega)) ?_
      rw [le_div_iff₀ hr, mul_comm, ← hpt]
      exact h.sent_le hle (axisB g.plane) (by omega))
    (fun hkm => by
      refine (min_le_right _ _).trans ?_
      rw [div_le_iff₀ hr, mul_comm, ← hpt]
      have := h.last_le hord (axisB g.plane) (by rw [hs', htot]; exact hkm)
      simp only [hs'] at this
      exact this)
  rw [hp, ← sin_add_pi_div_two]
  push_cast at hdev
  rw [psi_signed ht.tb.R'] at hdev
  refine le_trans (le_of_eq ?_) hdev
  cases rot
  · simp only [rotSign, Int.cast_one, one_mul]
    rw [show φ + arcPhi c .cw g R RB uA uB φ n + π / 2 = φ + π / 2 + arcPhi c .cw g R RB uA uB φ n by ring]
  · simp only [rotSign, Int.cast_neg, Int.cast_one, neg_mul, one_mul]
    rw [show -(φ + π / 2) + arcPhi c .ccw g R RB uA uB φ n =
        -(φ + -arcPhi c .ccw g R RB uA uB φ n + π / 2) by ring,
      sin_neg, sin_neg, ← abs_neg]
    congr 1; ring

/-- When all pulses are sent. -/
theorem phi_full (hsome : 0 < g.itA.toNat ∨ 0 < g.itB.toNat) {n : ℕ}
    (hd : ∀ ax, steps ax ((Gen.circular g).run c n .init).1 = g.totals ax) :
    arcPhi c rot g R RB uA uB φ n = g.deltaAngle := by
  have h := arc_timed ht hb hl
  have hle := fun ax => (circ_steps c g n ax).1
  have hne := axisB_ne g.plane
  refine min_eq_left ?_
  rw [le_div_iff₀ hr, mul_comm]
  rcases hsome with h0 | h0
  · have htot : g.totals (axisA g.plane) = g.itA.toNat := by simp [CircGen.totals]
    have hk := hd (axisA g.plane)
    have := h.sent_le hle (axisA g.plane) (i := g.itA.toNat - 1) (by rw [hk, htot]; omega)
    rw [arcPt, if_pos rfl, ht.ta.turn_last h0] at this
    exact this
  · have htot : g.totals (axisB g.plane) = g.itB.toNat := by simp [CircGen.totals, hne]
    have hk := hd (axisB g.plane)
    have := h.sent_le hle (axisB g.plane) (i := g.itB.toNat - 1) (by rw [hk, htot]; omega)
    rw [arcPt, if_neg hne, if_pos rfl, ht.tb.turn_last h0] at this
    exact this

/-- At the end. -/
theorem phi_end (hsome : 0 < g.itA.toNat ∨ 0 < g.itB.toNat) {n : ℕ}
    (hd : ((Gen.circular g).run c n .init).2 = .done) :
    arcPhi c rot g R RB uA uB φ n = g.deltaAngle :=
  phi_full ht hb hl hr hsome fun ax => (circ_steps c g n ax).2 hd

end

/-- A full turn. -/
theorem sweep_full (h : Sweep plane delta radius rot v) (hd : startDist plane radius ≠ 0)
    (hA : delta.get (axisA plane) = 0) (hB : delta.get (axisB plane) = 0) : v = 2 * π := by
  obtain ⟨t0, t1, h1, h2⟩ := h
  have eA : endA plane delta radius = startA plane radius := by simp [endA, startA, hA]
  have eB : endB plane delta radius = startB plane radius := by simp [endB, startB, hB]
  have eD : endDist plane delta radius = startDist plane radius := by
    simp only [endDist, startDist, eA, eB]
  rw [eA, eD, mul_comm] at h1
  rw [eB, eD, mul_comm] at h2
  have h1 := mul_left_cancel₀ hd h1
  have h2 := mul_left_cancel₀ hd h2
  have hsq : startDist plane radius ^ 2 = startA plane radius ^ 2 + startB plane radius ^ 2 :=
    Real.sq_sqrt (by positivity)
  have hcos : cos v = 1 := by
    have : startDist plane radius ^ 2 * (1 - cos v) = 0 := by
      rw [hsq]; linear_combination startA plane radius * h1 + startB plane radius * h2
    rcases mul_eq_zero.1 this with h | h
    · exact absurd (pow_eq_zero_iff two_ne_zero |>.1 h) hd
    · linarith
  obtain ⟨n, hn⟩ := (cos_eq_one_iff v).1 hcos
  have hpi := pi_pos
  have hn0 : (0 : ℝ) < n := by
    by_contra hx
    have : (n : ℝ) * (2 * π) ≤ 0 := mul_nonpos_of_nonpos_of_nonneg (not_lt.1 hx) (by positivity)
    linarith
  have hn1 : (n : ℝ) ≤ 1 := by
    by_contra hx
    have : 2 * π < (n : ℝ) * (2 * π) := by nlinarith [not_le.1 hx]
    linarith
  have : n = 1 := by
    have h3 : 0 < n := by exact_mod_cast hn0
    have h4 : n ≤ 1 := by exact_mod_cast hn1
    omega
  rw [← hn, this]; ring

/-- A track of a full turn has steps. -/
theorem Track.some_of_full {R u : ℤ} {ψ : ℝ} {m : ℕ} (h : Track R u ψ (2 * π) m) : 0 < m := by
  by_contra hm
  obtain rfl : m = 0 := by omega
  have h1 := h.s1
  have h2 := h.e2
  have h3 := psi_turn h.R' ((u : ℝ) - 1) 1
  have h4 : (1 : ℝ) ≤ R := by exact_mod_cast h.hR
  have h5 := psi_le h.R' (u := (u : ℝ) + 1) (w := u - 1 + 4 * (1 : ℤ) * R) (by push_cast; linarith)
  push_cast at *
  rw [add_zero] at h2
  linarith

theorem arc_some (hn : ¬ BackInQuarter plane delta radius) (hg : GridArc c delta radius plane)
    (hnew : CircGen.new c delta radius plane rot v = .ok g)
    (ht : ArcTracks c delta radius plane rot g R RB A B uA uB φ) {evs : List (Event ℝ)}
    (he : Emits c (.circular g) evs) (hd : startDist plane radius ≠ 0) :
    0 < g.itA.toNat ∨ 0 < g.itB.toNat := by
  by_contra hx
  rw [not_or] at hx
  obtain ⟨x1, x2⟩ := hx
  obtain ⟨n1, n2⟩ := arc_net hg hnew he
  rw [if_neg hn] at n1 n2
  obtain ⟨N, hN⟩ := he
  have hN := hN N le_rfl
  obtain ⟨k, hk, -, -, hp⟩ := ht.posA c N
  obtain ⟨k0, hk0, -, -, hp0⟩ := ht.posA c 0
  obtain ⟨j, hj, -, -, hq⟩ := ht.posB c N
  obtain ⟨j0, hj0, -, -, hq0⟩ := ht.posB c 0
  obtain rfl : k = k0 := by omega
  obtain rfl : j = j0 := by omega
  rw [hN, ← hp0] at hp
  rw [hN, ← hq0] at hq
  have z : ∀ ax, netSteps c ax ((Gen.circular g).run c 0 .init).1 = 0 := fun ax => rfl
  rw [z, Int.cast_zero] at hp hq
  have hpA : (0 : ℝ) < c.ppm.get (axisA plane) := by exact_mod_cast hg.posA
  have hpB : (0 : ℝ) < c.ppm.get (axisB plane) := by exact_mod_cast hg.posB
  have dA : delta.get (axisA plane) = 0 := by
    have : delta.get (axisA plane) * c.ppm.get (axisA plane) = 0 := by rw [← n1]; linarith
    exact (mul_eq_zero.1 this).resolve_right hpA.ne'
  have dB : delta.get (axisB plane) = 0 := by
    have : delta.get (axisB plane) * c.ppm.get (axisB plane) = 0 := by rw [← n2]; linarith
    exact (mul_eq_zero.1 this).resolve_right hpB.ne'
  have hT := sweep_full ht.sweep hd dA dB
  have hta := ht.ta
  rw [hT] at hta
  exact x1 hta.some_of_full

end PyCNC
