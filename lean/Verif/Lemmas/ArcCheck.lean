import Verif.Lemmas.ArcMachine
import Verif.Lemmas.ArcInside

/-!
# What the area check of circular moves covers
-/

set_option linter.unusedSectionVars false

namespace PyCNC

open Spec Real

variable [PyRound] {c : Cfg}

/-- The quarters in the sense of clockwise motion: the `k`-th is where the direction, measured
clockwise from the second axis of the plane, is between `k` and `k + 1` right angles. -/
def qOf (k : ℤ) : ℤ := if k % 4 = 0 then 1 else if k % 4 = 1 then 4 else if k % 4 = 2 then 3 else 2

/-- The circle does not reach beyond the table in the direction of `i` right angles. -/
def BorderOk (pa pb ra rb r ma mb : ℝ) (i : ℤ) : Prop :=
  (i % 4 = 0 → pb + rb + r ≤ mb) ∧ (i % 4 = 1 → pa + ra + r ≤ ma) ∧
  (i % 4 = 2 → 0 ≤ pb + rb - r) ∧ (i % 4 = 3 → 0 ≤ pa + ra - r)

/-- The quarter after the `k`-th, and the border between them. -/
def nextQ : Rot → ℤ → ℤ
  | .cw, k => k + 1
  | .ccw, k => k - 1
def borderOf : Rot → ℤ → ℤ
  | .cw, k => k + 1
  | .ccw, k => k

theorem fitLoop_step {rot : Rot} {eq : ℤ} {pa pb ra rb r ma mb : ℝ} {n : ℕ} {k : ℤ}
    (h : fitLoop rot eq pa pb ra rb r ma mb (n + 1) (qOf k) (qOf k) = .ok ()) :
    qOf (nextQ rot k) = eq ∨ BorderOk pa pb ra rb r ma mb (borderOf rot k) ∧
      fitLoop rot eq pa pb ra rb r ma mb n (qOf (nextQ rot k)) (qOf (nextQ rot k)) = .ok () := by
  have hk : k % 4 = 0 ∨ k % 4 = 1 ∨ k % 4 = 2 ∨ k % 4 = 3 := by omega
  by_cases hq : qOf (nextQ rot k) = eq
  · exact .inl hq
  right
  have e : (k + 1) % 4 = (k % 4 + 1) % 4 := by omega
  have e' : (k - 1) % 4 = (k % 4 + 3) % 4 := by omega
  unfold fitLoop at h
  rcases hk with hk | hk | hk | hk <;> cases rot <;>
  · simp only [nextQ, qOf, hk, e, e'] at h hq
    norm_num at h hq
    replace h := h hq
    simp only [nextQ, qOf, hk, e, e', borderOf, BorderOk]
    norm_num
    split_ifs at h with hlt
    exact ⟨not_lt.1 hlt, h⟩

/-- All the borders that are reached before the quarter of the end are checked. -/
theorem fitLoop_checks {rot : Rot} {eq : ℤ} {pa pb ra rb r ma mb : ℝ} {n : ℕ} {k : ℤ}
    (h : fitLoop rot eq pa pb ra rb r ma mb n (qOf k) (qOf k) = .ok ()) {t : ℕ} (ht : t < n)
    (hq : ∀ t' ≤ t, qOf ((nextQ rot)^[t' + 1] k) ≠ eq) :
    BorderOk pa pb ra rb r ma mb (borderOf rot ((nextQ rot)^[t] k)) := by
  induction n generalizing k t with
  | zero => omega
  | succ n ih =>
    rcases fitLoop_step h with h1 | ⟨h1, h2⟩
    · exact absurd h1 (hq 0 (by omega))
    · cases t with
      | zero => exact h1
      | succ t => exact ih h2 (by omega) fun t' ht' => hq (t' + 1) (by omega)

omit [PyRound] in
theorem nextQ_iter (rot : Rot) (t : ℕ) (k : ℤ) : (nextQ rot)^[t] k = k + rotSign rot * t := by
  induction t generalizing k with
  | zero => simp
  | succ t ih =>
    rw [Function.iterate_succ_apply, ih]
    cases rot <;> simp only [nextQ, rotSign] <;> push_cast <;> ring

omit [PyRound] in
theorem qOf_inj {j k : ℤ} (h : qOf j = qOf k) : j % 4 = k % 4 := by
  unfold qOf at h
  split_ifs at h <;> omega

omit [PyRound] in
theorem quadrant {x : ℝ} (h1 : 0 ≤ sin x) (h2 : 0 ≤ cos x) :
    ∃ n : ℤ, 2 * π * n ≤ x ∧ x ≤ 2 * π * n + π / 2 := by
  have hpi := pi_pos
  obtain ⟨n, ⟨hn1, hn2⟩, -⟩ := existsUnique_sub_zsmul_mem_Ioc (show (0 : ℝ) < 2 * π by linarith) x (-π)
  simp only [zsmul_eq_mul] at hn1 hn2
  have e1 : sin (x - n * (2 * π)) = sin x := sin_sub_int_mul_two_pi x n
  have e2 : cos (x - n * (2 * π)) = cos x := cos_sub_int_mul_two_pi x n
  refine ⟨n, ?_, ?_⟩
  · by_contra hc
    have := sin_neg_of_neg_of_neg_pi_lt (x := x - n * (2 * π)) (by linarith) hn1
    linarith
  · by_contra hc
    have := cos_neg_of_pi_div_two_lt_of_lt (x := x - n * (2 * π)) (by linarith) (by linarith)
    linarith

/-- The quarter of a point and its direction. -/
theorem quarter_dir {a b x : ℝ} (a1 : 0 ≤ a → 0 ≤ sin x) (a2 : a ≤ 0 → sin x ≤ 0)
    (b1 : 0 ≤ b → 0 ≤ cos x) (b2 : b ≤ 0 → cos x ≤ 0) :
    ∃ k : ℤ, quarter a b = qOf k ∧ k * (π / 2) ≤ x ∧ x ≤ (k + 1) * (π / 2) := by
  have hpi := pi_pos
  have shift : ∀ m : ℕ, 0 ≤ sin (x - m * (π / 2)) → 0 ≤ cos (x - m * (π / 2)) →
      ∃ n : ℤ, (4 * n + m : ℤ) * (π / 2) ≤ x ∧ x ≤ ((4 * n + m : ℤ) + 1) * (π / 2) := by
    intro m h1 h2
    obtain ⟨n, k1, k2⟩ := quadrant h1 h2
    refine ⟨n, ?_, ?_⟩ <;> push_cast <;> linarith
  unfold quarter
  simp only [le_iff, lt_iff, zeroF_eq, Bool.and_eq_true, decide_eq_true_eq]
  rcases le_or_gt 0 a with ha | ha <;> rcases le_or_gt 0 b with hb | hb
  · obtain ⟨n, k1, k2⟩ := shift 0 (by simpa using a1 ha) (by simpa using b1 hb)
    exact ⟨_, by rw [if_pos ⟨ha, hb⟩]; simp [qOf, Int.mul_emod_right], k1, k2⟩
  · obtain ⟨n, k1, k2⟩ := shift 1 (by
        simp only [Nat.cast_one, one_mul, sin_sub_pi_div_two]; linarith [b2 hb.le]) (by
        simp only [Nat.cast_one, one_mul, cos_sub_pi_div_two]; exact a1 ha)
    refine ⟨_, ?_, k1, k2⟩
    rw [if_neg (by intro h; linarith [h.2]), if_neg (by intro h; linarith [h.2]),
      if_neg (by intro h; linarith [h.1])]
    have : (4 * n + (1 : ℕ)) % 4 = 1 := by omega
    simp [qOf, this]
  · obtain ⟨n, k1, k2⟩ := shift 3 (by
        rw [show x - (3 : ℕ) * (π / 2) = x + π / 2 - 2 * π by push_cast; ring, sin_sub_two_pi,
          sin_add_pi_div_two]; exact b1 hb) (by
        rw [show x - (3 : ℕ) * (π / 2) = x + π / 2 - 2 * π by push_cast; ring, cos_sub_two_pi,
          cos_add_pi_div_two]; linarith [a2 ha.le])
    refine ⟨_, ?_, k1, k2⟩
    rw [if_neg (by intro h; linarith [h.1]), if_pos ⟨ha, hb⟩]
    have : (4 * n + (3 : ℕ)) % 4 = 3 := by omega
    simp [qOf, this]
  · obtain ⟨n, k1, k2⟩ := shift 2 (by
        rw [show x - (2 : ℕ) * (π / 2) = x - π by push_cast; ring, sin_sub_pi]
        linarith [a2 ha.le]) (by
        rw [show x - (2 : ℕ) * (π / 2) = x - π by push_cast; ring, cos_sub_pi]
        linarith [b2 hb.le])
    refine ⟨_, ?_, k1, k2⟩
    rw [if_neg (by intro h; linarith [h.1]), if_neg (by intro h; linarith [h.2]), if_pos ⟨ha, hb⟩]
    have : (4 * n + (2 : ℕ)) % 4 = 2 := by omega
    simp [qOf, this]

/-- Of the borders that an arc of less than a full turn passes, all but the last are checked. -/
theorem fit_borders {rot : Rot} {pa pb ra rb r ma mb φ T : ℝ} {k e : ℤ}
    (h : fitLoop rot (qOf e) pa pb ra rb r ma mb 4 (qOf k) (qOf k) = .ok ())
    (k1 : k * (π / 2) ≤ φ) (k2 : φ ≤ (k + 1) * (π / 2)) (hT : T < 2 * π)
    (e1 : e * (π / 2) ≤ φ + rotSign rot * T) (e2 : φ + rotSign rot * T ≤ (e + 1) * (π / 2))
    {i : ℤ} {θ θ' : ℝ} (hθ : 0 < θ) (hi : φ + rotSign rot * θ = i * (π / 2)) (hlt : θ < θ')
    (hθ' : θ' < T) {i' : ℤ} (hi' : φ + rotSign rot * θ' = i' * (π / 2)) :
    BorderOk pa pb ra rb r ma mb i := by
  have hpi : 0 < π / 2 := by linarith [pi_pos]
  have lt_of : ∀ {x y : ℤ}, (x : ℝ) * (π / 2) < y * (π / 2) → x < y := fun {x y} h => by
    exact_mod_cast lt_of_mul_lt_mul_right h hpi.le
  cases rot <;> simp only [rotSign] at * <;> push_cast at *
  · have g1 : k < i := lt_of (by linarith)
    have g2 : i < i' := lt_of (by linarith)
    have g3 : i' < e + 1 := lt_of (by push_cast; linarith)
    have g4 : e < k + 5 := lt_of (by push_cast; linarith)
    have := fitLoop_checks h (t := (i - k - 1).toNat) (by omega) (fun t' ht' hq => by
      rw [nextQ_iter] at hq
      have := qOf_inj hq
      simp only [rotSign] at this
      omega)
    rw [nextQ_iter] at this
    simp only [borderOf, rotSign] at this
    rwa [show k + 1 * (((i - k - 1).toNat : ℕ) : ℤ) + 1 = i by omega] at this
  · have g1 : i < k + 1 := lt_of (by push_cast; linarith)
    have g2 : i' < i := lt_of (by linarith)
    have g3 : e < i' := lt_of (by linarith)
    have g4 : k - 5 < e := lt_of (by push_cast; linarith)
    have := fitLoop_checks h (t := (k - i).toNat) (by omega) (fun t' ht' hq => by
      rw [nextQ_iter] at hq
      have := qOf_inj hq
      simp only [rotSign] at this
      omega)
    rw [nextQ_iter] at this
    simp only [borderOf, rotSign] at this
    rwa [show k + -1 * (((k - i).toNat : ℕ) : ℤ) = i by omega] at this

/-- Of a full circle all borders are checked. -/
theorem fit_full {rot : Rot} {pa pb ra rb r ma mb : ℝ} {k : ℤ}
    (h : fitLoop rot 5 pa pb ra rb r ma mb 4 (qOf k) (qOf k) = .ok ()) (i : ℤ) :
    BorderOk pa pb ra rb r ma mb i := by
  have h5 : ∀ j, qOf j ≠ 5 := by intro j; unfold qOf; split_ifs <;> decide
  have key : ∀ t : ℕ, t < 4 → BorderOk pa pb ra rb r ma mb (borderOf rot (k + rotSign rot * t)) := by
    intro t ht
    have := fitLoop_checks h ht (fun _ _ => h5 _)
    rwa [nextQ_iter] at this
  have per : ∀ {i j : ℤ}, i % 4 = j % 4 → BorderOk pa pb ra rb r ma mb i →
      BorderOk pa pb ra rb r ma mb j := by
    intro i j h; unfold BorderOk; rw [h]; exact id
  cases rot <;> simp only [rotSign, borderOf] at key
  · exact per (by omega) (key ((i - k - 1) % 4).toNat (by omega))
  · exact per (by omega) (key ((k - i) % 4).toNat (by omega))

/-! ## The check of `_move_circular` -/

variable {plane : Plane} {delta radius pos ce : V4 ℝ} {rot : Rot}

/-- The loop has been passed. -/
theorem circleEnd_fit (h : circleEnd c plane delta radius pos rot = .ok ce) :
    fitLoop rot (if delta.get (axisA plane) = 0 ∧ delta.get (axisB plane) = 0 then 5 else
        quarter (endA plane ce radius) (endB plane ce radius))
      (pos.get (axisA plane)) (pos.get (axisB plane)) (radius.get (axisA plane))
      (radius.get (axisB plane)) (startDist plane radius) (tableSize c (axisA plane))
      (tableSize c (axisB plane)) 4 (quarter (startA plane radius) (startB plane radius))
      (quarter (startA plane radius) (startB plane radius)) = .ok () := by
  have key : ∀ {da db ra rb pa pb ma mb a b : ℝ},
      adjustCircle da db ra rb rot pa pb ma mb = .ok (a, b) →
      fitLoop rot (if da = 0 ∧ db = 0 then 5 else quarter (a - ra) (b - rb)) pa pb ra rb
        (√((-ra) ^ 2 + (-rb) ^ 2)) ma mb 4 (quarter (-ra) (-rb)) (quarter (-ra) (-rb)) = .ok () := by
    intro da db ra rb pa pb ma mb a b h
    rw [neg_sq, neg_sq]
    by_cases h0 : ra ^ 2 + rb ^ 2 = 0
    · exfalso
      unfold adjustCircle at h
      simp only [sqrt_eq, add_eq, mul_eq, ← pow_two, h0, Real.sqrt_zero] at h
      rw [if_pos (by simp)] at h
      cases h
    · rw [adjustCircle_eq h0] at h
      obtain ⟨u, h1, h2⟩ := bindE_ok h
      cases u
      split_ifs at h1 h2 ⊢ with h3
      · exact h1
      · cases h2
        rw [add_sub_cancel_right, add_sub_cancel_right]
        exact h1
  unfold circleEnd at h
  cases plane <;> simp only at h <;>
  · obtain ⟨⟨a, b⟩, h1, h2⟩ := bindE_ok h
    cases h2
    have := key h1
    simp only [ofRat_eq] at this
    simp only [startDist, endA, endB, startA, startB, axisA, axisB, V4.get, tableSize]
    convert this using 2
    split_ifs with hz
    · exact if_pos hz
    · exact if_neg hz

/-- All borders of a programmed full circle have been checked. -/
theorem full_check (h : circleEnd c plane delta radius pos rot = .ok ce)
    (hz : delta.get (axisA plane) = 0 ∧ delta.get (axisB plane) = 0) {ax : Axis}
    (hax : ax = axisA plane ∨ ax = axisB plane) :
    startDist plane radius ≤ pos.get ax + radius.get ax ∧
      pos.get ax + radius.get ax + startDist plane radius ≤ tableSize c ax := by
  have hfit := circleEnd_fit h
  rw [if_pos hz] at hfit
  obtain ⟨k, hk⟩ : ∃ k, quarter (startA plane radius) (startB plane radius) = qOf k := by
    unfold quarter
    split_ifs
    · exact ⟨0, rfl⟩
    · exact ⟨3, rfl⟩
    · exact ⟨2, rfl⟩
    · exact ⟨1, rfl⟩
  rw [hk] at hfit
  rcases hax with rfl | rfl
  · exact ⟨by linarith [(fit_full hfit 3).2.2.2 rfl], (fit_full hfit 1).2.1 rfl⟩
  · exact ⟨by linarith [(fit_full hfit 2).2.2.1 rfl], (fit_full hfit 0).1 rfl⟩

/-- The points of a circle are not farther from its centre than the start. -/
theorem turned_le (plane : Plane) (radius : V4 ℝ) (rot : Rot) (θ : ℝ) (ax : Axis) :
    |turnedOn plane radius rot θ ax| ≤ startDist plane radius := by
  refine Real.abs_le_sqrt ?_
  have hu : (turnSign rot : ℝ) ^ 2 = 1 := by cases rot <;> norm_num [turnSign]
  have hcs := sin_sq_add_cos_sq θ
  unfold turnedOn turnedA turnedB
  generalize startA plane radius = p, startB plane radius = q, turnSign rot = u at *
  have key : (p * cos θ + u * (q * sin θ)) ^ 2 + (q * cos θ - u * (p * sin θ)) ^ 2 = p ^ 2 + q ^ 2 := by
    calc _ = (p ^ 2 + q ^ 2) * (cos θ ^ 2 + u ^ 2 * sin θ ^ 2) := by ring
      _ = _ := by rw [hu, one_mul, add_comm (cos θ ^ 2), hcs, mul_one]
  split_ifs
  · nlinarith [sq_nonneg (q * cos θ - u * (p * sin θ))]
  · nlinarith [sq_nonneg (p * cos θ + u * (q * sin θ))]

omit [PyRound] in
/-- Directions on the circle. -/
theorem turned_dir {φ : ℝ} (a : startA plane radius = startDist plane radius * sin φ)
    (b : startB plane radius = startDist plane radius * cos φ) (θ : ℝ) :
    turnedA plane radius rot θ = startDist plane radius * sin (φ + rotSign rot * θ) ∧
    turnedB plane radius rot θ = startDist plane radius * cos (φ + rotSign rot * θ) := by
  unfold turnedA turnedB
  cases rot
  · simp only [turnSign, rotSign, Int.cast_one, one_mul]
    rw [sin_add, cos_add, a, b]; constructor <;> ring
  · simp only [turnSign, rotSign, Int.cast_neg, Int.cast_one, neg_mul, one_mul]
    rw [sin_add, cos_add, a, b, sin_neg, cos_neg]; constructor <;> ring

omit [PyRound] in
theorem right_angles (i : ℤ) :
    (i % 4 = 0 ∧ sin (i * (π / 2)) = 0 ∧ cos (i * (π / 2)) = 1) ∨
    (i % 4 = 1 ∧ sin (i * (π / 2)) = 1 ∧ cos (i * (π / 2)) = 0) ∨
    (i % 4 = 2 ∧ sin (i * (π / 2)) = 0 ∧ cos (i * (π / 2)) = -1) ∨
    (i % 4 = 3 ∧ sin (i * (π / 2)) = -1 ∧ cos (i * (π / 2)) = 0) := by
  have e : ∀ m : ℕ, i % 4 = m → (i : ℝ) * (π / 2) = m * (π / 2) + (i / 4 : ℤ) * (2 * π) := by
    intro m hm
    have : (i : ℝ) = m + 4 * (i / 4 : ℤ) := by exact_mod_cast (by omega : i = m + 4 * (i / 4))
    rw [this]
    ring
  have h4 : i % 4 = (0 : ℕ) ∨ i % 4 = (1 : ℕ) ∨ i % 4 = (2 : ℕ) ∨ i % 4 = (3 : ℕ) := by omega
  have s3 : sin (3 * (π / 2)) = -1 ∧ cos (3 * (π / 2)) = 0 := by
    rw [show 3 * (π / 2) = π / 2 + π by ring, sin_add_pi, cos_add_pi]; simp
  rcases h4 with h | h | h | h
  · left; rw [e _ h, sin_add_int_mul_two_pi, cos_add_int_mul_two_pi]
    exact ⟨h, by simp, by simp⟩
  · right; left; rw [e _ h, sin_add_int_mul_two_pi, cos_add_int_mul_two_pi]
    exact ⟨h, by simp, by simp⟩
  · right; right; left; rw [e _ h, sin_add_int_mul_two_pi, cos_add_int_mul_two_pi,
      show ((2 : ℕ) : ℝ) * (π / 2) = π by push_cast; ring]
    exact ⟨h, by simp, by simp⟩
  · right; right; right; rw [e _ h, sin_add_int_mul_two_pi, cos_add_int_mul_two_pi]
    exact ⟨h, by exact_mod_cast s3.1, by exact_mod_cast s3.2⟩

omit [PyRound] in
/-- The directions of the axes. -/
theorem axis_dir {x : ℝ} (h : sin x = 0 ∨ cos x = 0) : ∃ i : ℤ, x = i * (π / 2) := by
  rcases h with h | h
  · obtain ⟨n, rfl⟩ := sin_eq_zero_iff.1 h
    exact ⟨2 * n, by push_cast; ring⟩
  · obtain ⟨n, rfl⟩ := cos_eq_zero_iff.1 h
    exact ⟨2 * n + 1, by push_cast; ring⟩

/-- The outermost points of an accepted arc, except for the last, are on the table. -/
theorem arc_check (hA : DecimalStep c (axisA plane)) (hB : DecimalStep c (axisB plane))
    (pA : 0 < c.ppm.get (axisA plane)) (pB : 0 < c.ppm.get (axisB plane))
    (h : circleEnd c plane delta radius pos rot = .ok ce) (rA : OnSteps c radius (axisA plane))
    (rB : OnSteps c radius (axisB plane)) (hE : endDist plane (roundToSteps c ce) radius ≠ 0) {T : ℝ}
    (hT : Sweep plane (roundToSteps c ce) radius rot T) {θ : ℝ} (hθ : 0 < θ)
    (hlast : (delta.get (axisA plane) = 0 ∧ delta.get (axisB plane) = 0) ∨ T < 2 * π ∧ ∃ θ', θ < θ' ∧
      θ' < T ∧ (turnedA plane radius rot θ' = 0 ∨ turnedB plane radius rot θ' = 0)) :
    (0 ≤ pos.get (axisA plane) ∧ pos.get (axisA plane) ≤ tableSize c (axisA plane) →
      turnedB plane radius rot θ = 0 →
      0 ≤ pos.get (axisA plane) + radius.get (axisA plane) + turnedA plane radius rot θ ∧
      pos.get (axisA plane) + radius.get (axisA plane) + turnedA plane radius rot θ ≤
        tableSize c (axisA plane)) ∧
    (0 ≤ pos.get (axisB plane) ∧ pos.get (axisB plane) ≤ tableSize c (axisB plane) →
      turnedA plane radius rot θ = 0 →
      0 ≤ pos.get (axisB plane) + radius.get (axisB plane) + turnedB plane radius rot θ ∧
      pos.get (axisB plane) + radius.get (axisB plane) + turnedB plane radius rot θ ≤
        tableSize c (axisB plane)) := by
  have hfit := circleEnd_fit h
  obtain ⟨h0, -, -, -⟩ := circleEnd_ok h
  have hr : 0 < startDist plane radius := lt_of_le_of_ne (Real.sqrt_nonneg _) (Ne.symm h0)
  have hE' : 0 < endDist plane (roundToSteps c ce) radius :=
    lt_of_le_of_ne (Real.sqrt_nonneg _) (Ne.symm hE)
  have hne : startA plane radius ^ 2 + startB plane radius ^ 2 ≠ 0 := by
    intro h1; apply h0; unfold startDist; rw [h1, Real.sqrt_zero]
  obtain ⟨φ, -, -, -, sA, sB⟩ := angle_spec hne
  change startA plane radius = startDist plane radius * sin φ at sA
  change startB plane radius = startDist plane radius * cos φ at sB
  obtain ⟨tA, tB⟩ := turned_dir (rot := rot) sA sB θ
  have pos_of : ∀ {x y : ℝ}, 0 < y → 0 ≤ y * x → 0 ≤ x := fun {x y} hy h =>
    nonneg_of_mul_nonneg_right h hy
  have neg_of : ∀ {x y : ℝ}, 0 < y → y * x ≤ 0 → x ≤ 0 := fun {x y} hy h => by
    by_contra hc
    push Not at hc
    nlinarith [mul_pos hy hc]
  obtain ⟨k, hk, k1, k2⟩ := quarter_dir (a := startA plane radius) (b := startB plane radius) (x := φ)
    (fun h => pos_of hr (by rwa [← sA])) (fun h => neg_of hr (by rwa [← sA]))
    (fun h => pos_of hr (by rwa [← sB])) (fun h => neg_of hr (by rwa [← sB]))
  rw [hk] at hfit
  -- every outermost point is checked
  have hok : (turnedA plane radius rot θ = 0 ∨ turnedB plane radius rot θ = 0) →
      ∃ i : ℤ, φ + rotSign rot * θ = i * (π / 2) ∧
        BorderOk (pos.get (axisA plane)) (pos.get (axisB plane)) (radius.get (axisA plane))
          (radius.get (axisB plane)) (startDist plane radius) (tableSize c (axisA plane))
          (tableSize c (axisB plane)) i := by
    intro hz
    obtain ⟨i, hi⟩ := axis_dir (x := φ + rotSign rot * θ) (by
      rw [tA, tB] at hz
      rcases hz with hz | hz
      · exact .inl ((mul_eq_zero.1 hz).resolve_left hr.ne')
      · exact .inr ((mul_eq_zero.1 hz).resolve_left hr.ne'))
    refine ⟨i, hi, ?_⟩
    rcases hlast with hfull | ⟨hT2, θ', h1, h2, h3⟩
    · rw [if_pos hfull] at hfit
      exact fit_full hfit i
    · by_cases hfull : delta.get (axisA plane) = 0 ∧ delta.get (axisB plane) = 0
      · rw [if_pos hfull] at hfit
        exact fit_full hfit i
      rw [if_neg hfull] at hfit
      obtain ⟨i', hi'⟩ := axis_dir (x := φ + rotSign rot * θ') (by
        obtain ⟨tA, tB⟩ := turned_dir (rot := rot) sA sB θ'
        rw [tA, tB] at h3
        rcases h3 with hz | hz
        · exact .inl ((mul_eq_zero.1 hz).resolve_left hr.ne')
        · exact .inr ((mul_eq_zero.1 hz).resolve_left hr.ne'))
      obtain ⟨-, -, w1, w2⟩ := hT
      obtain ⟨uA, uB⟩ := turned_dir (rot := rot) sA sB T
      have w1 : endA plane (roundToSteps c ce) radius =
          endDist plane (roundToSteps c ce) radius * sin (φ + rotSign rot * T) := by
        have : endA plane (roundToSteps c ce) radius * startDist plane radius =
            endDist plane (roundToSteps c ce) radius * turnedA plane radius rot T := by
          rw [w1]; unfold turnedA turnSign; rfl
        rw [uA] at this
        apply mul_right_cancel₀ hr.ne'
        rw [this]; ring
      have w2 : endB plane (roundToSteps c ce) radius =
          endDist plane (roundToSteps c ce) radius * cos (φ + rotSign rot * T) := by
        have : endB plane (roundToSteps c ce) radius * startDist plane radius =
            endDist plane (roundToSteps c ce) radius * turnedB plane radius rot T := by
          rw [w2]; unfold turnedB turnSign; rfl
        rw [uB] at this
        apply mul_right_cancel₀ hr.ne'
        rw [this]; ring
      have sign : ∀ {ax : Axis}, DecimalStep c ax → 0 < c.ppm.get ax → OnSteps c radius ax →
          (0 ≤ ce.get ax - radius.get ax → 0 ≤ (roundToSteps c ce).get ax - radius.get ax) ∧
          (ce.get ax - radius.get ax ≤ 0 → (roundToSteps c ce).get ax - radius.get ax ≤ 0) := by
        intro ax hd hp ⟨n, hn⟩
        have hP : (0 : ℝ) < c.ppm.get ax := by exact_mod_cast hp
        have hs : (roundToSteps c ce).get ax * c.ppm.get ax =
            (PyRound.rnd (ce.get ax * c.ppm.get ax) : ℤ) := by
          rw [roundToSteps_decimal hd, div_mul_cancel₀ _ (decimalStep_ppm hd).1]
        constructor
        · intro hle
          refine pos_of hP ?_
          have : n ≤ PyRound.rnd (ce.get ax * c.ppm.get ax) := by
            rw [← rnd_int n]
            refine rnd_mono ?_
            rw [← hn]
            exact mul_le_mul_of_nonneg_right (by linarith) hP.le
          have : (n : ℝ) ≤ (PyRound.rnd (ce.get ax * c.ppm.get ax) : ℤ) := by exact_mod_cast this
          rw [mul_comm, sub_mul, hs, hn]; linarith
        · intro hle
          refine neg_of hP ?_
          have : PyRound.rnd (ce.get ax * c.ppm.get ax) ≤ n := by
            rw [← rnd_int n]
            refine rnd_mono ?_
            rw [← hn]
            exact mul_le_mul_of_nonneg_right (by linarith) hP.le
          have : ((PyRound.rnd (ce.get ax * c.ppm.get ax) : ℤ) : ℝ) ≤ n := by exact_mod_cast this
          rw [mul_comm, sub_mul, hs, hn]; linarith
      obtain ⟨e, he, e1, e2⟩ := quarter_dir (a := endA plane ce radius) (b := endB plane ce radius)
        (x := φ + rotSign rot * T)
        (fun h => pos_of hE' (by rw [← w1]; exact (sign hA pA rA).1 h))
        (fun h => neg_of hE' (by rw [← w1]; exact (sign hA pA rA).2 h))
        (fun h => pos_of hE' (by rw [← w2]; exact (sign hB pB rB).1 h))
        (fun h => neg_of hE' (by rw [← w2]; exact (sign hB pB rB).2 h))
      rw [he] at hfit
      exact fit_borders hfit k1 k2 hT2 e1 e2 hθ hi h1 h2 hi'
  have rbA : |radius.get (axisA plane)| ≤ startDist plane radius := by
    refine Real.abs_le_sqrt ?_
    unfold startA startB; nlinarith [sq_nonneg (radius.get (axisB plane))]
  have rbB : |radius.get (axisB plane)| ≤ startDist plane radius := by
    refine Real.abs_le_sqrt ?_
    unfold startA startB; nlinarith [sq_nonneg (radius.get (axisA plane))]
  obtain ⟨ra1, ra2⟩ := abs_le.1 rbA
  obtain ⟨rb1, rb2⟩ := abs_le.1 rbB
  constructor
  · intro hpA hz
    obtain ⟨i, hi, b0, b1, b2, b3⟩ := hok (.inr hz)
    rw [tB, hi] at hz
    rw [tA, hi]
    rcases right_angles i with ⟨-, -, h2⟩ | ⟨h1, h2, -⟩ | ⟨-, -, h2⟩ | ⟨h1, h2, -⟩
    · rw [h2] at hz; linarith
    · rw [h2, mul_one]; exact ⟨by linarith, b1 h1⟩
    · rw [h2] at hz; linarith
    · rw [h2]; exact ⟨by linarith [b3 h1], by linarith⟩
  · intro hpB hz
    obtain ⟨i, hi, b0, b1, b2, b3⟩ := hok (.inl hz)
    rw [tA, hi] at hz
    rw [tB, hi]
    rcases right_angles i with ⟨h1, -, h2⟩ | ⟨-, h2, -⟩ | ⟨h1, -, h2⟩ | ⟨-, h2, -⟩
    · rw [h2, mul_one]; exact ⟨by linarith, b0 h1⟩
    · rw [h2] at hz; linarith
    · rw [h2]; exact ⟨by linarith [b2 h1], by linarith⟩
    · rw [h2] at hz; linarith

end PyCNC
