import Verif.Lemmas.ArcRate
import Verif.Spec.ArcPath

/-!
# Where an arc is at a given time
-/

set_option linter.unusedSectionVars false

namespace PyCNC

open Spec Real

/-! ## The distance as a function of time -/

theorem speed_nonneg {k A B t : ℝ} (hk : 0 < k) (h0 : 0 ≤ t) (h1 : t ≤ 2 * A + B) (hA : 0 ≤ A)
    (hB : 0 ≤ B) : 0 ≤ speed k A B t := by
  unfold speed
  refine div_nonneg (mul_nonneg (by norm_num) ?_) hk.le
  rcases le_total t A with h | h
  · rw [pos_of_nonpos (by linarith), pos_of_nonpos (by linarith)]; linarith
  · rw [pos_of_nonneg (by linarith)]
    rcases le_total t (A + B) with h' | h'
    · rw [pos_of_nonpos (by linarith)]; linarith
    · rw [pos_of_nonneg (by linarith)]; linarith

theorem speed_le {k A B t : ℝ} (hk : 0 < k) : speed k A B t ≤ 2 * A / k := by
  unfold speed
  refine div_le_div_of_nonneg_right ?_ hk.le
  have := le_pos (t - A)
  have := pos_nonneg (t - A - B)
  linarith

theorem travel_mono {k A B s t : ℝ} (hk : 0 < k) (hA : 0 ≤ A) (hB : 0 ≤ B) (h0 : 0 ≤ s)
    (hst : s ≤ t) (h1 : t ≤ 2 * A + B) : travel k A B s ≤ travel k A B t := by
  have hm : MonotoneOn (travel k A B) (Set.Icc 0 (2 * A + B)) := by
    refine monotoneOn_of_deriv_nonneg (convex_Icc _ _)
      (fun t _ => (hasDerivAt_travel k A B t).continuousAt.continuousWithinAt)
      (fun t _ => (hasDerivAt_travel k A B t).differentiableAt.differentiableWithinAt) fun t ht => ?_
    rw [interior_Icc, Set.mem_Ioo] at ht
    rw [(hasDerivAt_travel k A B t).deriv]
    exact speed_nonneg hk ht.1.le ht.2.le hA hB
  exact hm ⟨h0, hst.trans h1⟩ ⟨h0.trans hst, h1⟩ hst

theorem travel_nonneg {k A B t : ℝ} (hk : 0 < k) (hA : 0 ≤ A) (hB : 0 ≤ B) (h0 : 0 ≤ t)
    (h1 : t ≤ 2 * A + B) : 0 ≤ travel k A B t := by
  have := travel_mono hk hA hB le_rfl h0 h1
  rwa [travel_zero hA hB] at this

variable [PyRound]

/-! ## Prefixes of the events -/

theorem emits_take {c : Cfg} {g : Gen ℝ} {evs : List (Event ℝ)} (he : Emits c g evs) (n : ℕ) :
    (g.run c n .init).1 = evs.take n := by
  obtain ⟨N, hN⟩ := he
  rw [run_take c g (max n N) .init n (le_max_left n N), hN _ (le_max_right n N)]

/-- Every time is reached. -/
theorem atTime_exists {evs : List (Event ℝ)} (h1 : ∀ ev ∈ evs, ¬ IsDir ev → ∃ τ, StepsAt τ ev)
    (h2 : evs.Pairwise fun e₁ e₂ => ∀ τ₁ τ₂, StepsAt τ₁ e₁ → StepsAt τ₂ e₂ → τ₁ ≤ τ₂) (t : ℝ) :
    ∃ n, AtTime evs t n := by
  have mem : ∀ (l : List (Event ℝ)), (∀ ev ∈ l, ¬ IsDir ev → ∃ τ, StepsAt τ ev) → ∀ ax,
      ∀ τ ∈ stepTimes ax l, ∃ ev ∈ l, StepsAt τ ev := by
    intro l
    induction l with
    | nil => intro _ ax τ hτ; cases hτ
    | cons ev r ih =>
      intro h ax τ hτ
      cases ev with
      | dir d =>
        obtain ⟨ev, he, hs⟩ := ih (fun ev he => h ev (List.mem_cons_of_mem _ he)) ax τ hτ
        exact ⟨ev, List.mem_cons_of_mem _ he, hs⟩
      | pulse w =>
        simp only [stepTimes] at hτ
        split at hτ
        · obtain ⟨ev, he, hs⟩ := ih (fun ev he => h ev (List.mem_cons_of_mem _ he)) ax τ hτ
          exact ⟨ev, List.mem_cons_of_mem _ he, hs⟩
        · next τ' hτ' =>
          rcases List.mem_cons.1 hτ with rfl | hτ
          · obtain ⟨σ, hσ⟩ := h (.pulse w) List.mem_cons_self (fun hd => hd)
            have := hσ.2 ax _ hτ'
            subst this
            exact ⟨_, List.mem_cons_self, hσ⟩
          · obtain ⟨ev, he, hs⟩ := ih (fun ev he => h ev (List.mem_cons_of_mem _ he)) ax τ hτ
            exact ⟨ev, List.mem_cons_of_mem _ he, hs⟩
  induction evs with
  | nil => exact ⟨0, ⟨fun ax τ (hτ : τ ∈ []) => by simp at hτ, fun ax τ (hτ : τ ∈ []) => by simp at hτ⟩⟩
  | cons ev r ih =>
    have h1' := fun e he => h1 e (List.mem_cons_of_mem _ he)
    obtain ⟨n, n1, n2⟩ := ih h1' (List.pairwise_cons.1 h2).2
    cases ev with
    | dir d => exact ⟨n + 1, n1, n2⟩
    | pulse w =>
      obtain ⟨σ, hσ⟩ := h1 (.pulse w) List.mem_cons_self (fun hd => hd)
      rcases le_total σ t with hle | hle
      · refine ⟨n + 1, fun ax τ hτ => ?_, n2⟩
        rw [List.take_succ_cons, stepTimes] at hτ
        split at hτ
        · exact n1 ax τ hτ
        · next τ' hτ' =>
          rcases List.mem_cons.1 hτ with rfl | hτ
          · rw [hσ.2 ax _ hτ']; exact hle
          · exact n1 ax τ hτ
      · refine ⟨0, ⟨fun ax τ (hτ : τ ∈ []) => by simp at hτ, fun ax τ hτ => ?_⟩⟩
        rw [List.drop_zero] at hτ
        obtain ⟨ev, he, hs⟩ := mem _ h1 ax τ hτ
        rcases List.mem_cons.1 he with rfl | he
        · obtain ⟨ax', hax⟩ := hs.1
          rw [hσ.2 ax' τ hax]; exact hle
        · exact hle.trans ((List.pairwise_cons.1 h2).1 ev he σ τ hσ hs)

/-- Every time is reached while an arc is executed. -/
theorem arc_atTime {c : Cfg} {delta radius : V4 ℝ} {plane : Plane} {rot : Rot} {g : CircGen ℝ}
    {R RB A B uA uB : ℤ} {φ : ℝ} (ht : ArcTracks c delta radius plane rot g R RB A B uA uB φ)
    (hb : CircBase c g) (hl : 0 ≤ g.linT) {evs : List (Event ℝ)} (he : Emits c (.circular g) evs)
    (t : ℝ) : ∃ n, AtTime evs t n := by
  obtain ⟨N, hN⟩ := he
  obtain ⟨-, -, t3⟩ := timed_init (arc_timed ht hb hl) N
  have h1 := run_stepsAt c (.circular g) N .init
  rw [hN N le_rfl] at t3 h1
  exact atTime_exists h1 t3 t

section

variable {c : Cfg} {delta radius : V4 ℝ} {plane : Plane} {rot : Rot} {v : ℝ} {g : CircGen ℝ}
  {R RB A B uA uB : ℤ} {φ : ℝ}

/-- The pulses before and after a moment. -/
theorem ArcTracks.moment (ht : ArcTracks c delta radius plane rot g R RB A B uA uB φ)
    (hb : CircBase c g) (hl : 0 ≤ g.linT) {evs : List (Event ℝ)} (he : Emits c (.circular g) evs)
    {n : ℕ} {t : ℝ} (ha : AtTime evs t n) (ax : Axis) :
    (∀ i < steps ax (evs.take n),
      (Gen.circular g).sendTime c (arcPt c rot g R RB uA uB φ ax i) ≤ t) ∧
    (steps ax (evs.take n) < g.totals ax →
      t ≤ (Gen.circular g).sendTime c (arcPt c rot g R RB uA uB φ ax (steps ax (evs.take n)))) := by
  obtain ⟨h1, h2⟩ := ha
  have hn := (timed_init (arc_timed ht hb hl) n).1 ax
  rw [emits_take he n] at hn
  have hall := (ht.times hb hl he ax).2
  refine ⟨fun i hi => h1 ax _ ?_, fun hlt => h2 ax _ ?_⟩
  · rw [hn, List.mem_map]
    exact ⟨i, List.mem_range.2 hi, rfl⟩
  · have hsplit : stepTimes ax evs = stepTimes ax (evs.take n) ++ stepTimes ax (evs.drop n) := by
      rw [← stepTimes_append, List.take_append_drop]
    have hk : (stepTimes ax evs)[steps ax (evs.take n)]? =
        some ((Gen.circular g).sendTime c (arcPt c rot g R RB uA uB φ ax (steps ax (evs.take n)))) := by
      rw [hall, List.getElem?_map, List.getElem?_range hlt]; rfl
    rw [hsplit, List.getElem?_append_right (by exact le_rfl)] at hk
    exact List.mem_of_getElem? hk

/-- The first axis at a moment. -/
theorem ArcTracks.dev_a (ht : ArcTracks c delta radius plane rot g R RB A B uA uB φ)
    (hr : 0 < g.rDivV) {n : ℕ} {θ : ℝ} (h0 : 0 ≤ θ) (hθ : θ ≤ g.deltaAngle)
    (h1 : ∀ i < steps (axisA plane) ((Gen.circular g).run c n .init).1,
      arcPt c rot g R RB uA uB φ (axisA plane) i ≤ g.rDivV * θ)
    (h2 : steps (axisA plane) ((Gen.circular g).run c n .init).1 < g.totals (axisA plane) →
      g.rDivV * θ ≤ arcPt c rot g R RB uA uB φ (axisA plane)
        (steps (axisA plane) ((Gen.circular g).run c n .init).1)) :
    |(A : ℝ) + netSteps c (axisA plane) ((Gen.circular g).run c n .init).1 -
      R * sin (φ + rotSign rot * θ)| ≤ 3 / 2 := by
  obtain ⟨k, hk, hs, -, hp⟩ := ht.posA c n
  have hpl := ht.plane_eq
  have htot : g.totals (axisA plane) = g.itA.toNat := by simp [CircGen.totals, hpl]
  have hpt : ∀ i, arcPt c rot g R RB uA uB φ (axisA plane) i = g.rDivV *
      turnAt R (rotSign rot * uA) (rotSign rot * φ) g.deltaAngle g.itA.toNat i := by
    intro i; simp [arcPt, hpl]
  rw [hs] at h1 h2
  have hdev := ht.ta.dev (k := k) (φ := θ) hk h0 hθ (fun i hi => by
      have := h1 i hi
      rw [hpt] at this
      exact le_of_mul_le_mul_left this hr)
    (fun hkm => by
      have := h2 (by rw [htot]; exact hkm)
      rw [hpt] at this
      exact le_of_mul_le_mul_left this hr)
  rw [hp]
  push_cast at hdev
  rw [psi_signed ht.ta.R'] at hdev
  refine le_trans (le_of_eq ?_) hdev
  cases rot
  · simp [rotSign]
  · simp only [rotSign, Int.cast_neg, Int.cast_one, neg_mul, one_mul]
    rw [show -φ + θ = -(φ + -θ) by ring, sin_neg, sin_neg, ← abs_neg]
    congr 1; ring

/-- The second axis at a moment. -/
theorem ArcTracks.dev_b (ht : ArcTracks c delta radius plane rot g R RB A B uA uB φ)
    (hr : 0 < g.rDivV) {n : ℕ} {θ : ℝ} (h0 : 0 ≤ θ) (hθ : θ ≤ g.deltaAngle)
    (h1 : ∀ i < steps (axisB plane) ((Gen.circular g).run c n .init).1,
      arcPt c rot g R RB uA uB φ (axisB plane) i ≤ g.rDivV * θ)
    (h2 : steps (axisB plane) ((Gen.circular g).run c n .init).1 < g.totals (axisB plane) →
      g.rDivV * θ ≤ arcPt c rot g R RB uA uB φ (axisB plane)
        (steps (axisB plane) ((Gen.circular g).run c n .init).1)) :
    |(B : ℝ) + netSteps c (axisB plane) ((Gen.circular g).run c n .init).1 -
      RB * cos (φ + rotSign rot * θ)| ≤ 3 / 2 := by
  obtain ⟨k, hk, hs, -, hp⟩ := ht.posB c n
  have hpl := ht.plane_eq
  have hne := axisB_ne plane
  have htot : g.totals (axisB plane) = g.itB.toNat := by simp [CircGen.totals, hpl, hne]
  have hpt : ∀ i, arcPt c rot g R RB uA uB φ (axisB plane) i = g.rDivV *
      turnAt RB (rotSign rot * uB) (rotSign rot * (φ + π / 2)) g.deltaAngle g.itB.toNat i := by
    intro i; simp [arcPt, hpl, hne]
  rw [hs] at h1 h2
  have hdev := ht.tb.dev (k := k) (φ := θ) hk h0 hθ (fun i hi => by
      have := h1 i hi
      rw [hpt] at this
      exact le_of_mul_le_mul_left this hr)
    (fun hkm => by
      have := h2 (by rw [htot]; exact hkm)
      rw [hpt] at this
      exact le_of_mul_le_mul_left this hr)
  rw [hp, ← sin_add_pi_div_two]
  push_cast at hdev
  rw [psi_signed ht.tb.R'] at hdev
  refine le_trans (le_of_eq ?_) hdev
  cases rot
  · simp only [rotSign, Int.cast_one, one_mul]
    rw [show φ + θ + π / 2 = φ + π / 2 + θ by ring]
  · simp only [rotSign, Int.cast_neg, Int.cast_one, neg_mul, one_mul]
    rw [show -(φ + π / 2) + θ = -(φ + -θ + π / 2) by ring, sin_neg, sin_neg, ← abs_neg]
    congr 1; ring

/-- Positions on the circle of the steps and on the programmed circle. -/
theorem ArcTracks.near (ht : ArcTracks c delta radius plane rot g R RB A B uA uB φ) {θ x y : ℝ}
    (hx : |(A : ℝ) + x - R * sin (φ + rotSign rot * θ)| ≤ 3 / 2)
    (hy : |(B : ℝ) + y - RB * cos (φ + rotSign rot * θ)| ≤ 3 / 2) :
    |startA plane radius * c.ppm.get (axisA plane) + x -
      turnedA plane radius rot θ * c.ppm.get (axisA plane)| ≤ 2 ∧
    |startB plane radius * c.ppm.get (axisB plane) + y -
      turnedB plane radius rot θ * c.ppm.get (axisB plane)| ≤ 2 := by
  have tA : turnedA plane radius rot θ = startDist plane radius * sin (φ + rotSign rot * θ) := by
    unfold turnedA
    cases rot
    · simp only [turnSign, rotSign, Int.cast_one, one_mul]
      rw [sin_add, ht.aφ, ht.bφ]; ring
    · simp only [turnSign, rotSign, Int.cast_neg, Int.cast_one, neg_mul, one_mul]
      rw [sin_add, ht.aφ, ht.bφ, sin_neg, cos_neg]; ring
  have tB : turnedB plane radius rot θ = startDist plane radius * cos (φ + rotSign rot * θ) := by
    unfold turnedB
    cases rot
    · simp only [turnSign, rotSign, Int.cast_one, one_mul]
      rw [cos_add, ht.aφ, ht.bφ]; ring
    · simp only [turnSign, rotSign, Int.cast_neg, Int.cast_one, neg_mul, one_mul]
      rw [cos_add, ht.aφ, ht.bφ, sin_neg, cos_neg]; ring
  have key : ∀ (d p x y : ℝ) (K : ℤ), PyRound.rnd (d * p) = K → |y| ≤ 1 → |x - K * y| ≤ 3 / 2 →
      |x - d * y * p| ≤ 2 := by
    intro d p x y K hK hy hx
    have hn := PyRound.near (d * p)
    rw [hK] at hn
    have e : x - d * y * p = (x - K * y) + (K - d * p) * y := by ring
    rw [e]
    refine (abs_add_le _ _).trans ?_
    rw [abs_mul]
    nlinarith [abs_nonneg y, abs_nonneg ((K : ℝ) - d * p)]
  rw [tA, tB, ht.sA, ht.sB]
  exact ⟨key _ _ _ _ R ht.rA (abs_sin_le_one _) hx, key _ _ _ _ RB ht.rB (abs_cos_le_one _) hy⟩

/-! ## The way along the circle as a function of time -/

/-- The way along the circle. -/
noncomputable def arcWay (g : CircGen ℝ) (V t : ℝ) : ℝ := V * travel (2 * g.accT) g.accT g.linT t
/-- The speed along the circle. -/
noncomputable def arcPace (g : CircGen ℝ) (V t : ℝ) : ℝ := V * speed (2 * g.accT) g.accT g.linT t

variable {V ρ : ℝ}

theorem FlatArc.motion (h : FlatArc c plane radius v g V ρ) (hl : 0 ≤ g.linT) :
    Motion (V / g.accT) (arcWay g V) (arcPace g V) := by
  have hA := h.accT0
  have hV := h.V0
  refine ⟨fun t => (hasDerivAt_travel _ _ _ t).const_mul V, fun t₁ t₂ => ?_⟩
  unfold arcPace
  rw [← mul_sub, abs_mul, abs_of_pos hV]
  have := speed_lip (k := 2 * g.accT) (A := g.accT) (B := g.linT) (by linarith) hl t₁ t₂
  calc V * _ ≤ V * (2 / (2 * g.accT) * |t₁ - t₂|) := mul_le_mul_of_nonneg_left this hV.le
    _ = _ := by field_simp

theorem FlatArc.total (_ : FlatArc c plane radius v g V ρ) :
    (Gen.circular g).totalTime = 2 * g.accT + g.linT := by
  simp [Gen.totalTime, Gen.accT, Gen.linT]; ring

theorem FlatArc.starts (h : FlatArc c plane radius v g V ρ) (hl : 0 ≤ g.linT) :
    arcWay g V 0 = 0 ∧ arcPace g V 0 = 0 := by
  unfold arcWay arcPace
  rw [travel_zero h.accT0.le hl, speed_zero h.accT0.le hl, mul_zero]
  exact ⟨rfl, rfl⟩

theorem FlatArc.ends (h : FlatArc c plane radius v g V ρ) (hl : 0 ≤ g.linT) :
    arcWay g V (Gen.circular g).totalTime = V * (g.accT + g.linT) ∧
    arcPace g V (Gen.circular g).totalTime = 0 := by
  have hA := h.accT0
  unfold arcWay arcPace
  rw [h.total, travel_end (by linarith) hA.le hl (.inl rfl), speed_end hA.le hl, mul_zero]
  refine ⟨?_, rfl⟩
  field_simp

theorem FlatArc.pace (h : FlatArc c plane radius v g V ρ) (hl : 0 ≤ g.linT) {t : ℝ} (h0 : 0 ≤ t)
    (h1 : t ≤ (Gen.circular g).totalTime) : 0 ≤ arcPace g V t ∧ arcPace g V t ≤ V := by
  have hA := h.accT0
  have hV := h.V0
  rw [h.total] at h1
  refine ⟨mul_nonneg hV.le (speed_nonneg (by linarith) h0 h1 hA.le hl), ?_⟩
  have := speed_le (k := 2 * g.accT) (A := g.accT) (B := g.linT) (t := t) (by linarith)
  rw [div_self (by positivity)] at this
  unfold arcPace
  nlinarith

/-- Both motors at a moment, on an arc of any length: after the whole turn they rest at its end. -/
theorem FlatArc.at_time_min (h : FlatArc c plane radius v g V ρ) (hb : CircBase c g) (hl : 0 ≤ g.linT)
    (ht : ArcTracks c delta radius plane rot g R RB A B uA uB φ) {evs : List (Event ℝ)}
    (he : Emits c (.circular g) evs) {n : ℕ} {t : ℝ} (h0 : 0 ≤ t)
    (hT : t ≤ (Gen.circular g).totalTime) (ha : AtTime evs t n) :
    |startA plane radius * c.ppm.get (axisA plane) + netSteps c (axisA plane) (evs.take n) -
      turnedA plane radius rot (min (arcWay g V t / ρ) g.deltaAngle) * c.ppm.get (axisA plane)| ≤ 2 ∧
    |startB plane radius * c.ppm.get (axisB plane) + netSteps c (axisB plane) (evs.take n) -
      turnedB plane radius rot (min (arcWay g V t / ρ) g.deltaAngle) * c.ppm.get (axisB plane)| ≤ 2 := by
  have hA := h.accT0
  have hV := h.V0
  have hρ := h.ρ0
  have hr : 0 < g.rDivV := by rw [h.rdv]; positivity
  have htm := arc_timed ht hb hl
  have hT' := hT
  rw [h.total] at hT'
  have e1 : 2 * (g.accT * g.accT / (2 * g.accT)) = g.accT := by field_simp
  have eθ : g.rDivV * (arcWay g V t / ρ) = travel (2 * g.accT) g.accT g.linT t := by
    rw [h.rdv]; unfold arcWay; field_simp
  have h0' : 0 ≤ arcWay g V t / ρ :=
    div_nonneg (mul_nonneg hV.le (travel_nonneg (by linarith) hA.le hl h0 hT')) hρ.le
  have h0m : 0 ≤ min (arcWay g V t / ρ) g.deltaAngle := le_min h0' h.T0.le
  have eM : g.rDivV * min (arcWay g V t / ρ) g.deltaAngle =
      min (travel (2 * g.accT) g.accT g.linT t) (g.rDivV * g.deltaAngle) := by
    rw [mul_min_of_nonneg _ _ hr.le, eθ]
  have hpl := ht.plane_eq
  have fits : ∀ ax, (ax = axisA plane ∨ ax = axisB plane) → ∀ i < g.totals ax,
      arcPt c rot g R RB uA uB φ ax i ≤ g.rDivV * g.deltaAngle := by
    intro ax hax i hi
    rcases hax with rfl | rfl
    · rw [arcPt, if_pos (by rw [hpl])]
      refine mul_le_mul_of_nonneg_left (ht.ta.turn_le ?_) hr.le
      simpa [CircGen.totals, hpl] using hi
    · rw [arcPt, if_neg (by rw [hpl]; exact axisB_ne _), if_pos (by rw [hpl])]
      refine mul_le_mul_of_nonneg_left (ht.tb.turn_le ?_) hr.le
      simpa [CircGen.totals, hpl, axisB_ne] using hi
  have sides : ∀ ax, (ax = axisA plane ∨ ax = axisB plane) →
      (∀ i < steps ax (evs.take n), arcPt c rot g R RB uA uB φ ax i ≤
        min (travel (2 * g.accT) g.accT g.linT t) (g.rDivV * g.deltaAngle)) ∧
      (steps ax (evs.take n) < g.totals ax →
        min (travel (2 * g.accT) g.accT g.linT t) (g.rDivV * g.deltaAngle) ≤
        arcPt c rot g R RB uA uB φ ax (steps ax (evs.take n))) := by
    intro ax hax
    obtain ⟨m1, m2⟩ := ht.moment hb hl he ha ax
    have hle : steps ax (evs.take n) ≤ g.totals ax := by
      rw [← emits_take he n]; exact (circ_steps c g n ax).1
    have inv : ∀ i < g.totals ax, travel (2 * g.accT) g.accT g.linT
        ((Gen.circular g).sendTime c (arcPt c rot g R RB uA uB φ ax i)) =
        arcPt c rot g R RB uA uB φ ax i := fun i hi => by
      unfold Gen.sendTime
      rw [h.kA]
      exact travel_warp (by linarith) hA.le hl (.inl rfl) (htm.nonneg ax i hi)
        (by rw [e1]; exact (fits ax hax i hi).trans h.fits)
    have nn : ∀ i < g.totals ax,
        0 ≤ (Gen.circular g).sendTime c (arcPt c rot g R RB uA uB φ ax i) := fun i hi =>
      warp_nonneg hb.k hb.acc hl (htm.nonneg ax i hi)
    have tt : ∀ i < g.totals ax,
        (Gen.circular g).sendTime c (arcPt c rot g R RB uA uB φ ax i) ≤ 2 * g.accT + g.linT :=
      fun i hi => warp_le_total hb.k hb.acc hl (htm.nonneg ax i hi)
    refine ⟨fun i hi => ?_, fun hlt => ?_⟩
    · refine le_min ?_ (fits ax hax i (by omega))
      rw [← inv i (by omega)]
      exact travel_mono (by linarith) hA.le hl (nn i (by omega)) (m1 i hi) hT'
    · refine (min_le_left _ _).trans ?_
      rw [← inv _ hlt]
      exact travel_mono (by linarith) hA.le hl h0 (m2 hlt) (tt _ hlt)
  obtain ⟨a1, a2⟩ := sides _ (.inl rfl)
  obtain ⟨b1, b2⟩ := sides _ (.inr rfl)
  rw [← emits_take he n, ← eM] at a1 a2 b1 b2
  have hdA := ht.dev_a hr h0m (min_le_right _ _) a1 a2
  have hdB := ht.dev_b hr h0m (min_le_right _ _) b1 b2
  rw [emits_take he n] at hdA hdB
  exact ht.near hdA hdB

/-- Both motors at a moment. -/
theorem FlatArc.at_time (h : FlatArc c plane radius v g V ρ) (hb : CircBase c g) (hl : 0 ≤ g.linT)
    (ht : ArcTracks c delta radius plane rot g R RB A B uA uB φ) {evs : List (Event ℝ)}
    (he : Emits c (.circular g) evs) {n : ℕ} {t : ℝ} (h0 : 0 ≤ t)
    (hT : t ≤ (Gen.circular g).totalTime) (hw : arcWay g V t ≤ g.deltaAngle * ρ)
    (ha : AtTime evs t n) :
    |startA plane radius * c.ppm.get (axisA plane) + netSteps c (axisA plane) (evs.take n) -
      turnedA plane radius rot (arcWay g V t / ρ) * c.ppm.get (axisA plane)| ≤ 2 ∧
    |startB plane radius * c.ppm.get (axisB plane) + netSteps c (axisB plane) (evs.take n) -
      turnedB plane radius rot (arcWay g V t / ρ) * c.ppm.get (axisB plane)| ≤ 2 := by
  have hθ : arcWay g V t / ρ ≤ g.deltaAngle := by rw [div_le_iff₀ h.ρ0]; exact hw
  have := h.at_time_min hb hl ht he h0 hT ha
  rwa [min_eq_left hθ] at this

/-- The radius of the circle of the steps. -/
theorem FlatArc.radius_near (h : FlatArc c plane radius v g V ρ) (hp : ∀ ax, 0 < c.ppm.get ax) :
    |ρ - startDist plane radius| ≤ 1 / 2 / coarse c plane := by
  have key : ∀ p : ℚ, 0 < p → ρ * p = PyRound.rnd (startDist plane radius * p) →
      |ρ - startDist plane radius| ≤ 1 / 2 / p := fun p hp e => by
    have hp : (0 : ℝ) < p := by exact_mod_cast hp
    have := PyRound.near (startDist plane radius * p)
    rw [← e, ← sub_mul, abs_mul, abs_of_pos hp] at this
    rw [le_div_iff₀ hp]
    exact this
  unfold coarse
  rcases min_choice (c.ppm.get (axisA plane)) (c.ppm.get (axisB plane)) with hx | hx <;> rw [hx]
  · exact key _ (hp _) h.ppmA
  · exact key _ (hp _) h.ppmB

/-- Long arcs reach their speed. -/
theorem FlatArc.long (h : FlatArc c plane radius v g V ρ) {T : ℝ} (hTT : g.deltaAngle = T)
    (hρ : startDist plane radius - 1 / 2 / coarse c plane ≤ ρ)
    (hlong : (v / 60 + 1 / 10 ^ 10) ^ 2 ≤
      c.accel * (T * (startDist plane radius - 1 / 2 / coarse c plane))) :
    V / g.accT = c.accel ∧ V * (g.accT + g.linT) = T * ρ := by
  have ha := h.a0
  have hV := h.V0
  have hT0 := h.T0
  rw [hTT] at hT0
  have hf := h.feed
  have hsq : V ^ 2 ≤ (v / 60 + 1 / 10 ^ 10) ^ 2 := by gcongr
  have hle : V ^ 2 / c.accel ≤ T * ρ := by
    rw [div_le_iff₀ ha]
    have : c.accel * (T * (startDist plane radius - 1 / 2 / coarse c plane)) ≤ c.accel * (T * ρ) := by
      gcongr
    linarith
  rcases h.shape with ⟨-, h2, h3⟩ | ⟨h1, -, -⟩
  · rw [h2, h3, hTT]
    constructor <;> field_simp
    ring
  · rw [hTT] at h1; linarith

end

end PyCNC
