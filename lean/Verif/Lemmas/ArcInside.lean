import Verif.Lemmas.Head
import Verif.Lemmas.ArcPath

/-!
# Circular moves stay on the table when their arc does
-/

set_option linter.unusedSectionVars false

namespace PyCNC

open Spec Real

/-- An axis that goes to and fro is never beyond both of its ends, unless it turns round between
them. -/
theorem psi_peak {R : ℤ} (hR : 0 < R) {σ : ℤ} (hσ : σ = 1 ∨ σ = -1) {a b j : ℤ} (h1 : a ≤ j)
    (h2 : j ≤ b) :
    σ * (R * sin (Psi R j)) ≤ σ * (R * sin (Psi R a)) ∨
    σ * (R * sin (Psi R j)) ≤ σ * (R * sin (Psi R b)) ∨
    ∃ i, a < i ∧ i < b ∧ σ * sin (Psi R i) = 1 := by
  have hR' : (0 : ℝ) < R := by exact_mod_cast hR
  have hσσ : (σ : ℝ) * σ = 1 := by rcases hσ with rfl | rfl <;> norm_num
  obtain ⟨k, k1, k2⟩ := unit_half hR j
  have f : ∀ {x : ℤ}, 2 * k * R - R ≤ x → x ≤ 2 * k * R + R →
      R * sin (Psi R x) = sg k * ((x : ℝ) - 2 * k * R) := fun {x} x1 x2 =>
    psi_sin hR' (by exact_mod_cast x1) (by exact_mod_cast x2)
  have top : ∀ {x : ℤ}, 2 * k * R - R ≤ x → x ≤ 2 * k * R + R →
      σ * (sg k * ((x : ℝ) - 2 * k * R)) = R → σ * sin (Psi R x) = 1 := by
    intro x x1 x2 hx
    rw [← f x1 x2] at hx
    have : (R : ℝ) * (σ * sin (Psi R x) - 1) = 0 := by linarith
    rcases mul_eq_zero.1 this with h | h
    · linarith
    · linarith
  have hs : sg k = σ ∨ sg k = -σ := by
    rcases sg_or k with h | h <;> rcases hσ with rfl | rfl <;> simp [h]
  rcases hs with hs | hs
  · -- on the way to the turning point
    rcases le_or_gt b (2 * k * R + R) with hb | hb
    · right; left
      rw [f k1 (by omega), f (by omega) hb, hs, ← mul_assoc, ← mul_assoc, hσσ]
      have : (j : ℝ) ≤ b := by exact_mod_cast h2
      linarith
    · right; right
      refine ⟨2 * k * R + R, by omega, hb, top (by omega) le_rfl ?_⟩
      rw [hs, ← mul_assoc, hσσ]; push_cast; ring
  · -- coming from it
    rcases le_or_gt (2 * k * R - R) a with ha | ha
    · left
      rw [f k1 (by omega), f ha (by omega), hs]
      push_cast
      have : (a : ℝ) ≤ j := by exact_mod_cast h1
      nlinarith
    · rcases (k1.trans h2).lt_or_eq with hb | hb
      · right; right
        refine ⟨2 * k * R - R, ha, hb, top le_rfl (by omega) ?_⟩
        rw [hs]; push_cast
        linear_combination (R : ℝ) * hσσ
      · right; left
        have : j = b := by omega
        rw [this]

variable [PyRound] {c : Cfg}

/-- A track stays on one side of a border that is a whole number of steps away, when its ends and the
points of the circle between them do. -/
theorem Track.border {R u : ℤ} {ψ T r : ℝ} {m : ℕ} (h : Track R u ψ T m) (hr : PyRound.rnd r = R)
    {σ : ℤ} (hσ : σ = 1 ∨ σ = -1) {N : ℤ} (h0 : σ * (R * sin (Psi R u)) ≤ N)
    (hm : σ * (R * sin (Psi R (u + m))) ≤ N)
    (hθ : ∀ θ, 0 < θ → θ < T → σ * sin (ψ + θ) = 1 → σ * (r * sin (ψ + θ)) ≤ N) {k : ℕ} (hk : k ≤ m) :
    σ * (R * sin (Psi R (u + k))) ≤ N := by
  have key := psi_peak h.hR hσ (a := u) (b := u + m) (j := u + k) (by omega) (by omega)
  push_cast at key
  rcases key with key | key | ⟨i, i1, i2, hi⟩
  · exact key.trans h0
  · exact key.trans hm
  · obtain ⟨j, rfl⟩ : ∃ j : ℕ, i = u + j := ⟨(i - u).toNat, by omega⟩
    push_cast at hi
    obtain ⟨a1, a2, -⟩ := h.inside (j := j) (by omega) (by omega)
    have := hθ _ a1 a2 (by rw [show ψ + (Psi R (u + j) - ψ) = Psi R (u + j) by ring]; exact hi)
    rw [show ψ + (Psi R (u + j) - ψ) = Psi R (u + j) by ring,
      show (σ : ℝ) * (r * sin (Psi R (u + j))) = r * (σ * sin (Psi R (u + j))) by ring, hi,
      mul_one] at this
    have hRN : R ≤ N := by
      have := rnd_mono this
      rwa [hr, rnd_int] at this
    have hR := h.R'
    have hs : (σ : ℝ) * sin (Psi R (u + k)) ≤ 1 := by
      rcases hσ with rfl | rfl
      · push_cast; linarith [sin_le_one (Psi R (u + k))]
      · push_cast; linarith [neg_one_le_sin (Psi R (u + k))]
    have : (R : ℝ) ≤ N := by exact_mod_cast hRN
    calc _ = (R : ℝ) * (σ * sin (Psi R (u + k))) := by ring
      _ ≤ R * 1 := mul_le_mul_of_nonneg_left hs hR.le
      _ ≤ N := by linarith

/-- The same for an axis of an arc, both borders. -/
theorem Track.between {R u : ℤ} {rot : Rot} {φ T r : ℝ} {m : ℕ}
    (h : Track R (rotSign rot * u) (rotSign rot * φ) T m) (hr : PyRound.rnd r = R) {C N : ℤ}
    (h0 : 0 ≤ C + R * sin (Psi R (u + rotSign rot * (0 : ℕ))) ∧
      C + R * sin (Psi R (u + rotSign rot * (0 : ℕ))) ≤ N)
    (hm : 0 ≤ C + R * sin (Psi R (u + rotSign rot * m)) ∧ C + R * sin (Psi R (u + rotSign rot * m)) ≤ N)
    (hθ : ∀ θ, 0 < θ → θ < T → cos (φ + rotSign rot * θ) = 0 → 0 ≤ C + r * sin (φ + rotSign rot * θ) ∧
      C + r * sin (φ + rotSign rot * θ) ≤ N) {k : ℕ} (hk : k ≤ m) :
    0 ≤ C + R * sin (Psi R (u + rotSign rot * k)) ∧ C + R * sin (Psi R (u + rotSign rot * k)) ≤ N := by
  obtain ⟨ρ, hρ⟩ : ∃ ρ : ℤ, ρ = rotSign rot := ⟨_, rfl⟩
  have hρ1 : ρ = 1 ∨ ρ = -1 := by rw [hρ]; cases rot <;> simp [rotSign]
  have hρρ : (ρ : ℝ) * ρ = 1 := by rcases hρ1 with h | h <;> rw [h] <;> norm_num
  have hsin : ∀ x : ℝ, sin (ρ * x) = ρ * sin x := by
    intro x; rcases hρ1 with h | h <;> rw [h] <;> simp
  have key : ∀ j : ℝ, R * sin (Psi R (u + rotSign rot * j)) =
      ρ * (R * sin (Psi R ((rotSign rot * u : ℤ) + j))) := by
    intro j
    have := psi_signed h.R' rot u j
    push_cast at this ⊢
    rw [this, ← hρ, hsin]
    linear_combination -(R * sin (Psi R (u + ρ * j))) * hρρ
  have hcirc : ∀ θ : ℝ, r * sin (φ + rotSign rot * θ) = ρ * (r * sin (rotSign rot * φ + θ)) := by
    intro θ
    rw [← hρ, show (φ : ℝ) + ρ * θ = ρ * (ρ * φ + θ) by linear_combination -φ * hρρ, hsin]
    ring
  have hcos : ∀ {θ : ℝ} {σ : ℤ}, σ = 1 ∨ σ = -1 → (σ : ℝ) * sin (rotSign rot * φ + θ) = 1 →
      cos (φ + rotSign rot * θ) = 0 := by
    intro θ σ hσ h
    have e : cos (φ + rotSign rot * θ) = cos (rotSign rot * φ + θ) := by
      rw [← hρ, show (φ : ℝ) + ρ * θ = ρ * (ρ * φ + θ) by linear_combination -φ * hρρ]
      rcases hρ1 with h | h <;> rw [h] <;> simp [← cos_neg (-φ + θ)]
    rw [e]
    have h1 := sin_sq_add_cos_sq ((rotSign rot : ℝ) * φ + θ)
    have h2 : sin ((rotSign rot : ℝ) * φ + θ) ^ 2 = 1 := by
      rcases hσ with rfl | rfl <;> push_cast at h <;> nlinarith
    nlinarith
  rw [key] at h0 hm
  rw [key]
  simp only [hcirc] at hθ
  simp only [Nat.cast_zero, add_zero] at h0
  constructor
  · have := h.border hr (σ := -ρ) (by rcases hρ1 with h | h <;> rw [h] <;> simp) (N := C)
      (by push_cast at h0 ⊢; linarith [h0.1]) (by push_cast at hm ⊢; linarith [hm.1])
      (fun θ t0 t1 h1 => by
        have := (hθ θ t0 t1 (hcos (by rcases hρ1 with h | h <;> rw [h] <;> simp) h1)).1
        push_cast; linarith) hk
    push_cast at this ⊢
    linarith
  · have := h.border hr (σ := ρ) hρ1 (N := N - C)
      (by push_cast at h0 ⊢; linarith [h0.2]) (by push_cast at hm ⊢; linarith [hm.2])
      (fun θ t0 t1 h1 => by have := (hθ θ t0 t1 (hcos hρ1 h1)).2; push_cast; linarith) hk
    push_cast at this ⊢
    linarith

theorem turned_eq {delta radius : V4 ℝ} {plane : Plane} {rot : Rot} {g : CircGen ℝ}
    {R RB A B uA uB : ℤ} {φ : ℝ} (ht : ArcTracks c delta radius plane rot g R RB A B uA uB φ) (θ : ℝ) :
    turnedA plane radius rot θ = startDist plane radius * sin (φ + rotSign rot * θ) ∧
    turnedB plane radius rot θ = startDist plane radius * sin (φ + π / 2 + rotSign rot * θ) := by
  rw [show φ + π / 2 + rotSign rot * θ = (φ + rotSign rot * θ) + π / 2 by ring, sin_add_pi_div_two]
  unfold turnedA turnedB
  cases rot
  · simp only [turnSign, rotSign, Int.cast_one, one_mul]
    rw [sin_add, cos_add, ht.aφ, ht.bφ]; constructor <;> ring
  · simp only [turnSign, rotSign, Int.cast_neg, Int.cast_one, neg_mul, one_mul]
    rw [sin_add, cos_add, ht.aφ, ht.bφ, sin_neg, cos_neg]; constructor <;> ring

/-- The pulses of an arc keep the head on the table, when its start, its end and the outermost points of
the circle on its way are there. -/
theorem arc_table {ax : Axis} (hax : ax ≠ .e) (ht : StepTable c) {g : CircGen ℝ} {radius : V4 ℝ}
    {plane : Plane} (harc : ArcOf c g radius plane) (hpl : ax = axisA plane ∨ ax = axisB plane)
    {a : ℤ} (h00 : 0 ≤ a / (c.ppm.get ax : ℝ) ∧ a / (c.ppm.get ax : ℝ) ≤ tableSize c ax)
    (hin : ∀ T, Sweep plane g.delta radius g.rot T →
      (0 ≤ a / (c.ppm.get ax : ℝ) + g.delta.get ax ∧
        a / (c.ppm.get ax : ℝ) + g.delta.get ax ≤ tableSize c ax) ∧
      ∀ θ, 0 < θ → θ < T → OutermostOn plane radius g.rot θ ax →
        0 ≤ a / (c.ppm.get ax : ℝ) + radius.get ax + turnedOn plane radius g.rot θ ax ∧
        a / (c.ppm.get ax : ℝ) + radius.get ax + turnedOn plane radius g.rot θ ax ≤ tableSize c ax)
    {evs p : List (Event ℝ)} (he : Emits c (.circular g) evs) (hp : p <+: evs) :
    (0 : ℝ) ≤ a + netSteps c ax p ∧ (a + netSteps c ax p : ℝ) ≤ tableSize c ax * c.ppm.get ax := by
  obtain ⟨rot, v, hg, hgrid, hb⟩ := harc
  obtain ⟨R, RB, A, B, uA, uB, φ, hk⟩ := arc_tracks hgrid hg hb
  have hnet := (arc_train hgrid hg hb he hpl).1
  obtain ⟨_, hpos⟩ := ht.step ax hax
  obtain ⟨N, hN⟩ := ht.whole ax hax
  have hN' : (tableSize c ax : ℝ) * c.ppm.get ax = N := by exact_mod_cast hN
  have hP : (0 : ℝ) < c.ppm.get ax := by exact_mod_cast hpos
  have hin := hin _ (by rw [hk.rot_eq]; exact hk.sweep)
  rw [hk.rot_eq] at hin
  obtain ⟨⟨e1, e2⟩, hin⟩ := hin
  obtain ⟨np, rfl⟩ := emits_prefix he hp
  -- the same in steps
  have steps1 : ∀ {x : ℝ}, 0 ≤ a / (c.ppm.get ax : ℝ) + x → 0 ≤ a + x * c.ppm.get ax := by
    intro x hx
    have := mul_nonneg hx hP.le
    rwa [add_mul, div_mul_cancel₀ _ hP.ne'] at this
  have steps2 : ∀ {x : ℝ}, a / (c.ppm.get ax : ℝ) + x ≤ tableSize c ax → a + x * c.ppm.get ax ≤ N := by
    intro x hx
    have := mul_le_mul_of_nonneg_right hx hP.le
    rwa [add_mul, div_mul_cancel₀ _ hP.ne', hN'] at this
  have hne : axisB plane ≠ axisA plane := by cases plane <;> simp [axisA, axisB]
  rw [hN']
  have hr0 : startDist plane radius ≠ 0 := by
    obtain ⟨_, _, hf⟩ := new_facts hg
    have := (angle_ok hf.angS).2.2.2.2
    rw [arcSA_eq, arcSB_eq] at this
    exact this.ne'
  have a1 : (0 : ℝ) ≤ a := by
    have := steps1 (x := 0) (by rw [add_zero]; exact h00.1)
    linarith
  have a2 : (a : ℝ) ≤ N := by
    have := steps2 (x := 0) (by rw [add_zero]; exact h00.2)
    linarith
  obtain ⟨n1, hn1⟩ := he
  have hdone := hn1 n1 le_rfl
  rcases hpl with rfl | rfl
  · have htu : ∀ θ, turnedOn plane radius rot θ (axisA plane) = turnedA plane radius rot θ :=
      fun θ => if_pos rfl
    simp only [htu, add_assoc] at hin
    have hr : radius.get (axisA plane) * c.ppm.get (axisA plane) = -(A : ℝ) := by
      rw [← hk.sA]; unfold startA; ring
    have hpt : ∀ n, ∃ k ≤ g.itA.toNat, (k = 0 ↔ steps (axisA plane) ((Gen.circular g).run c n .init).1 = 0) ∧
        (((Gen.circular g).run c n .init).2 = .done → k = g.itA.toNat) ∧
        a + (netSteps c (axisA plane) ((Gen.circular g).run c n .init).1 : ℝ) =
          ((a - A : ℤ) : ℝ) + R * sin (Psi R (uA + rotSign rot * k)) := by
      intro n
      obtain ⟨k, k1, k2, k3, k4⟩ := hk.posA c n
      refine ⟨k, k1, by rw [k2], k3, ?_⟩
      push_cast
      rw [← k4]; ring
    obtain ⟨k, k1, -, -, k4⟩ := hpt np
    rw [k4]
    refine hk.ta.between hk.rA ?_ ?_ (fun θ t0 t1 hc => ?_) k1
    · obtain ⟨k, k1, k2, -, k4⟩ := hpt 0
      have := k2.2 rfl
      subst this
      rw [← k4]
      have : netSteps c (axisA plane) ((Gen.circular g).run c 0 .init).1 = 0 := rfl
      rw [this]
      push_cast
      constructor <;> linarith
    · obtain ⟨k, k1, -, k3, k4⟩ := hpt n1
      have hd := k3 (by rw [hdone])
      rw [← hd, ← k4, hdone, hnet]
      exact ⟨steps1 e1, steps2 e2⟩
    · obtain ⟨b1, b2⟩ := hin θ t0 t1 (by
        unfold OutermostOn
        rw [if_pos rfl]
        unfold turnedOn
        rw [if_neg hne, (turned_eq hk θ).2,
          show φ + π / 2 + rotSign rot * θ = (φ + rotSign rot * θ) + π / 2 by ring, sin_add_pi_div_two,
          hc, mul_zero])
      have a1 := steps1 b1
      have a2 := steps2 b2
      rw [add_mul, hr, (turned_eq hk θ).1] at a1 a2
      push_cast
      constructor <;> linarith
  · have htu : ∀ θ, turnedOn plane radius rot θ (axisB plane) = turnedB plane radius rot θ :=
      fun θ => if_neg hne
    simp only [htu, add_assoc] at hin
    have hr : radius.get (axisB plane) * c.ppm.get (axisB plane) = -(B : ℝ) := by
      rw [← hk.sB]; unfold startB; ring
    have hpt : ∀ n, ∃ k ≤ g.itB.toNat, (k = 0 ↔ steps (axisB plane) ((Gen.circular g).run c n .init).1 = 0) ∧
        (((Gen.circular g).run c n .init).2 = .done → k = g.itB.toNat) ∧
        a + (netSteps c (axisB plane) ((Gen.circular g).run c n .init).1 : ℝ) =
          ((a - B : ℤ) : ℝ) + RB * sin (Psi RB (uB + rotSign rot * k)) := by
      intro n
      obtain ⟨k, k1, k2, k3, k4⟩ := hk.posB c n
      refine ⟨k, k1, by rw [k2], k3, ?_⟩
      push_cast
      rw [← k4]; ring
    obtain ⟨k, k1, -, -, k4⟩ := hpt np
    rw [k4]
    refine hk.tb.between hk.rB ?_ ?_ (fun θ t0 t1 hc => ?_) k1
    · obtain ⟨k, k1, k2, -, k4⟩ := hpt 0
      have := k2.2 rfl
      subst this
      rw [← k4]
      have : netSteps c (axisB plane) ((Gen.circular g).run c 0 .init).1 = 0 := rfl
      rw [this]
      push_cast
      constructor <;> linarith
    · obtain ⟨k, k1, -, k3, k4⟩ := hpt n1
      have hd := k3 (by rw [hdone])
      rw [← hd, ← k4, hdone, hnet]
      exact ⟨steps1 e1, steps2 e2⟩
    · obtain ⟨b1, b2⟩ := hin θ t0 t1 (by
        unfold OutermostOn
        rw [if_neg hne]
        unfold turnedOn
        rw [if_pos rfl, (turned_eq hk θ).1]
        rw [show φ + π / 2 + rotSign rot * θ = (φ + rotSign rot * θ) + π / 2 by ring,
          cos_add_pi_div_two] at hc
        rw [neg_eq_zero.1 hc, mul_zero])
      have a1 := steps1 b1
      have a2 := steps2 b2
      rw [add_mul, hr, (turned_eq hk θ).2] at a1 a2
      push_cast
      constructor <;> linarith

end PyCNC
