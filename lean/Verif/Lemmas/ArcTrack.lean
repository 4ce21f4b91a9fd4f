import Verif.Lemmas.Track
import Verif.Lemmas.ArcNet

/-!
# The two axes of an arc follow tracks
-/

set_option linter.unusedSectionVars false
set_option linter.unnecessarySeqFocus false
set_option linter.unusedTactic false
set_option linter.unreachableTactic false

namespace PyCNC

open Spec Real

/-! ## Folding -/

/-- The position `p`, and the side of the circle, after the distance `u`. -/
def Folded (R e u p : ℤ) (side : Bool) : Prop :=
  ∃ k : ℤ, u = 2 * k * R + sg k * p ∧ (side = true ↔ sg k = e)

theorem helper_fold {R e s d i u : ℤ} {side : Bool} {σ k₀ : ℤ} (he : e = 1 ∨ e = -1)
    (hu : u = 2 * k₀ * R + sg k₀ * s) (hside : side = true ↔ sg k₀ = e) (hd : d = σ * sg k₀) :
    Folded R e (u + σ * i) (circularHelper s i R side d).1 (circularHelper s i R side d).2.2 := by
  obtain ⟨n1, d1, b1, n2, d2, b2, n3, d3, b3, hh, c1, c2, c3⟩ := helper_cases s R d side i
  rw [hh]
  simp only
  have up : ∀ (k n : ℤ) (b : Bool), u + σ * i = 2 * k * R + sg k * n → (b = true ↔ sg k = e) →
      ∃ k', u + σ * i = 2 * k' * R + sg k' * (2 * R - n) ∧ ((!b) = true ↔ sg k' = e) := by
    intro k n b h1 h2
    rcases sg_or k with h | h
    · refine ⟨k + 1, ?_, ?_⟩
      · rw [sg_succ, h1, h]; ring
      · rw [sg_succ, h]; rw [h] at h2; cases b <;> simp at h2 ⊢ <;> omega
    · refine ⟨k - 1, ?_, ?_⟩
      · rw [sg_pred, h1, h]; ring
      · rw [sg_pred, h]; rw [h] at h2; cases b <;> simp at h2 ⊢ <;> omega
  have down : ∀ (k n : ℤ) (b : Bool), u + σ * i = 2 * k * R + sg k * n → (b = true ↔ sg k = e) →
      ∃ k', u + σ * i = 2 * k' * R + sg k' * (-2 * R - n) ∧ ((!b) = true ↔ sg k' = e) := by
    intro k n b h1 h2
    rcases sg_or k with h | h
    · refine ⟨k - 1, ?_, ?_⟩
      · rw [sg_pred, h1, h]; ring
      · rw [sg_pred, h]; rw [h] at h2; cases b <;> simp at h2 ⊢ <;> omega
    · refine ⟨k + 1, ?_, ?_⟩
      · rw [sg_succ, h1, h]; ring
      · rw [sg_succ, h]; rw [h] at h2; cases b <;> simp at h2 ⊢ <;> omega
  have h0 : u + σ * i = 2 * k₀ * R + sg k₀ * (s + d * i) := by
    rw [hu, hd]
    have := sg_sq k₀
    linear_combination (-(σ * i)) * this
  have h1 : ∃ k, u + σ * i = 2 * k * R + sg k * n1 ∧ (b1 = true ↔ sg k = e) := by
    rcases c1 with ⟨_, rfl, _, rfl⟩ | ⟨_, rfl, _, rfl⟩
    · exact up _ _ _ h0 hside
    · exact ⟨k₀, h0, hside⟩
  obtain ⟨k1, h1, h1'⟩ := h1
  have h2 : ∃ k, u + σ * i = 2 * k * R + sg k * n2 ∧ (b2 = true ↔ sg k = e) := by
    rcases c2 with ⟨_, rfl, _, rfl⟩ | ⟨_, rfl, _, rfl⟩
    · exact down _ _ _ h1 h1'
    · exact ⟨k1, h1, h1'⟩
  obtain ⟨k2, h2, h2'⟩ := h2
  rcases c3 with ⟨_, rfl, _, rfl⟩ | ⟨_, rfl, _, rfl⟩
  · exact up _ _ _ h2 h2'
  · exact ⟨k2, h2, h2'⟩

/-- Where the axes are. -/
theorem Folded.point {R e u p : ℤ} {side : Bool} (h : Folded R e u p side) (hR : 0 < R)
    (he : e = 1 ∨ e = -1) (h1 : -R ≤ p) (h2 : p ≤ R) :
    (p : ℝ) = R * sin (Psi R u) ∧
    (if side then (e : ℝ) else -e) * √((R : ℝ) ^ 2 - (p : ℝ) ^ 2) = R * cos (Psi R u) := by
  obtain ⟨k, rfl, hk⟩ := h
  have hR' : (0 : ℝ) < R := by exact_mod_cast hR
  have h1' : -(R : ℝ) ≤ p := by exact_mod_cast h1
  have h2' : (p : ℝ) ≤ R := by exact_mod_cast h2
  have hs := sgr_sq k
  have b1 : 2 * (k : ℝ) * R - R ≤ ((2 * k * R + sg k * p : ℤ) : ℝ) := by
    push_cast; rcases sg_or k with h | h <;> rw [h] <;> push_cast <;> linarith
  have b2 : ((2 * k * R + sg k * p : ℤ) : ℝ) ≤ 2 * (k : ℝ) * R + R := by
    push_cast; rcases sg_or k with h | h <;> rw [h] <;> push_cast <;> linarith
  rw [psi_sin hR' b1 b2, psi_cos hR' b1 b2]
  push_cast
  have e1 : 2 * (k : ℝ) * R + sg k * p - 2 * k * R = sg k * p := by ring
  rw [e1, mul_pow, show (sg k : ℝ) ^ 2 = 1 by rw [pow_two]; exact hs, one_mul]
  refine ⟨by linear_combination (-(p : ℝ)) * hs, ?_⟩
  congr 1
  by_cases hside : side = true
  · rw [if_pos hside, hk.1 hside]
  · rw [if_neg hside]
    have : sg k ≠ e := fun h => hside (hk.2 h)
    have : sg k = -e := by rcases sg_or k with h | h <;> omega
    rw [this]; push_cast; ring

/-! ## Near a point of the track -/

/-- The point at the distance `u` is the one next to the angle `ψ`. -/
def NearTo (R u : ℤ) (ψ : ℝ) : Prop :=
  Psi R (u - 1) < ψ ∧ ψ < Psi R (u + 1) ∧ |R * sin (Psi R u) - R * sin ψ| ≤ 1 / 2

theorem NearTo.shift {R u : ℤ} {ψ : ℝ} (hR : 0 < R) (h : NearTo R u ψ) (w : ℤ) :
    NearTo R (u + 4 * w * R) (ψ + 2 * w * π) := by
  have hR' : (0 : ℝ) < R := by exact_mod_cast hR
  obtain ⟨h1, h2, h3⟩ := h
  unfold NearTo
  push_cast
  have e1 := psi_turn hR' ((u : ℝ) - 1) w
  have e2 := psi_turn hR' ((u : ℝ) + 1) w
  have e3 := psi_turn hR' (u : ℝ) w
  rw [show (u : ℝ) + 4 * w * R - 1 = u - 1 + 4 * w * R by ring, e1,
    show (u : ℝ) + 4 * w * R + 1 = u + 1 + 4 * w * R by ring, e2, e3]
  have s : ∀ x : ℝ, sin (x + 2 * w * π) = sin x := fun x => by
    have := sin_add_int_mul_two_pi x w
    rw [← this]; congr 1; ring
  rw [s, s]
  exact ⟨by linarith, by linarith, h3⟩

theorem NearTo.neg {R u : ℤ} {ψ : ℝ} (hR : 0 < R) (h : NearTo R u ψ) : NearTo R (-u) (-ψ) := by
  have hR' : (0 : ℝ) < R := by exact_mod_cast hR
  obtain ⟨h1, h2, h3⟩ := h
  unfold NearTo
  push_cast
  rw [show -(u : ℝ) - 1 = -(u + 1) by ring, show -(u : ℝ) + 1 = -(u - 1) by ring, psi_neg hR',
    psi_neg hR', psi_neg hR', sin_neg, sin_neg]
  refine ⟨by linarith, by linarith, ?_⟩
  rw [← abs_neg]
  have : -(R * -sin (Psi R u) - R * -sin ψ) = R * sin (Psi R u) - (R : ℝ) * sin ψ := by ring
  rw [this]; exact h3

/-- The sign of the sense of rotation. -/
def rotSign : Rot → ℤ
  | .cw => 1
  | .ccw => -1

theorem rotSign_or (rot : Rot) : rotSign rot = 1 ∨ rotSign rot = -1 := by cases rot <;> simp [rotSign]

theorem NearTo.signed {R u : ℤ} {ψ : ℝ} (hR : 0 < R) (h : NearTo R u ψ) (rot : Rot) :
    NearTo R (rotSign rot * u) (rotSign rot * ψ) := by
  cases rot
  · simpa [rotSign] using h
  · simpa [rotSign] using h.neg hR

/-- A track from its two ends. -/
theorem track_of {R u ue it : ℤ} {ψ ψe T : ℝ} {rot : Rot} (hR : 0 < R) (hT : 0 < T)
    (hT2 : T ≤ 2 * π) (h0 : 0 ≤ it) (h4 : it ≤ 4 * R) (hs : NearTo R u ψ) (he : NearTo R ue ψe)
    {w : ℤ} (hu : u + rotSign rot * it = ue + 4 * w * R) (hψ : ψ + rotSign rot * T = ψe + 2 * w * π) :
    Track R (rotSign rot * u) (rotSign rot * ψ) T it.toNat := by
  have s2 : rotSign rot * rotSign rot = 1 := by cases rot <;> rfl
  have s2' : (rotSign rot : ℝ) * rotSign rot = 1 := by exact_mod_cast s2
  have hm : ((it.toNat : ℕ) : ℝ) = it := by
    have : ((it.toNat : ℕ) : ℤ) = it := by omega
    exact_mod_cast this
  obtain ⟨a1, a2, a3⟩ := hs.signed hR rot
  have hz := (he.shift hR w).signed hR rot
  rw [← hu, ← hψ] at hz
  have e1 : rotSign rot * (u + rotSign rot * it) = rotSign rot * u + it := by
    linear_combination it * s2
  have e2 : (rotSign rot : ℝ) * (ψ + rotSign rot * T) = rotSign rot * ψ + T := by
    linear_combination T * s2'
  rw [e1, e2] at hz
  obtain ⟨b1, b2, b3⟩ := hz
  push_cast at a1 a2 a3 b1 b2 b3
  refine ⟨hR, hT, hT2, by omega, ?_, ?_, ?_, ?_, ?_, ?_⟩ <;> (try rw [hm]) <;> push_cast <;> assumption

/-! ## Distances travelled -/

/-- The half turn of the first axis in a quarter. -/
def halfA (q : ℤ) : ℤ := if q = 0 then 0 else if q = 1 ∨ q = 2 then 1 else 2

/-- The half turn of the second axis in a quarter. -/
def halfB (q : ℤ) : ℤ := if q = 0 ∨ q = 1 then 1 else 2

theorem near_a {q A B R : ℤ} {r φ : ℝ} (hs : Signs q A B) (hR : 0 < R) (hr : |r - R| ≤ 1 / 2)
    (hA : -R ≤ A ∧ A ≤ R) (hr0 : 0 < r) (h1 : (q : ℝ) * (π / 2) ≤ φ)
    (h2 : φ < ((q : ℝ) + 1) * (π / 2)) (hsin : (A : ℝ) = r * sin φ) : NearTo R (unrollA R q A) φ := by
  have hpi := pi_pos
  have hk : unrollA R q A = 2 * halfA q * R + sg (halfA q) * A := by
    unfold unrollA halfA
    split_ifs <;> simp [sg] <;> ring
  have hab : |((sg (halfA q) * A : ℤ) : ℝ)| = |(A : ℝ)| := by
    push_cast
    rcases sg_or (halfA q) with h | h <;> rw [h] <;> simp
  have hx : |sg (halfA q) * A| ≤ R := by
    rw [abs_le]; rcases sg_or (halfA q) with h | h <;> rw [h] <;> omega
  have hsin1 := abs_sin_le_one φ
  have key := near_psi (R := R) (x := sg (halfA q) * A) (k := halfA q) (r := r) (φ := φ) hR hr hx
    (by rw [hab, hsin, abs_mul, abs_of_pos hr0]; nlinarith) hr0 ?_ ?_ ?_
  · rw [hk]
    unfold NearTo
    push_cast at key ⊢
    exact key
  · unfold halfA
    rcases hs with ⟨rfl, _⟩ | ⟨rfl, _⟩ | ⟨rfl, _⟩ | ⟨rfl, _⟩ <;> norm_num at h1 h2 ⊢ <;> linarith
  · unfold halfA
    rcases hs with ⟨rfl, _⟩ | ⟨rfl, _⟩ | ⟨rfl, _⟩ | ⟨rfl, _⟩ <;> norm_num at h1 h2 ⊢ <;> linarith
  · push_cast
    have := sgr_sq (halfA q)
    rw [← hsin]; linear_combination (-(A : ℝ)) * this

theorem near_b {q A B R : ℤ} {r φ : ℝ} (hs : Signs q A B) (hR : 0 < R) (hr : |r - R| ≤ 1 / 2)
    (hB : -R ≤ B ∧ B ≤ R) (hr0 : 0 < r) (h1 : (q : ℝ) * (π / 2) ≤ φ)
    (h2 : φ < ((q : ℝ) + 1) * (π / 2)) (hcos : (B : ℝ) = r * cos φ) :
    NearTo R (unrollB R q B + R) (φ + π / 2) := by
  have hpi := pi_pos
  have hk : unrollB R q B + R = 2 * halfB q * R + sg (halfB q) * B := by
    unfold unrollB halfB
    split_ifs <;> simp [sg] <;> ring
  have hab : |((sg (halfB q) * B : ℤ) : ℝ)| = |(B : ℝ)| := by
    push_cast
    rcases sg_or (halfB q) with h | h <;> rw [h] <;> simp
  have hx : |sg (halfB q) * B| ≤ R := by
    rw [abs_le]; rcases sg_or (halfB q) with h | h <;> rw [h] <;> omega
  have hcos1 := abs_cos_le_one φ
  have key := near_psi (R := R) (x := sg (halfB q) * B) (k := halfB q) (r := r) (φ := φ + π / 2) hR hr hx
    (by rw [hab, hcos, abs_mul, abs_of_pos hr0]; nlinarith) hr0 ?_ ?_ ?_
  · rw [hk]
    unfold NearTo
    push_cast at key ⊢
    exact key
  · unfold halfB
    rcases hs with ⟨rfl, _⟩ | ⟨rfl, _⟩ | ⟨rfl, _⟩ | ⟨rfl, _⟩ <;> norm_num at h1 h2 ⊢ <;> linarith
  · unfold halfB
    rcases hs with ⟨rfl, _⟩ | ⟨rfl, _⟩ | ⟨rfl, _⟩ | ⟨rfl, _⟩ <;> norm_num at h1 h2 ⊢ <;> linarith
  · push_cast
    have := sgr_sq (halfB q)
    rw [sin_add_pi_div_two, ← hcos]; linear_combination (-(B : ℝ)) * this

/-- The start of the first axis. -/
theorem fold_start_a {q A B R : ℤ} {rot : Rot} (hR : 0 < R) (hs : Signs q A B) (hB : B = 0 → A = R ∨ A = -R)
    {side : Bool} (hside : side = (decide (B < 0) || (decide (B = 0) && decide (dirB rot q A < 0)))) :
    ∃ k, unrollA R q A = 2 * k * R + sg k * A ∧ (side = true ↔ sg k = -1) ∧
      dirA rot q B = rotSign rot * sg k := by
  subst hside
  by_cases h0 : B = 0
  · rcases hB h0 with rfl | rfl
    · rcases hs with ⟨rfl, s1, s2⟩ | ⟨rfl, s1, s2⟩ | ⟨rfl, s1, s2⟩ | ⟨rfl, s1, s2⟩ <;>
        (try omega) <;> cases rot
      · exact ⟨1, by simp [unrollA, sg] <;> ring, by simp [h0, dirB, sg], by simp [dirA, sg, rotSign]⟩
      · exact ⟨0, by simp [unrollA, sg] <;> ring, by simp [h0, dirB, sg], by simp [dirA, h0, sg, rotSign]⟩
    · rcases hs with ⟨rfl, s1, s2⟩ | ⟨rfl, s1, s2⟩ | ⟨rfl, s1, s2⟩ | ⟨rfl, s1, s2⟩ <;>
        (try omega) <;> cases rot
      · exact ⟨2, by simp [unrollA, sg] <;> ring, by simp [h0, dirB, sg], by simp [dirA, sg, rotSign]⟩
      · exact ⟨1, by simp [unrollA, sg] <;> ring, by simp [h0, dirB, sg], by simp [dirA, h0, sg, rotSign]⟩
  · rcases hs with ⟨rfl, s1, s2⟩ | ⟨rfl, s1, s2⟩ | ⟨rfl, s1, s2⟩ | ⟨rfl, s1, s2⟩
    · exact ⟨0, by simp [unrollA, sg], by simp [h0, sg]; omega, by cases rot <;> simp [dirA, h0, sg, rotSign]⟩
    · exact ⟨1, by simp [unrollA, sg] <;> ring, by simp [h0, sg]; omega, by cases rot <;> simp [dirA, h0, sg, rotSign]⟩
    · exact ⟨1, by simp [unrollA, sg] <;> ring, by simp [h0, sg]; omega, by cases rot <;> simp [dirA, sg, rotSign]⟩
    · exact ⟨2, by simp [unrollA, sg] <;> ring, by simp [h0, sg]; omega, by cases rot <;> simp [dirA, h0, sg, rotSign]⟩

/-- The start of the second axis. -/
theorem fold_start_b {q A B R : ℤ} {rot : Rot} (hR : 0 < R) (hs : Signs q A B) (hA : A = 0 → B = R ∨ B = -R)
    {side : Bool} (hside : side = (decide (A < 0) || (decide (A = 0) && decide (dirA rot q B < 0)))) :
    ∃ k, unrollB R q B + R = 2 * k * R + sg k * B ∧ (side = true ↔ sg k = 1) ∧
      dirB rot q A = rotSign rot * sg k := by
  subst hside
  by_cases h0 : A = 0
  · rcases hA h0 with rfl | rfl
    · rcases hs with ⟨rfl, s1, s2⟩ | ⟨rfl, s1, s2⟩ | ⟨rfl, s1, s2⟩ | ⟨rfl, s1, s2⟩ <;>
        (try omega) <;> cases rot
      · exact ⟨1, by simp [unrollB, sg] <;> ring, by simp [h0, dirA, sg], by simp [dirB, sg, rotSign]⟩
      · exact ⟨0, by simp [unrollB, sg], by simp [h0, dirA, sg], by simp [dirB, h0, sg, rotSign]⟩
    · rcases hs with ⟨rfl, s1, s2⟩ | ⟨rfl, s1, s2⟩ | ⟨rfl, s1, s2⟩ | ⟨rfl, s1, s2⟩ <;>
        (try omega) <;> cases rot
      · exact ⟨2, by simp [unrollB, sg] <;> ring, by simp [h0, dirA, sg], by simp [dirB, sg, rotSign]⟩
      · exact ⟨1, by simp [unrollB, sg] <;> ring, by simp [h0, dirA, sg], by simp [dirB, h0, sg, rotSign]⟩
  · rcases hs with ⟨rfl, s1, s2⟩ | ⟨rfl, s1, s2⟩ | ⟨rfl, s1, s2⟩ | ⟨rfl, s1, s2⟩
    · exact ⟨1, by simp [unrollB, sg] <;> ring, by simp [h0, sg]; omega, by cases rot <;> simp [dirB, h0, sg, rotSign]⟩
    · exact ⟨1, by simp [unrollB, sg] <;> ring, by simp [h0, sg]; omega, by cases rot <;> simp [dirB, sg, rotSign]⟩
    · exact ⟨2, by simp [unrollB, sg] <;> ring, by simp [h0, sg]; omega, by cases rot <;> simp [dirB, h0, sg, rotSign]⟩
    · exact ⟨2, by simp [unrollB, sg] <;> ring, by simp [h0, sg]; omega, by cases rot <;> simp [dirB, sg, rotSign]⟩

end PyCNC
