import Verif.Lemmas.Angle64

/-!
# The order of the angles of points on steps in binary64
-/

set_option linter.unusedSectionVars false

namespace PyCNC

open Spec

variable [PyRound]

/-- The cosines of two points of a quarter that are not in the same direction. -/
theorem cos_gap {a b a' b' : ℤ} (ha : 0 ≤ a) (hb : 0 ≤ b) (ha' : 0 ≤ a') (hb' : 0 ≤ b')
    (hx : b' * a < b * a') (hs : √((a : ℝ) ^ 2 + (b : ℝ) ^ 2) ≤ 10001)
    (hs' : √((a' : ℝ) ^ 2 + (b' : ℝ) ^ 2) ≤ 10001) :
    b' / √((a' : ℝ) ^ 2 + (b' : ℝ) ^ 2) + 4 / 10 ^ 13 ≤ b / √((a : ℝ) ^ 2 + (b : ℝ) ^ 2) := by
  have hb1 : 1 ≤ b := by
    by_contra hc
    have : b = 0 := by omega
    rw [this, zero_mul] at hx
    exact absurd (mul_nonneg hb' ha) (by omega)
  have ha1 : 1 ≤ a' := by
    by_contra hc
    have : a' = 0 := by omega
    rw [this, mul_zero] at hx
    exact absurd (mul_nonneg hb' ha) (by omega)
  have ra : (0 : ℝ) ≤ a := by exact_mod_cast ha
  have rb : (1 : ℝ) ≤ b := by exact_mod_cast hb1
  have ra' : (1 : ℝ) ≤ a' := by exact_mod_cast ha1
  have rb' : (0 : ℝ) ≤ b' := by exact_mod_cast hb'
  have rx : (b' : ℝ) * a + 1 ≤ b * a' := by exact_mod_cast hx
  have h2 : √((a : ℝ) ^ 2 + (b : ℝ) ^ 2) ^ 2 = (a : ℝ) ^ 2 + (b : ℝ) ^ 2 := Real.sq_sqrt (by positivity)
  have h2' : √((a' : ℝ) ^ 2 + (b' : ℝ) ^ 2) ^ 2 = (a' : ℝ) ^ 2 + (b' : ℝ) ^ 2 :=
    Real.sq_sqrt (by positivity)
  have h0 : 0 < √((a : ℝ) ^ 2 + (b : ℝ) ^ 2) := Real.sqrt_pos.2 (by positivity)
  have h0' : 0 < √((a' : ℝ) ^ 2 + (b' : ℝ) ^ 2) := Real.sqrt_pos.2 (by positivity)
  have hb0 : b' = 0 ∨ (1 : ℝ) ≤ b' := by
    rcases hb'.lt_or_eq with h | h
    · right; exact_mod_cast h
    · exact .inl h.symm
  generalize √((a : ℝ) ^ 2 + (b : ℝ) ^ 2) = ρ at *
  generalize √((a' : ℝ) ^ 2 + (b' : ℝ) ^ 2) = ρ' at *
  -- the product is at least one of the distances
  have hm : ρ ≤ b * a' + b' * a ∨ ρ' ≤ b * a' + b' * a := by
    rcases hb0 with h | h
    · right
      rw [h] at h2' ⊢
      have : ρ' = a' := by
        refine (pow_left_inj₀ h0'.le (by linarith) two_ne_zero).1 ?_
        rw [h2']; push_cast; ring
      rw [this]; push_cast; nlinarith
    · left
      have : ρ ≤ a + b := abs_le_of_sq_le_sq' (by nlinarith) (by positivity) |>.2
      nlinarith
  have hprod : ρ ^ 2 * ρ' ^ 2 * (9 / 10 ^ 13) ≤ b * a' + b' * a := by
    have k1 : ρ * ρ' ^ 2 ≤ 10001 ^ 3 := by
      calc ρ * ρ' ^ 2 ≤ 10001 * 10001 ^ 2 := by gcongr
        _ = 10001 ^ 3 := by norm_num
    have k2 : ρ ^ 2 * ρ' ≤ 10001 ^ 3 := by
      calc ρ ^ 2 * ρ' ≤ 10001 ^ 2 * 10001 := by gcongr
        _ = 10001 ^ 3 := by norm_num
    have k3 : (10001 : ℝ) ^ 3 * (9 / 10 ^ 13) ≤ 1 := by norm_num
    rcases hm with h | h
    · refine le_trans ?_ h
      have : ρ * (ρ * ρ' ^ 2 * (9 / 10 ^ 13)) ≤ ρ * 1 := by
        gcongr
        exact le_trans (by gcongr) k3
      nlinarith
    · refine le_trans ?_ h
      have : ρ' * (ρ ^ 2 * ρ' * (9 / 10 ^ 13)) ≤ ρ' * 1 := by
        gcongr
        exact le_trans (by gcongr) k3
      nlinarith
  -- the difference of the squares
  have hsq : (b' / ρ') ^ 2 + 9 / 10 ^ 13 ≤ (b / ρ) ^ 2 := by
    have e : (b / ρ) ^ 2 - (b' / ρ') ^ 2 =
        ((b * a' - b' * a) * (b * a' + b' * a)) / (ρ ^ 2 * ρ' ^ 2) := by
      rw [div_pow, div_pow, div_sub_div _ _ (by positivity) (by positivity), h2, h2']
      congr 1
      ring
    have : 9 / 10 ^ 13 ≤ (b / ρ) ^ 2 - (b' / ρ') ^ 2 := by
      rw [e, le_div_iff₀ (by positivity)]
      have hm0 : 0 ≤ (b : ℝ) * a' + b' * a := by positivity
      nlinarith
    linarith
  have hc0 : 0 ≤ b / ρ := by positivity
  have hc1 : b / ρ ≤ 1 := by
    rw [div_le_one h0]
    exact abs_le_of_sq_le_sq' (by nlinarith) h0.le |>.2
  have hc0' : 0 ≤ b' / ρ' := by positivity
  generalize (b : ℝ) / ρ = c at *
  generalize (b' : ℝ) / ρ' = c' at *
  have hle : c' ≤ c := abs_le_of_sq_le_sq' (by linarith) hc0 |>.2
  have := mul_nonneg (sub_nonneg.2 hle) (show 0 ≤ 2 - (c + c') by linarith)
  linarith

theorem arccos_gap {x y δ : ℝ} (hx : |x| ≤ 1) (hy : |y| ≤ 1) (hδ : 0 ≤ δ) (h : x + δ ≤ y) :
    Real.arccos y + δ ≤ Real.arccos x := by
  obtain ⟨x1, x2⟩ := abs_le.1 hx
  obtain ⟨y1, y2⟩ := abs_le.1 hy
  have h1 := Real.abs_cos_sub_cos_le (Real.arccos y) (Real.arccos x)
  rw [Real.cos_arccos x1 x2, Real.cos_arccos y1 y2, abs_of_nonneg (by linarith), abs_sub_comm] at h1
  have h2 := Real.arccos_le_arccos (show x ≤ y by linarith)
  rw [abs_of_nonneg (by linarith)] at h1
  linarith

/-- Points of one quarter: the computed angles are in the right order. -/
theorem angles_order64 {p : ℝ} {a b a' b' φ φ' : F64} {A B A' B' q : ℤ} (h : Pt64 p a b A B)
    (h' : Pt64 p a' b' A' B') (hs : Signs q A B) (hs' : Signs q A' B') (hx : A * B' < A' * B)
    (hφ : angle a b = .ok φ) (hφ' : angle a' b' = .ok φ') : φ.1 + 1 / 10 ^ 13 ≤ φ'.1 := by
  obtain ⟨l1, e⟩ := angle64_eq h.ne
  obtain ⟨l1', e'⟩ := angle64_eq h'.ne
  rw [hφ] at e
  rw [hφ'] at e'
  have e := Except.ok.inj e
  have e' := Except.ok.inj e'
  have hc := abs_le.1 h.cos_near
  have hc' := abs_le.1 h'.cos_near
  have hz := h.size
  have hz' := h'.size
  have hpi := Real.pi_lt_four
  have hl := halfPi_lo
  have hu := halfPi_hi
  have near : ∀ x : F64, |(PyNum.acos x).1 - Real.arccos x.1| ≤ 4 / 10 ^ 15 := fun x => by
    rw [val_acos]
    have := fl_near (Real.arccos x.1)
    rw [abs_of_nonneg (Real.arccos_nonneg _)] at this
    have := Real.arccos_le_pi x.1
    linarith
  have n := abs_le.1 (near (cosQ a b))
  have n' := abs_le.1 (near (cosQ a' b'))
  -- on the right
  have right : 0 ≤ A → 0 ≤ A' → B' / √((A' : ℝ) ^ 2 + (B' : ℝ) ^ 2) + 4 / 10 ^ 13 ≤
      B / √((A : ℝ) ^ 2 + (B : ℝ) ^ 2) → φ.1 + 1 / 10 ^ 13 ≤ φ'.1 := by
    intro hA hA' hg
    have i1 : ¬ (a <ₚ zeroF) = true := by
      rw [lt64_iff, val_zero, not_lt]
      rcases hA.lt_or_eq with hA | hA
      · exact (h.a_sign.1 hA).le
      · exact (h.a_zero hA.symm).ge
    have i2 : ¬ (a' <ₚ zeroF) = true := by
      rw [lt64_iff, val_zero, not_lt]
      rcases hA'.lt_or_eq with hA | hA
      · exact (h'.a_sign.1 hA).le
      · exact (h'.a_zero hA.symm).ge
    rw [e, e', if_neg i1, if_neg i2]
    have := arccos_gap (δ := 29 / 10 ^ 14) l1' l1 (by norm_num) (by linarith)
    linarith
  -- on the left
  have left : A ≤ 0 → A' ≤ 0 → B / √((A : ℝ) ^ 2 + (B : ℝ) ^ 2) + 4 / 10 ^ 13 ≤
      B' / √((A' : ℝ) ^ 2 + (B' : ℝ) ^ 2) → (A = 0 → (cosQ a b).1 = -1) →
      (A' = 0 → (cosQ a' b').1 = -1) → φ.1 + 1 / 10 ^ 13 ≤ φ'.1 := by
    intro hA hA' hg b1 b2
    have val : ∀ {a b φ : F64} {A : ℤ}, A ≤ 0 → (A < 0 → a.1 < 0) → (A = 0 → a.1 = 0) →
        (A = 0 → (cosQ a b).1 = -1) →
        φ = (if a <ₚ zeroF then PyNum.ofRat 2 *ₚ PyNum.pi -ₚ PyNum.acos (cosQ a b)
          else PyNum.acos (cosQ a b)) → |φ.1 - (4 * halfPi - (PyNum.acos (cosQ a b)).1)| ≤ 7 / 10 ^ 15 := by
      intro a b φ A hA s0 s1 s2 hv
      rcases hA.lt_or_eq with hA | hA
      · rw [hv, if_pos (by rw [lt64_iff, val_zero]; exact s0 hA), val_sub, full64]
        have m := abs_le.1 (near (cosQ a b))
        have m0 := Real.arccos_nonneg (cosQ a b).1
        have m1 := Real.arccos_le_pi (cosQ a b).1
        have := fl_near (4 * halfPi - (PyNum.acos (cosQ a b)).1)
        have hb : |4 * halfPi - (PyNum.acos (cosQ a b)).1| ≤ 7 := by
          rw [abs_le]; constructor <;> linarith
        linarith
      · have hc := s2 hA
        have hy : (PyNum.acos (cosQ a b)).1 = 2 * halfPi := by
          rw [val_acos, hc, Real.arccos_neg_one, pi64]
        rw [hv, if_neg (by rw [lt64_iff, val_zero, s1 hA]; exact lt_irrefl _), hy,
          show 2 * halfPi - (4 * halfPi - 2 * halfPi) = 0 by ring, abs_zero]
        norm_num
    have v := abs_le.1 (val hA h.a_sign.2 h.a_zero b1 e)
    have v' := abs_le.1 (val hA' h'.a_sign.2 h'.a_zero b2 e')
    have := arccos_gap (δ := 29 / 10 ^ 14) l1 l1' (by norm_num) (by linarith)
    linarith
  have bottom : ∀ {a b : F64} {A B : ℤ}, Pt64 p a b A B → A = 0 → B < 0 → (cosQ a b).1 = -1 := by
    intro a b A B h hA hB
    have ha := h.a_zero hA
    have e : (PyNum.sqrt (a *ₚ a +ₚ b *ₚ b)).1 = |b.1| := by
      rw [val_sqrt, val_add, val_mul, val_mul, ha, mul_zero, fl_zero, zero_add, fl_idem, fl_sqrt_sq b.2]
    unfold cosQ
    have := h.b_sign.2 hB
    rw [val_div, e, abs_of_neg this, div_neg, div_self this.ne, fl_neg_rep fl_one]
  rcases hs with ⟨rfl, s1, s2⟩ | ⟨rfl, s1, s2⟩ | ⟨rfl, s1, s2⟩ | ⟨rfl, s1, s2⟩ <;>
    rcases hs' with ⟨hq, t1, t2⟩ | ⟨hq, t1, t2⟩ | ⟨hq, t1, t2⟩ | ⟨hq, t1, t2⟩ <;>
    first
      | (exfalso; omega)
      | clear hq
  · exact right s1 t1 (cos_gap s1 s2.le t1 t2.le (by linarith) hz hz')
  · refine right s1.le t1.le ?_
    have := cos_gap (a := A') (b := -B') (a' := A) (b' := -B) (by omega) (by omega) (by omega) (by omega)
      (by linarith) (by push_cast; rw [neg_sq]; exact hz') (by push_cast; rw [neg_sq]; exact hz)
    push_cast at this
    rw [neg_sq, neg_sq, neg_div, neg_div] at this
    linarith
  · refine left s1 t1 ?_ (fun h0 => bottom h h0 s2) (fun h0 => bottom h' h0 t2)
    have := cos_gap (a := -A) (b := -B) (a' := -A') (b' := -B') (by omega) (by omega) (by omega)
      (by omega) (by linarith) (by push_cast; rw [neg_sq, neg_sq]; exact hz)
      (by push_cast; rw [neg_sq, neg_sq]; exact hz')
    push_cast at this
    rw [neg_sq, neg_sq, neg_sq, neg_sq, neg_div, neg_div] at this
    linarith
  · refine left s1.le t1.le ?_ (fun h0 => by omega) (fun h0 => by omega)
    have := cos_gap (a := -A') (b := B') (a' := -A) (b' := B) (by omega) (by omega) (by omega)
      (by omega) (by linarith) (by push_cast; rw [neg_sq]; exact hz')
      (by push_cast; rw [neg_sq]; exact hz)
    push_cast at this
    rw [neg_sq, neg_sq] at this
    linarith

end PyCNC
