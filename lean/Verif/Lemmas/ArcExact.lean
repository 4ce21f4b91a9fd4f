import Verif.Lemmas.ArcNew

/-!
# Circular generators in exact arithmetic
-/

set_option linter.unusedSectionVars false

namespace PyCNC

open Spec Real

variable [PyRound]

theorem angle_ne {a b φ : ℝ} (h : angle a b = .ok φ) : a ^ 2 + b ^ 2 ≠ 0 := by
  intro h0
  have ha : a = 0 := by nlinarith [sq_nonneg a, sq_nonneg b]
  have hb : b = 0 := by nlinarith [sq_nonneg a, sq_nonneg b]
  subst ha hb
  unfold angle at h
  have : pdiv (0 : ℝ) (PyNum.sqrt ((0 : ℝ) *ₚ 0 +ₚ (0 : ℝ) *ₚ 0)) = .error .zeroDiv := by
    unfold pdiv; simp
  rw [this] at h
  cases h

/-- The angle the program computes. -/
theorem angle_ok {a b φ : ℝ} (h : angle a b = .ok φ) : 0 ≤ φ ∧ φ < 2 * π ∧
    a = √(a ^ 2 + b ^ 2) * sin φ ∧ b = √(a ^ 2 + b ^ 2) * cos φ ∧ 0 < √(a ^ 2 + b ^ 2) := by
  have hne := angle_ne h
  obtain ⟨ψ, h1, h2⟩ := angle_spec hne
  rw [h] at h1
  cases h1
  exact ⟨h2.1, h2.2.1, h2.2.2.1, h2.2.2.2, Real.sqrt_pos.2 (lt_of_le_of_ne (by positivity) (Ne.symm hne))⟩

theorem arcQuarter_signs {a b : ℝ} (hne : a ^ 2 + b ^ 2 ≠ 0) {p q : ℝ} (hp : 0 < p) (hq : 0 < q)
    {A B : ℤ} (hA : a * p = A) (hB : b * q = B) : Signs (arcQuarter a b) A B := by
  have hA0 : 0 ≤ A ↔ 0 ≤ a := by
    rw [← Int.cast_nonneg_iff (R := ℝ), ← hA]; exact mul_nonneg_iff_of_pos_right hp
  have hA1 : 0 < A ↔ 0 < a := by
    rw [← Int.cast_pos (R := ℝ), ← hA]; exact mul_pos_iff_of_pos_right hp
  have hB0 : 0 ≤ B ↔ 0 ≤ b := by
    rw [← Int.cast_nonneg_iff (R := ℝ), ← hB]; exact mul_nonneg_iff_of_pos_right hq
  have hB1 : 0 < B ↔ 0 < b := by
    rw [← Int.cast_pos (R := ℝ), ← hB]; exact mul_pos_iff_of_pos_right hq
  unfold Signs
  rcases arcQuarter_cases a b with h | h | h | h <;> rw [h]
  · obtain ⟨h1, h2⟩ := arcQuarter_zero h
    have := hA0.2 h1; have := hB1.2 h2; omega
  · obtain ⟨h1, h2⟩ := arcQuarter_one h
    have := hA1.2 h1; have := mt hB1.1 (not_lt.2 h2); omega
  · obtain ⟨h1, h2⟩ := arcQuarter_two h
    have := mt hA1.1 (not_lt.2 h1); have := mt hB0.1 (not_le.2 h2); omega
  · obtain ⟨h1, h2⟩ := arcQuarter_three hne h
    have := mt hA0.1 (not_le.2 h1); have := hB0.2 h2; omega

/-- The directions at the start. -/
theorem startDirs_eq {a b r φ : ℝ} (hr : 0 < r) (h0 : 0 ≤ φ) (h2 : φ < 2 * π)
    (ha : a = r * sin φ) (hb : b = r * cos φ) {p q : ℝ} (hp : 0 < p) (hq : 0 < q)
    {A B : ℤ} (hA : a * p = A) (hB : b * q = B) (rot : Rot) :
    startDirs rot φ = (dirA rot (arcQuarter a b) B, dirB rot (arcQuarter a b) A) := by
  have hpi := pi_pos
  obtain ⟨l, u⟩ := quarter_range hr h0 h2 ha hb
  have hA0 : A = 0 ↔ sin φ = 0 := by
    rw [← Int.cast_eq_zero (α := ℝ), ← hA, ha]
    simp [hr.ne', hp.ne']
  have hB0 : B = 0 ↔ cos φ = 0 := by
    rw [← Int.cast_eq_zero (α := ℝ), ← hB, hb]
    simp [hr.ne', hq.ne']
  cases rot with
  | cw =>
    unfold startDirs dirA dirB
    simp only [pi_eq, ofRat_eq, div_eq, mul_eq, Bool.and_eq_true, le_iff, lt_iff, Rat.cast_ofNat]
    rcases arcQuarter_cases a b with h | h | h | h <;> rw [h] at l u ⊢ <;> push_cast at l u
    · rw [if_neg (by rintro ⟨h, _⟩; linarith), if_neg (by linarith)]; simp
    · rw [if_pos ⟨by linarith, by linarith⟩, if_neg (by linarith)]; simp
    · rw [if_pos ⟨by linarith, by linarith⟩, if_pos (by linarith)]; simp
    · rw [if_neg (by rintro ⟨_, h⟩; linarith), if_pos (by linarith)]; simp
  | ccw =>
    unfold startDirs dirA dirB
    simp only [pi_eq, ofRat_eq, div_eq, mul_eq, Bool.and_eq_true, Bool.or_eq_true, le_iff, lt_iff,
      Rat.cast_ofNat, zeroF_eq]
    rcases arcQuarter_cases a b with h | h | h | h <;> rw [h] at l u ⊢ <;> push_cast at l u
    · have : 0 < φ ↔ A ≠ 0 := by
        rw [Ne, hA0]
        constructor
        · intro hp h; exact (sin_pos_of_pos_of_lt_pi hp (by linarith)).ne' h
        · intro hn; refine lt_of_le_of_ne h0 fun h => hn ?_
          rw [← h, sin_zero]
      rw [if_pos (.inl (by linarith))]
      by_cases hz : A = 0
      · rw [if_neg (fun h => this.1 h.1 hz)]; simp [hz]
      · rw [if_pos ⟨this.2 hz, by linarith⟩]; simp [hz]
    · have : φ ≤ π / 2 ↔ B = 0 := by
        rw [hB0]
        constructor
        · intro hp
          have : φ = π / 2 := by linarith
          rw [this, cos_pi_div_two]
        · intro hn
          by_contra hc
          have := cos_neg_of_pi_div_two_lt_of_lt (not_le.1 hc) (by linarith)
          linarith
      rw [if_pos (c := 0 < φ ∧ _) ⟨by linarith, by linarith⟩]
      by_cases hz : B = 0
      · rw [if_pos (.inl (this.2 hz))]; simp [hz]
      · rw [if_neg (by rintro (h | h) <;> [exact hz (this.1 h); linarith])]; simp [hz]
    · have : φ ≤ π ↔ A = 0 := by
        rw [hA0]
        constructor
        · intro hp
          have : φ = π := by linarith
          rw [this, sin_pi]
        · intro hn
          by_contra hc
          have := sin_neg_of_neg_of_neg_pi_lt (x := φ - 2 * π) (by linarith) (by linarith)
          rw [sin_sub_two_pi] at this
          linarith
      rw [if_neg (by rintro (h | h) <;> linarith)]
      by_cases hz : A = 0
      · rw [if_pos ⟨by linarith, this.2 hz⟩]; simp [hz]
      · rw [if_neg (fun h => hz (this.1 h.2))]; simp [hz]
    · have : 3 * π / 2 < φ ↔ B ≠ 0 := by
        rw [Ne, hB0]
        constructor
        · intro hp h
          have := cos_pos_of_mem_Ioo (x := φ - 2 * π) ⟨by linarith, by linarith⟩
          rw [cos_sub_two_pi] at this
          linarith
        · intro hn
          refine lt_of_le_of_ne (by linarith) fun h => hn ?_
          rw [← h, show 3 * π / 2 = π / 2 + π by ring, cos_add_pi, cos_pi_div_two, neg_zero]
      rw [if_neg (c := 0 < φ ∧ _) (by rintro ⟨_, h⟩; linarith)]
      by_cases hz : B = 0
      · rw [if_neg (by rintro (h | h) <;> [linarith; exact this.1 h hz])]; simp [hz]
      · rw [if_pos (.inr (this.2 hz))]; simp [hz]

/-! ## Two points of one quarter -/

theorem mono_first {a b a' b' : ℝ} (h1 : 0 ≤ a) (h2 : 0 < b) (h3 : 0 ≤ a') (h4 : 0 < b')
    (hx : a * b' < a' * b) (hl : a ^ 2 + b ^ 2 = a' ^ 2 + b' ^ 2) : a ≤ a' ∧ b' ≤ b := by
  constructor
  · by_contra hc
    push Not at hc
    have : b < b' := by nlinarith
    nlinarith
  · by_contra hc
    push Not at hc
    have : a' < a := by nlinarith
    nlinarith

theorem mono_firstZ {a b a' b' : ℤ} (h1 : 0 ≤ a) (h2 : 0 < b) (h3 : 0 ≤ a') (h4 : 0 < b')
    (hx : a * b' < a' * b)
    (hl : |√((a : ℝ) ^ 2 + (b : ℝ) ^ 2) - √((a' : ℝ) ^ 2 + (b' : ℝ) ^ 2)| ≤ 1) : a ≤ a' ∧ b' ≤ b := by
  have key : ∀ x y : ℤ, 0 ≤ x → 0 < y →
      √((x : ℝ) ^ 2 + (y : ℝ) ^ 2) + 1 < √(((x : ℝ) + 1) ^ 2 + ((y : ℝ) + 1) ^ 2) := by
    intro x y hx hy
    have hx' : (0 : ℝ) ≤ x := by exact_mod_cast hx
    have hy' : (0 : ℝ) < y := by exact_mod_cast hy
    refine Real.lt_sqrt_of_sq_lt ?_
    have hs : √((x : ℝ) ^ 2 + (y : ℝ) ^ 2) ^ 2 = (x : ℝ) ^ 2 + (y : ℝ) ^ 2 := Real.sq_sqrt (by positivity)
    have hle : √((x : ℝ) ^ 2 + (y : ℝ) ^ 2) ≤ x + y := Real.sqrt_le_iff.2 ⟨by positivity, by nlinarith⟩
    nlinarith
  have mono : ∀ x y x' y' : ℤ, 0 ≤ x → 0 ≤ y → x + 1 ≤ x' → y + 1 ≤ y' →
      √(((x : ℝ) + 1) ^ 2 + ((y : ℝ) + 1) ^ 2) ≤ √((x' : ℝ) ^ 2 + (y' : ℝ) ^ 2) := by
    intro x y x' y' hx hy h h'
    have hx' : (0 : ℝ) ≤ x := by exact_mod_cast hx
    have hy' : (0 : ℝ) ≤ y := by exact_mod_cast hy
    have e1 : (x : ℝ) + 1 ≤ x' := by exact_mod_cast h
    have e2 : (y : ℝ) + 1 ≤ y' := by exact_mod_cast h'
    gcongr
  rw [abs_le] at hl
  constructor
  · by_contra hc
    push Not at hc
    have : b' < b := by
      by_contra hb
      nlinarith
    have := key a' b' h3 h4
    have := mono a' b' a b h3 h4.le hc (by omega)
    linarith [hl.2]
  · by_contra hc
    push Not at hc
    have haa : a < a' := by
      by_contra hb
      nlinarith
    have := key a b h1 h2
    have := mono a b a' b' h1 h2.le haa hc
    linarith [hl.1]

/-- The later of two points of one quarter is further along on both axes. -/
theorem unroll_mono {q R RB A B EA EB : ℤ} (hs : Signs q A B)
    (he : Signs q EA EB)
    (H : ∀ x y x' y' : ℤ, 0 ≤ x → 0 < y → 0 ≤ x' → 0 < y' →
      ((x, y, x', y') = (A, B, EA, EB) ∨ (x, y, x', y') = (-B, A, -EB, EA) ∨
       (x, y, x', y') = (-A, -B, -EA, -EB) ∨ (x, y, x', y') = (B, -A, EB, -EA)) → x ≤ x' ∧ y' ≤ y) :
    |A - EA| = unrollA R q EA - unrollA R q A ∧ |B - EB| = unrollB RB q EB - unrollB RB q B := by
  have habs : ∀ x : ℤ, (0 ≤ x → |x| = x) ∧ (x ≤ 0 → |x| = -x) := fun x =>
    ⟨abs_of_nonneg, abs_of_nonpos⟩
  have h1 := habs (A - EA)
  have h2 := habs (B - EB)
  generalize |A - EA| = u at *
  generalize |B - EB| = w at *
  rcases hs with ⟨rfl, s1, s2⟩ | ⟨rfl, s1, s2⟩ | ⟨rfl, s1, s2⟩ | ⟨rfl, s1, s2⟩ <;>
    rcases he with ⟨h, e1, e2⟩ | ⟨h, e1, e2⟩ | ⟨h, e1, e2⟩ | ⟨h, e1, e2⟩ <;> (try omega)
  · have := H A B EA EB s1 s2 e1 e2 (.inl rfl)
    simp only [unrollA, unrollB]; norm_num; omega
  · have := H (-B) A (-EB) EA (by omega) s1 (by omega) e1 (.inr (.inl rfl))
    simp only [unrollA, unrollB]; norm_num; omega
  · have := H (-A) (-B) (-EA) (-EB) (by omega) (by omega) (by omega) (by omega)
      (.inr (.inr (.inl rfl)))
    simp only [unrollA, unrollB]; norm_num; omega
  · have := H B (-A) EB (-EA) (by omega) (by omega) (by omega) (by omega)
      (.inr (.inr (.inr rfl)))
    simp only [unrollA, unrollB]; norm_num; omega

/-! ## The numbers of pulses -/

/-- The integers that describe an arc whose points lie on steps. -/
structure ArcInts (sa sb ea eb p q : ℝ) (R RB A B EA EB : ℤ) : Prop where
  hp : 0 < p
  hq : 0 < q
  hA : sa * p = A
  hB : sb * q = B
  hEA : ea * p = EA
  hEB : eb * q = EB
  rA : -R ≤ A ∧ A ≤ R
  rB : -RB ≤ B ∧ B ≤ RB
  rEA : -R ≤ EA ∧ EA ≤ R
  rEB : -RB ≤ EB ∧ EB ≤ RB
  eA : B = 0 → A = R ∨ A = -R
  eB : A = 0 → B = RB ∨ B = -RB
  mono : arcQuarter sa sb = arcQuarter ea eb → sa * eb < ea * sb →
    |A - EA| = unrollA R (arcQuarter sa sb) EA - unrollA R (arcQuarter sa sb) A ∧
    |B - EB| = unrollB RB (arcQuarter sa sb) EB - unrollB RB (arcQuarter sa sb) B
  same : arcQuarter sa sb = arcQuarter ea eb → ea * sb = sa * eb → EA = A ∧ EB = B

/-- The end point lies before the start point in the same quarter, where the program gets the
number of pulses wrong. -/
def BackQ (sa sb ea eb : ℝ) : Prop :=
  arcQuarter sa sb = arcQuarter ea eb ∧ ea * sb < sa * eb

/-- The end point is, seen from the centre, in the direction of the start point. -/
def SameRay (sa sb ea eb : ℝ) : Prop :=
  arcQuarter sa sb = arcQuarter ea eb ∧ ea * sb = sa * eb

theorem its_cases {sa sb ea eb p q φs φe : ℝ} {R RB A B EA EB : ℤ}
    (hi : ArcInts sa sb ea eb p q R RB A B EA EB) (hs : angle sa sb = .ok φs)
    (he : angle ea eb = .ok φe) (rot : Rot) :
    (BackQ sa sb ea eb ∨ SameRay sa sb ea eb) ∧
      arcIterations rot φs φe R RB |A| |B| |EA| |EB| |A - EA| |B - EB| = (4 * R, 4 * RB) ∨
    ¬ BackQ sa sb ea eb ∧ ¬ SameRay sa sb ea eb ∧
      ∃ n m, arcIterations rot φs φe R RB |A| |B| |EA| |EB| |A - EA| |B - EB| =
        (turned rot R n, turned rot RB m) ∧ 0 ≤ n ∧ n ≤ 4 * R ∧ 0 ≤ m ∧ m ≤ 4 * RB ∧
        (walk R A (dirA rot (arcQuarter sa sb) B) (turned rot R n).toNat).1 = EA ∧
        (walk RB B (dirB rot (arcQuarter sa sb) A) (turned rot RB m).toNat).1 = EB := by
  have hpi := pi_pos
  obtain ⟨s0, s1, s2, s3, s4⟩ := angle_ok hs
  obtain ⟨e0, e1, e2, e3, e4⟩ := angle_ok he
  have gs := arcQuarter_signs (angle_ne hs) hi.hp hi.hq hi.hA hi.hB
  have ge := arcQuarter_signs (angle_ne he) hi.hp hi.hq hi.hEA hi.hEB
  obtain ⟨ls, us⟩ := quarter_range s4 s0 s1 s2 s3
  obtain ⟨le, ue⟩ := quarter_range e4 e0 e1 e2 e3
  have hlt := fun h : arcQuarter sa sb = arcQuarter ea eb =>
    angle_lt_iff s4 e4 s2 s3 e2 e3 ls us (h ▸ le) (h ▸ ue)
  have hmono := hi.mono
  have q1 : 0 ≤ arcQuarter sa sb ∧ arcQuarter sa sb ≤ 3 := by
    rcases arcQuarter_cases sa sb with h | h | h | h <;> omega
  have q2 : 0 ≤ arcQuarter ea eb ∧ arcQuarter ea eb ≤ 3 := by
    rcases arcQuarter_cases ea eb with h | h | h | h <;> omega
  unfold BackQ SameRay
  generalize arcQuarter sa sb = qs at *
  generalize arcQuarter ea eb = qe at *
  have tS : PyNum.truncI (φs /ₚ (PyNum.pi /ₚ PyNum.ofRat 2)) = qs := truncI_quarter q1.1 ls us
  unfold arcIterations
  simp only [tS]
  rcases lt_or_ge φs φe with hlt' | hge
  · -- the end angle is larger
    have tE : PyNum.truncI (φe /ₚ (PyNum.pi /ₚ PyNum.ofRat 2)) = qe := truncI_quarter q2.1 le ue
    have hle : (φe ≤ₚ φs) = false := by simpa using hlt'
    simp only [hle, Bool.false_eq_true, if_false, tE]
    have hq : qs ≤ qe := by
      have : (qs : ℝ) < qe + 1 := by
        by_contra hc
        push Not at hc
        nlinarith
      have : (qs : ℤ) < qe + 1 := by exact_mod_cast this
      omega
    right
    rw [if_neg (by omega)]
    rcases hq.lt_or_eq with hq | hq
    · refine ⟨fun h => by omega, fun h => by omega, ?_⟩
      rw [if_neg (by omega)]
      obtain ⟨f1, f2⟩ := fold_a (w := 0) (R := R) (RB := RB) gs ge (.inl rfl) (by omega) (by omega)
      obtain ⟨⟨r1, r2⟩, r3, r4⟩ := unroll_range (w := 0) gs ge hi.rA hi.rEA hi.rB hi.rEB (.inl rfl)
        (by omega) (by omega)
      rw [add_zero] at f1 f2
      refine ⟨_, _, ?_, r1, r2, r3, r4, walk_a gs ge hi.rA hi.rEA hi.eA (.inl rfl) r1 r2,
        walk_b gs ge hi.rB hi.rEB hi.eB (.inl rfl) r3 r4⟩
      have hf := Prod.ext (y := (_, _)) f1 f2
      rw [hf]
      cases rot <;> rfl
    · subst hq
      have hx := (hlt rfl).1 hlt'
      refine ⟨fun h => by linarith [h.2], fun h => by linarith [h.2], ?_⟩
      rw [if_pos rfl]
      obtain ⟨m1, m2⟩ := hmono rfl hx
      have a1 := abs_nonneg (A - EA)
      have a2 := abs_nonneg (B - EB)
      have z1 : unrollA R qs EA - unrollA R qs A = unrollA R qs EA + 0 * R - unrollA R qs A := by ring
      have z2 : unrollB RB qs EB - unrollB RB qs B = unrollB RB qs EB + 0 * RB - unrollB RB qs B := by
        ring
      rw [m1, z1] at a1
      rw [m2, z2] at a2
      rw [m1, m2, z1, z2]
      have u1 : unrollA R qs EA + 0 * R - unrollA R qs A ≤ 4 * R := by
        have := hi.rA; have := hi.rEA
        simp only [unrollA]; split_ifs <;> omega
      have u2 : unrollB RB qs EB + 0 * RB - unrollB RB qs B ≤ 4 * RB := by
        have := hi.rB; have := hi.rEB
        simp only [unrollB]; split_ifs <;> omega
      refine ⟨_, _, ?_, a1, u1, a2, u2, walk_a gs ge hi.rA hi.rEA hi.eA (.inl rfl) a1 u1,
        walk_b gs ge hi.rB hi.rEB hi.eB (.inl rfl) a2 u2⟩
      cases rot <;> rfl
  · have tE : PyNum.truncI ((φe +ₚ PyNum.ofRat 2 *ₚ PyNum.pi) /ₚ (PyNum.pi /ₚ PyNum.ofRat 2)) = qe + 4 := by
      refine truncI_quarter (by omega) ?_ ?_ <;> push_cast <;>
        simp only [add_eq, mul_eq, ofRat_eq, pi_eq, Rat.cast_ofNat] <;> linarith
    have hle : (φe ≤ₚ φs) = true := by simpa using hge
    simp only [hle, if_true, tE]
    have hq : qe ≤ qs := by
      have : (qe : ℝ) < qs + 1 := by
        by_contra hc
        push Not at hc
        nlinarith
      have : (qe : ℤ) < qs + 1 := by exact_mod_cast this
      omega
    rcases hq.lt_or_eq with hq | hq
    · right
      rw [if_neg (by omega)]
      refine ⟨fun h => by omega, fun h => by omega, ?_⟩
      rw [if_neg (by omega)]
      obtain ⟨f1, f2⟩ := fold_a (w := 4) (R := R) (RB := RB) gs ge (.inr rfl) (by omega) (by omega)
      obtain ⟨⟨r1, r2⟩, r3, r4⟩ := unroll_range (w := 4) gs ge hi.rA hi.rEA hi.rB hi.rEB (.inr rfl)
        (by omega) (by omega)
      refine ⟨_, _, ?_, r1, r2, r3, r4, walk_a gs ge hi.rA hi.rEA hi.eA (.inr rfl) r1 r2,
        walk_b gs ge hi.rB hi.rEB hi.eB (.inr rfl) r3 r4⟩
      have hf := Prod.ext (y := (_, _)) f1 f2
      rw [hf]
      cases rot <;> rfl
    · left
      subst hq
      rw [if_pos (by omega)]
      refine ⟨?_, rfl⟩
      have := mt (hlt rfl).2 (not_lt.2 hge)
      rcases lt_or_eq_of_le (not_lt.1 this) with h | h
      · exact .inl ⟨rfl, h⟩
      · exact .inr ⟨rfl, h⟩

/-! ## From the constructor to the integers -/

theorem truncI_int (n : ℤ) : PyNum.truncI (n : ℝ) = n := by
  simp only [truncI_eq, Int.floor_intCast, Int.ceil_intCast, ite_self]

theorem planeAxes_eq {α : Type} (p : Plane) (v : V4 α) :
    planeAxes p v = (v.get (axisA p), v.get (axisB p), v.get (axis3 p)) := by
  cases p <;> rfl

theorem arcSA_eq (p : Plane) (r : V4 ℝ) : arcSA p r = startA p r := by
  simp [arcSA, startA, planeAxes_eq]

theorem arcSB_eq (p : Plane) (r : V4 ℝ) : arcSB p r = startB p r := by
  simp [arcSB, startB, planeAxes_eq]

theorem arcEA_eq (p : Plane) (d r : V4 ℝ) : arcEA p d r = endA p d r := by
  simp only [arcEA, arcSA, endA, planeAxes_eq, add_eq, neg_eq]; ring

theorem arcEB_eq (p : Plane) (d r : V4 ℝ) : arcEB p d r = endB p d r := by
  simp only [arcEB, arcSB, endB, planeAxes_eq, add_eq, neg_eq]; ring

theorem arcRad_eq (q : ℚ) (p : Plane) (r : V4 ℝ) :
    arcRad q p r = (PyRound.rnd (startDist p r * q) : ℝ) / q := by
  simp only [arcRad, arcSA_eq, arcSB_eq, startDist, ofInt_eq, roundI_eq, sqrt_eq, add_eq, mul_eq,
    ofRat_eq, div_eq, pow_two]

theorem arcMpm_eq (c : Cfg) (p : Plane) :
    arcMpm c p = min (c.ppm.get (axisA p)) (c.ppm.get (axisB p)) := by
  simp only [arcMpm, planeAxes_eq]
  split
  · next h => rw [min_eq_right h.le]
  · next h => rw [min_eq_left (not_lt.1 h)]

theorem arcEndOk_eq (c : Cfg) (d r : V4 ℝ) (p : Plane) (hm : arcMpm c p ≠ 0) :
    arcEndOk c d r p = true ↔
      PyRound.rnd (endDist p d r * arcMpm c p) = PyRound.rnd (startDist p r * arcMpm c p) := by
  have hm' : (arcMpm c p : ℝ) ≠ 0 := by exact_mod_cast hm
  simp only [arcEndOk, arcEA_eq, arcEB_eq, arcRad_eq, eq_iff, ofInt_eq, roundI_eq, sqrt_eq, add_eq,
    mul_eq, ofRat_eq, div_eq, endDist, pow_two]
  rw [div_left_inj' hm']
  exact Int.cast_inj

theorem on_abs {x p : ℝ} {n : ℤ} (hp : 0 < p) (h : x * p = n) : |x| * p = (|n| : ℤ) := by
  rw [Int.cast_abs, ← h, abs_mul, abs_of_pos hp]

theorem abs_bound {A R : ℤ} (h : |A| ≤ R) : -R ≤ A ∧ A ≤ R := abs_le.1 h

theorem mono_equal {sa sb ea eb p : ℝ} {R RB A B EA EB : ℤ} (hp : 0 < p) (hA : sa * p = A)
    (hB : sb * p = B) (hEA : ea * p = EA) (hEB : eb * p = EB) (hns : sa ^ 2 + sb ^ 2 ≠ 0)
    (hne : ea ^ 2 + eb ^ 2 ≠ 0)
    (hcl : |√((A : ℝ) ^ 2 + (B : ℝ) ^ 2) - √((EA : ℝ) ^ 2 + (EB : ℝ) ^ 2)| ≤ 1)
    (hqq : arcQuarter sa sb = arcQuarter ea eb) (hx : sa * eb < ea * sb) :
    |A - EA| = unrollA R (arcQuarter sa sb) EA - unrollA R (arcQuarter sa sb) A ∧
    |B - EB| = unrollB RB (arcQuarter sa sb) EB - unrollB RB (arcQuarter sa sb) B := by
  have hx' : A * EB < EA * B := by
    have : ((A * EB : ℤ) : ℝ) < ((EA * B : ℤ) : ℝ) := by
      rw [Int.cast_mul, Int.cast_mul, ← hA, ← hB, ← hEA, ← hEB]
      have hpp : 0 < p * p := mul_pos hp hp
      nlinarith
    exact_mod_cast this
  have gs := arcQuarter_signs hns hp hp hA hB
  have ge := arcQuarter_signs hne hp hp hEA hEB
  rw [← hqq] at ge
  refine unroll_mono gs ge ?_
  intro x y x' y' p1 p2 p3 p4 hcase
  rcases hcase with h | h | h | h <;> simp only [Prod.mk.injEq] at h <;>
    obtain ⟨rfl, rfl, rfl, rfl⟩ := h <;> refine mono_firstZ p1 p2 p3 p4 (by linarith) ?_
  · exact hcl
  · have e1 : ((-B : ℤ) : ℝ) ^ 2 + (y : ℝ) ^ 2 = (y : ℝ) ^ 2 + (B : ℝ) ^ 2 := by push_cast; ring
    have e2 : ((-EB : ℤ) : ℝ) ^ 2 + (y' : ℝ) ^ 2 = (y' : ℝ) ^ 2 + (EB : ℝ) ^ 2 := by push_cast; ring
    rw [e1, e2]; exact hcl
  · have e1 : ((-A : ℤ) : ℝ) ^ 2 + ((-B : ℤ) : ℝ) ^ 2 = (A : ℝ) ^ 2 + (B : ℝ) ^ 2 := by push_cast; ring
    have e2 : ((-EA : ℤ) : ℝ) ^ 2 + ((-EB : ℤ) : ℝ) ^ 2 = (EA : ℝ) ^ 2 + (EB : ℝ) ^ 2 := by
      push_cast; ring
    rw [e1, e2]; exact hcl
  · have e1 : (x : ℝ) ^ 2 + ((-A : ℤ) : ℝ) ^ 2 = (A : ℝ) ^ 2 + (x : ℝ) ^ 2 := by push_cast; ring
    have e2 : (x' : ℝ) ^ 2 + ((-EA : ℤ) : ℝ) ^ 2 = (EA : ℝ) ^ 2 + (x' : ℝ) ^ 2 := by push_cast; ring
    rw [e1, e2]; exact hcl

theorem on_sgn {x t : ℝ} {n : ℤ} (ht : 0 < t) (h : x * t = n) :
    (0 ≤ n ↔ 0 ≤ x) ∧ (0 < n ↔ 0 < x) := by
  constructor
  · rw [← Int.cast_nonneg_iff (R := ℝ), ← h]; exact mul_nonneg_iff_of_pos_right ht
  · rw [← Int.cast_pos (R := ℝ), ← h]; exact mul_pos_iff_of_pos_right ht

theorem on_le {x y t : ℝ} {n m : ℤ} (ht : 0 < t) (h1 : x * t = n) (h2 : y * t = m) (h : x ≤ y) :
    n ≤ m := by
  have : (n : ℝ) ≤ m := by rw [← h1, ← h2]; gcongr
  exact_mod_cast this

theorem on_neg {x t : ℝ} {n : ℤ} (h : x * t = n) : -x * t = (-n : ℤ) := by
  push_cast; linarith

theorem mono_exact {sa sb ea eb p q : ℝ} {R RB A B EA EB : ℤ} (hp : 0 < p) (hq : 0 < q)
    (hA : sa * p = A) (hB : sb * q = B) (hEA : ea * p = EA) (hEB : eb * q = EB)
    (hns : sa ^ 2 + sb ^ 2 ≠ 0) (hne : ea ^ 2 + eb ^ 2 ≠ 0)
    (hl : sa ^ 2 + sb ^ 2 = ea ^ 2 + eb ^ 2)
    (hqq : arcQuarter sa sb = arcQuarter ea eb) (hx : sa * eb < ea * sb) :
    |A - EA| = unrollA R (arcQuarter sa sb) EA - unrollA R (arcQuarter sa sb) A ∧
    |B - EB| = unrollB RB (arcQuarter sa sb) EB - unrollB RB (arcQuarter sa sb) B := by
  have gs := arcQuarter_signs hns hp hq hA hB
  have ge := arcQuarter_signs hne hp hq hEA hEB
  rw [← hqq] at ge
  refine unroll_mono gs ge ?_
  intro x y x' y' p1 p2 p3 p4 hcase
  rcases hcase with h | h | h | h <;> simp only [Prod.mk.injEq] at h <;>
    obtain ⟨rfl, rfl, rfl, rfl⟩ := h
  · obtain ⟨m1, m2⟩ := mono_first ((on_sgn hp hA).1.1 p1) ((on_sgn hq hB).2.1 p2)
      ((on_sgn hp hEA).1.1 p3) ((on_sgn hq hEB).2.1 p4) hx hl
    exact ⟨on_le hp hA hEA m1, on_le hq hEB hB m2⟩
  · obtain ⟨m1, m2⟩ := mono_first ((on_sgn hq (on_neg hB)).1.1 p1) ((on_sgn hp hA).2.1 p2)
      ((on_sgn hq (on_neg hEB)).1.1 p3) ((on_sgn hp hEA).2.1 p4) (by linarith) (by linarith)
    exact ⟨on_le hq (on_neg hB) (on_neg hEB) m1, on_le hp hEA hA m2⟩
  · obtain ⟨m1, m2⟩ := mono_first ((on_sgn hp (on_neg hA)).1.1 p1) ((on_sgn hq (on_neg hB)).2.1 p2)
      ((on_sgn hp (on_neg hEA)).1.1 p3) ((on_sgn hq (on_neg hEB)).2.1 p4) (by linarith) (by linarith)
    exact ⟨on_le hp (on_neg hA) (on_neg hEA) m1, on_le hq (on_neg hEB) (on_neg hB) m2⟩
  · obtain ⟨m1, m2⟩ := mono_first ((on_sgn hq hB).1.1 p1) ((on_sgn hp (on_neg hA)).2.1 p2)
      ((on_sgn hq hEB).1.1 p3) ((on_sgn hp (on_neg hEA)).2.1 p4) (by linarith) (by linarith)
    exact ⟨on_le hq hB hEB m1, on_le hp (on_neg hEA) (on_neg hA) m2⟩

/-- Points of the same quarter form an acute angle. -/
theorem signs_dot {q A B EA EB : ℤ} (hs : Signs q A B) (he : Signs q EA EB) : 0 < A * EA + B * EB := by
  rcases hs with ⟨rfl, s1, s2⟩ | ⟨rfl, s1, s2⟩ | ⟨rfl, s1, s2⟩ | ⟨rfl, s1, s2⟩ <;>
    rcases he with ⟨h, e1, e2⟩ | ⟨h, e1, e2⟩ | ⟨h, e1, e2⟩ | ⟨h, e1, e2⟩ <;> (try omega) <;>
    nlinarith

theorem same_exact {sa sb ea eb p q : ℝ} {A B EA EB : ℤ}
    (hA : sa * p = A) (hB : sb * q = B) (hEA : ea * p = EA) (hEB : eb * q = EB)
    (hns : sa ^ 2 + sb ^ 2 ≠ 0) (hne : ea ^ 2 + eb ^ 2 ≠ 0)
    (hl : sa ^ 2 + sb ^ 2 = ea ^ 2 + eb ^ 2)
    (hqq : arcQuarter sa sb = arcQuarter ea eb) (hx : ea * sb = sa * eb) : EA = A ∧ EB = B := by
  obtain ⟨φ, -, s0, s1, s2, s3⟩ := angle_spec hns
  obtain ⟨ψ, -, e0, e1, e2, e3⟩ := angle_spec hne
  have rs : 0 < √(sa ^ 2 + sb ^ 2) := Real.sqrt_pos.2 (lt_of_le_of_ne (by positivity) (Ne.symm hns))
  have re : 0 < √(ea ^ 2 + eb ^ 2) := Real.sqrt_pos.2 (lt_of_le_of_ne (by positivity) (Ne.symm hne))
  obtain ⟨ls, us⟩ := quarter_range rs s0 s1 s2 s3
  obtain ⟨le, ue⟩ := quarter_range re e0 e1 e2 e3
  rw [← hqq] at le ue
  have h1 : ¬ φ < ψ := by rw [angle_lt_iff rs re s2 s3 e2 e3 ls us le ue]; linarith
  have h2 : ¬ ψ < φ := by rw [angle_lt_iff re rs e2 e3 s2 s3 le ue ls us]; linarith
  have h3 : φ = ψ := le_antisymm (not_lt.1 h2) (not_lt.1 h1)
  have ha : ea = sa := by rw [e2, s2, h3, hl]
  have hb : eb = sb := by rw [e3, s3, h3, hl]
  rw [ha, hA] at hEA
  rw [hb, hB] at hEB
  exact ⟨by exact_mod_cast hEA.symm, by exact_mod_cast hEB.symm⟩

/-- Different points on the same ray have different distances in steps. -/
theorem same_equal {sa sb ea eb p : ℝ} {A B EA EB R : ℤ} (hp : 0 < p)
    (hA : sa * p = A) (hB : sb * p = B) (hEA : ea * p = EA) (hEB : eb * p = EB)
    (hns : sa ^ 2 + sb ^ 2 ≠ 0) (hne : ea ^ 2 + eb ^ 2 ≠ 0)
    (h1 : |(R : ℝ) - √((A : ℝ) ^ 2 + (B : ℝ) ^ 2)| ≤ 1 / 2)
    (h2 : |(R : ℝ) - √((EA : ℝ) ^ 2 + (EB : ℝ) ^ 2)| ≤ 1 / 2)
    (hqq : arcQuarter sa sb = arcQuarter ea eb) (hx : ea * sb = sa * eb) : EA = A ∧ EB = B := by
  have gs := arcQuarter_signs hns hp hp hA hB
  have ge := arcQuarter_signs hne hp hp hEA hEB
  rw [← hqq] at ge
  have hdot := signs_dot gs ge
  have hx' : EA * B = A * EB := by
    have : ((EA * B : ℤ) : ℝ) = ((A * EB : ℤ) : ℝ) := by
      rw [Int.cast_mul, Int.cast_mul, ← hA, ← hB, ← hEA, ← hEB]
      linear_combination (p * p) * hx
    exact_mod_cast this
  -- lengths are never halfway between integers
  have half : ∀ (X Y : ℤ) (s : ℝ), (s = 1 / 2 ∨ s = -(1 / 2)) →
      √((X : ℝ) ^ 2 + (Y : ℝ) ^ 2) ≠ R + s := by
    intro X Y s hs h
    have h3 : (X : ℝ) ^ 2 + (Y : ℝ) ^ 2 = (R + s) ^ 2 := by
      rw [← h, Real.sq_sqrt (by positivity)]
    have h4 : 4 * (X ^ 2 + Y ^ 2 - R ^ 2) - 4 * R = 1 ∨ 4 * (X ^ 2 + Y ^ 2 - R ^ 2) + 4 * R = 1 := by
      rcases hs with rfl | rfl
      · left
        have : (4 : ℝ) * (X ^ 2 + Y ^ 2 - R ^ 2) - 4 * R = 1 := by rw [h3]; ring
        exact_mod_cast this
      · right
        have : (4 : ℝ) * (X ^ 2 + Y ^ 2 - R ^ 2) + 4 * R = 1 := by rw [h3]; ring
        exact_mod_cast this
    omega
  set N := √((A : ℝ) ^ 2 + (B : ℝ) ^ 2) with hN
  set N' := √((EA : ℝ) ^ 2 + (EB : ℝ) ^ 2) with hN'
  have n1 : N ^ 2 = (A : ℝ) ^ 2 + (B : ℝ) ^ 2 := Real.sq_sqrt (by positivity)
  have n2 : N' ^ 2 = (EA : ℝ) ^ 2 + (EB : ℝ) ^ 2 := Real.sq_sqrt (by positivity)
  have hprod : N * N' = (A : ℝ) * EA + B * EB := by
    have hd : (0 : ℝ) < (A : ℝ) * EA + B * EB := by exact_mod_cast hdot
    have hxr : (EA : ℝ) * B = A * EB := by exact_mod_cast hx'
    refine (pow_left_inj₀ (mul_nonneg (Real.sqrt_nonneg _) (Real.sqrt_nonneg _)) hd.le
      two_ne_zero).1 ?_
    rw [mul_pow, n1, n2]
    linear_combination ((A : ℝ) * EB - EA * B) * hxr * (-1)
  have hd2 : (N - N') ^ 2 = (((EA - A) ^ 2 + (EB - B) ^ 2 : ℤ) : ℝ) := by
    push_cast
    have : (N - N') ^ 2 = N ^ 2 + N' ^ 2 - 2 * (N * N') := by ring
    rw [this, n1, n2, hprod]; ring
  rw [abs_le] at h1 h2
  by_contra hc
  have hge : (1 : ℤ) ≤ (EA - A) ^ 2 + (EB - B) ^ 2 := by
    by_contra h0
    have z1 : (EA - A) ^ 2 = 0 := by nlinarith [sq_nonneg (EA - A), sq_nonneg (EB - B)]
    have z2 : (EB - B) ^ 2 = 0 := by nlinarith [sq_nonneg (EA - A), sq_nonneg (EB - B)]
    rw [sq_eq_zero_iff] at z1 z2
    exact hc ⟨by omega, by omega⟩
  have hge' : (1 : ℝ) ≤ (N - N') ^ 2 := by rw [hd2]; exact_mod_cast hge
  rcases le_total N N' with hle | hle
  · have : 1 ≤ N' - N := by nlinarith
    exact half EA EB (1 / 2) (.inl rfl) (by linarith)
  · have : 1 ≤ N - N' := by nlinarith
    exact half A B (1 / 2) (.inl rfl) (by linarith)

/-- The integers of an arc on steps. -/
theorem arc_ints {c : Cfg} {delta radius : V4 ℝ} {plane : Plane} {rot : Rot} {g : CircGen ℝ}
    {φs φe : ℝ} (hg : GridArc c delta radius plane) (hf : NewFacts c delta radius plane rot g φs φe) :
    ∃ R RB A B EA EB : ℤ, ArcInts (startA plane radius) (startB plane radius)
        (endA plane delta radius) (endB plane delta radius) (c.ppm.get (axisA plane))
        (c.ppm.get (axisB plane)) R RB A B EA EB ∧
      g.radiusAP = R ∧ g.radiusBP = RB ∧ g.startAP = A ∧ g.startBP = B ∧ 0 < R ∧ 0 < RB ∧
      (g.itA, g.itB) = arcIterations rot φs φe R RB |A| |B| |EA| |EB| |A - EA| |B - EB| ∧
      PyRound.rnd (startDist plane radius * c.ppm.get (axisA plane)) = R ∧
      PyRound.rnd (startDist plane radius * c.ppm.get (axisB plane)) = RB ∧
      arcRad (arcMpm c plane) plane radius * (c.ppm.get (axisA plane) : ℝ) = R ∧
      arcRad (arcMpm c plane) plane radius * (c.ppm.get (axisB plane) : ℝ) = RB := by
  have hp : (0 : ℝ) < c.ppm.get (axisA plane) := by exact_mod_cast hg.posA
  have hq : (0 : ℝ) < c.ppm.get (axisB plane) := by exact_mod_cast hg.posB
  have hmpm : arcMpm c plane ≠ 0 := by rw [arcMpm_eq]; exact (lt_min hg.posA hg.posB).ne'
  obtain ⟨rA, hrA⟩ := hg.radA
  obtain ⟨rB, hrB⟩ := hg.radB
  obtain ⟨dA, hdA⟩ := hg.delA
  obtain ⟨dB, hdB⟩ := hg.delB
  have hA : startA plane radius * c.ppm.get (axisA plane) = (-rA : ℤ) := by
    unfold startA; push_cast; linarith
  have hB : startB plane radius * c.ppm.get (axisB plane) = (-rB : ℤ) := by
    unfold startB; push_cast; linarith
  have hEA : endA plane delta radius * c.ppm.get (axisA plane) = (dA - rA : ℤ) := by
    unfold endA; push_cast; linarith
  have hEB : endB plane delta radius * c.ppm.get (axisB plane) = (dB - rB : ℤ) := by
    unfold endB; push_cast; linarith
  have hns := angle_ne hf.angS
  have hne := angle_ne hf.angE
  rw [arcSA_eq, arcSB_eq] at hns
  rw [arcEA_eq, arcEB_eq] at hne
  have hend := (arcEndOk_eq c delta radius plane hmpm).1 hf.endOk
  have hrpos : 0 < startDist plane radius :=
    Real.sqrt_pos.2 (lt_of_le_of_ne (by positivity) (Ne.symm hns))
  have hs2 : startDist plane radius ^ 2 = startA plane radius ^ 2 + startB plane radius ^ 2 :=
    Real.sq_sqrt (by positivity)
  have he2 : endDist plane delta radius ^ 2 =
      endA plane delta radius ^ 2 + endB plane delta radius ^ 2 := Real.sq_sqrt (by positivity)
  have hsA : |startA plane radius| ≤ startDist plane radius := Real.abs_le_sqrt (by nlinarith)
  have hsB : |startB plane radius| ≤ startDist plane radius := Real.abs_le_sqrt (by nlinarith)
  have heA : |endA plane delta radius| ≤ endDist plane delta radius := Real.abs_le_sqrt (by nlinarith)
  have heB : |endB plane delta radius| ≤ endDist plane delta radius := Real.abs_le_sqrt (by nlinarith)
  have hDA : |startA plane radius - endA plane delta radius| * c.ppm.get (axisA plane) =
      (|(-rA) - (dA - rA)| : ℤ) := on_abs hp (by push_cast at hA hEA ⊢; linarith)
  have hDB : |startB plane radius - endB plane delta radius| * c.ppm.get (axisB plane) =
      (|(-rB) - (dB - rB)| : ℤ) := on_abs hq (by push_cast at hB hEB ⊢; linarith)
  have finish : ∀ R RB : ℤ,
      arcRad (arcMpm c plane) plane radius * (c.ppm.get (axisA plane) : ℝ) = R →
      arcRad (arcMpm c plane) plane radius * (c.ppm.get (axisB plane) : ℝ) = RB →
      g.radiusAP = R ∧ g.radiusBP = RB ∧ g.startAP = -rA ∧ g.startBP = -rB ∧
      (g.itA, g.itB) = arcIterations rot φs φe R RB |(-rA)| |(-rB)| |dA - rA| |dB - rB|
        |(-rA) - (dA - rA)| |(-rB) - (dB - rB)| := by
    intro R RB h1 h2
    refine ⟨?_, ?_, ?_, ?_, ?_⟩
    · rw [hf.radA, planeAxes_eq]; simp only [mul_eq, ofRat_eq]; rw [h1, truncI_int]
    · rw [hf.radB, planeAxes_eq]; simp only [mul_eq, ofRat_eq]; rw [h2, truncI_int]
    · rw [hf.startA, planeAxes_eq, arcSA_eq]; simp only [mul_eq, ofRat_eq]; rw [hA, truncI_int]
    · rw [hf.startB, planeAxes_eq, arcSB_eq]; simp only [mul_eq, ofRat_eq]; rw [hB, truncI_int]
    · rw [hf.its]
      simp only [planeAxes_eq, arcSA_eq, arcSB_eq, arcEA_eq, arcEB_eq, mul_eq, ofRat_eq, abs_eq, sub_eq,
        roundI_eq]
      rw [h1, h2, on_abs hp hA, on_abs hq hB, on_abs hp hEA, on_abs hq hEB, hDA, hDB]
      simp only [rnd_int]
  rcases hg.fit with heq | ⟨⟨nA, hnA⟩, ⟨nB, hnB⟩, hlen⟩
  · -- equal steps
    have hm : arcMpm c plane = c.ppm.get (axisA plane) := by rw [arcMpm_eq, ← heq, min_self]
    have h1 : arcRad (arcMpm c plane) plane radius * (c.ppm.get (axisA plane) : ℝ) =
        (PyRound.rnd (startDist plane radius * c.ppm.get (axisA plane)) : ℤ) := by
      rw [arcRad_eq, hm, div_mul_cancel₀ _ hp.ne']
    have h2 : arcRad (arcMpm c plane) plane radius * (c.ppm.get (axisB plane) : ℝ) =
        (PyRound.rnd (startDist plane radius * c.ppm.get (axisA plane)) : ℤ) := by
      rw [← heq]; exact h1
    have hend' : PyRound.rnd (endDist plane delta radius * c.ppm.get (axisA plane)) =
        PyRound.rnd (startDist plane radius * c.ppm.get (axisA plane)) := by
      rw [← hm]; exact hend
    rw [← heq] at hB hEB hDB hq
    set p : ℝ := (c.ppm.get (axisA plane) : ℝ) with hpd
    set R := PyRound.rnd (startDist plane radius * p) with hR
    have bA : |(-rA)| ≤ R := by
      rw [← rnd_int |(-rA)|, ← on_abs hp hA]
      exact rnd_mono (by gcongr)
    have bB : |(-rB)| ≤ R := by
      rw [← rnd_int |(-rB)|, ← on_abs hq hB]
      exact rnd_mono (by gcongr)
    have bEA : |dA - rA| ≤ R := by
      rw [← rnd_int |dA - rA|, ← on_abs hp hEA, ← hend']
      exact rnd_mono (by gcongr)
    have bEB : |dB - rB| ≤ R := by
      rw [← rnd_int |dB - rB|, ← on_abs hq hEB, ← hend']
      exact rnd_mono (by gcongr)
    have lS : √(((-rA : ℤ) : ℝ) ^ 2 + ((-rB : ℤ) : ℝ) ^ 2) = startDist plane radius * p := by
      rw [← hA, ← hB, show (startA plane radius * p) ^ 2 + (startB plane radius * p) ^ 2 =
        (startDist plane radius * p) ^ 2 by rw [mul_pow, mul_pow, mul_pow, hs2]; ring]
      exact Real.sqrt_sq (by positivity)
    have lE : √(((dA - rA : ℤ) : ℝ) ^ 2 + ((dB - rB : ℤ) : ℝ) ^ 2) = endDist plane delta radius * p := by
      rw [← hEA, ← hEB, show (endA plane delta radius * p) ^ 2 + (endB plane delta radius * p) ^ 2 =
        (endDist plane delta radius * p) ^ 2 by rw [mul_pow, mul_pow, mul_pow, he2]; ring]
      exact Real.sqrt_sq (mul_nonneg (Real.sqrt_nonneg _) hp.le)
    have hclose : |startDist plane radius * p - endDist plane delta radius * p| ≤ 1 := by
      have a1 := rnd_le (startDist plane radius * p)
      have a2 := le_rnd (startDist plane radius * p)
      have a3 := rnd_le (endDist plane delta radius * p)
      have a4 := le_rnd (endDist plane delta radius * p)
      rw [hend'] at a3 a4
      rw [abs_le]; constructor <;> linarith
    have hRpos : 0 < R := by
      by_contra hc
      have h3 : |(-rA)| = 0 := le_antisymm (by omega) (abs_nonneg _)
      have h4 : |(-rB)| = 0 := le_antisymm (by omega) (abs_nonneg _)
      rw [abs_eq_zero] at h3 h4
      rw [h3, Int.cast_zero] at hA
      rw [h4, Int.cast_zero] at hB
      apply hns
      rw [(mul_eq_zero.1 hA).resolve_right hp.ne', (mul_eq_zero.1 hB).resolve_right hp.ne']
      ring
    obtain ⟨f1, f2, f3, f4, f5⟩ := finish R R h1 h2
    refine ⟨R, R, -rA, -rB, dA - rA, dB - rB, ?_, f1, f2, f3, f4, hRpos, hRpos, f5, rfl,
      by rw [← heq], h1, h2⟩
    rw [← heq]
    refine ⟨hp, hq, hA, hB, hEA, hEB, abs_bound bA, abs_bound bB, abs_bound bEA, abs_bound bEB, ?_, ?_, ?_, ?_⟩
    · intro h0
      have : R = |(-rA)| := by
        rw [hR, ← lS, h0, Int.cast_zero, zero_pow two_ne_zero, add_zero, Real.sqrt_sq_eq_abs,
          ← Int.cast_abs, rnd_int]
      rcases abs_choice (-rA) with h | h <;> omega
    · intro h0
      have : R = |(-rB)| := by
        rw [hR, ← lS, h0, Int.cast_zero, zero_pow two_ne_zero, zero_add, Real.sqrt_sq_eq_abs,
          ← Int.cast_abs, rnd_int]
      rcases abs_choice (-rB) with h | h <;> omega
    · intro hqq hx
      exact mono_equal hp hA hB hEA hEB hns hne (by rw [lS, lE]; exact hclose) hqq hx
    · intro hqq hx
      refine same_equal (R := R) hp hA hB hEA hEB hns hne ?_ ?_ hqq hx
      · rw [lS]; exact PyRound.near _
      · rw [lE, ← hend']; exact PyRound.near _
  · -- exact radius
    have hk : ∃ n : ℤ, startDist plane radius * arcMpm c plane = n := by
      rw [arcMpm_eq]
      rcases min_choice (c.ppm.get (axisA plane)) (c.ppm.get (axisB plane)) with h | h <;> rw [h]
      · exact ⟨_, hnA⟩
      · exact ⟨_, hnB⟩
    obtain ⟨k, hk⟩ := hk
    have hrad : arcRad (arcMpm c plane) plane radius = startDist plane radius := by
      have hm' : (arcMpm c plane : ℝ) ≠ 0 := by exact_mod_cast hmpm
      rw [arcRad_eq, hk, rnd_int, ← hk, mul_div_cancel_right₀ _ hm']
    have cast_le : ∀ {A R : ℤ}, ((|A| : ℤ) : ℝ) ≤ R → |A| ≤ R := fun h => by exact_mod_cast h
    have bA : |(-rA)| ≤ nA := cast_le (by rw [← on_abs hp hA, ← hnA]; gcongr)
    have bB : |(-rB)| ≤ nB := cast_le (by rw [← on_abs hq hB, ← hnB]; gcongr)
    have bEA : |dA - rA| ≤ nA := cast_le (by rw [← on_abs hp hEA, ← hnA, ← hlen]; gcongr)
    have bEB : |dB - rB| ≤ nB := cast_le (by rw [← on_abs hq hEB, ← hnB, ← hlen]; gcongr)
    have pA : 0 < nA := by
      have : (0 : ℝ) < nA := by rw [← hnA]; positivity
      exact_mod_cast this
    have pB : 0 < nB := by
      have : (0 : ℝ) < nB := by rw [← hnB]; positivity
      exact_mod_cast this
    obtain ⟨f1, f2, f3, f4, f5⟩ := finish nA nB (by rw [hrad, hnA]) (by rw [hrad, hnB])
    refine ⟨nA, nB, -rA, -rB, dA - rA, dB - rB, ?_, f1, f2, f3, f4, pA, pB, f5,
      by rw [hnA, rnd_int], by rw [hnB, rnd_int], by rw [hrad, hnA], by rw [hrad, hnB]⟩
    · refine ⟨hp, hq, hA, hB, hEA, hEB, abs_bound bA, abs_bound bB, abs_bound bEA, abs_bound bEB,
        ?_, ?_, ?_, ?_⟩
      · intro h0
        rw [h0, Int.cast_zero] at hB
        have h3 := (mul_eq_zero.1 hB).resolve_right hq.ne'
        have h4 : startDist plane radius = |startA plane radius| := by
          unfold startDist; rw [h3, zero_pow two_ne_zero, add_zero, Real.sqrt_sq_eq_abs]
        have h5 : (nA : ℝ) = ((|(-rA)| : ℤ) : ℝ) := by rw [← hnA, h4, on_abs hp hA]
        have h6 : nA = |(-rA)| := by exact_mod_cast h5
        rcases abs_choice (-rA) with h | h <;> omega
      · intro h0
        rw [h0, Int.cast_zero] at hA
        have h3 := (mul_eq_zero.1 hA).resolve_right hp.ne'
        have h4 : startDist plane radius = |startB plane radius| := by
          unfold startDist; rw [h3, zero_pow two_ne_zero, zero_add, Real.sqrt_sq_eq_abs]
        have h5 : (nB : ℝ) = ((|(-rB)| : ℤ) : ℝ) := by rw [← hnB, h4, on_abs hq hB]
        have h6 : nB = |(-rB)| := by exact_mod_cast h5
        rcases abs_choice (-rB) with h | h <;> omega
      · intro hqq hx
        exact mono_exact hp hq hA hB hEA hEB hns hne (by rw [← hs2, ← he2, hlen]) hqq hx
      · intro hqq hx
        exact same_exact hA hB hEA hEB hns hne (by rw [← hs2, ← he2, hlen]) hqq hx

end PyCNC
