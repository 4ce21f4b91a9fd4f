import Verif.Lemmas.Interp64
import Verif.Lemmas.ArcInterp

/-!
# The end of an arc in binary64
-/

set_option linter.unusedSectionVars false

namespace PyCNC

open Spec

variable [PyRound] {c : Cfg}

/-- A square of a binary64 number near `x`. -/
theorem square64 (x : ℝ) : |fl (fl x * fl x) - x ^ 2| ≤ x ^ 2 * (4 / 10 ^ 15) := by
  have h1 := fl_near x
  have h2 := fl_near (fl x * fl x)
  have h3 : |fl x * fl x - x ^ 2| ≤ x ^ 2 * (25 / 10 ^ 16) := by
    have e : fl x * fl x - x ^ 2 = (fl x - x) * (fl x - x) + 2 * (x * (fl x - x)) := by ring
    rw [e]
    refine (abs_add_le _ _).trans ?_
    rw [abs_mul, abs_mul, abs_mul]
    have h4 : |fl x - x| * |fl x - x| ≤ |x| * (1 / 10 ^ 15) * (|x| * (1 / 10 ^ 15)) :=
      mul_le_mul h1 h1 (abs_nonneg _) (by positivity)
    have h5 : |x| * |fl x - x| ≤ |x| * (|x| * (1 / 10 ^ 15)) :=
      mul_le_mul_of_nonneg_left h1 (abs_nonneg _)
    have e2 : |x| * |x| = x ^ 2 := by rw [abs_mul_abs_self]; ring
    have e3 : |x| * (1 / 10 ^ 15) * (|x| * (1 / 10 ^ 15)) = x ^ 2 * (1 / 10 ^ 30) := by
      rw [← e2]; ring
    have e4 : |x| * (|x| * (1 / 10 ^ 15)) = x ^ 2 * (1 / 10 ^ 15) := by rw [← e2]; ring
    rw [e3] at h4
    rw [e4] at h5
    have : |(2 : ℝ)| = 2 := abs_of_pos (by norm_num)
    rw [this]
    have := sq_nonneg x
    norm_num at *
    linarith
  have h4 : |fl x * fl x| ≤ x ^ 2 * (1 + 25 / 10 ^ 16) := by
    have := abs_sub_abs_le_abs_sub (fl x * fl x) (x ^ 2)
    rw [abs_of_nonneg (sq_nonneg x)] at this
    linarith
  have h5 := abs_sub_le (fl (fl x * fl x)) (fl x * fl x) (x ^ 2)
  have := sq_nonneg x
  norm_num at *
  linarith

/-- The radius. -/
theorem hypot64 {ya yb : ℝ} :
    |fl (√(fl (fl (fl ya * fl ya) + fl (fl yb * fl yb)))) - √(ya ^ 2 + yb ^ 2)| ≤
      √(ya ^ 2 + yb ^ 2) * (1 / 10 ^ 13) := by
  have h1 := square64 ya
  have h2 := square64 yb
  have p1 : 0 ≤ fl (fl ya * fl ya) := fl_nonneg (mul_self_nonneg _)
  have p2 : 0 ≤ fl (fl yb * fl yb) := fl_nonneg (mul_self_nonneg _)
  have h3 := fl_near (fl (fl ya * fl ya) + fl (fl yb * fl yb))
  rw [abs_of_nonneg (add_nonneg p1 p2)] at h3
  have h3' := fl_nonneg (add_nonneg p1 p2)
  generalize fl (fl ya * fl ya) = A at *
  generalize fl (fl yb * fl yb) = B at *
  generalize fl (A + B) = S at *
  have qa := sq_nonneg ya
  have qb := sq_nonneg yb
  have hR := Real.sqrt_nonneg (ya ^ 2 + yb ^ 2)
  have hR2 := Real.sq_sqrt (add_nonneg qa qb)
  rw [abs_le] at h1 h2 h3
  have k1 : S ≤ (ya ^ 2 + yb ^ 2) * (1 + 6 / 10 ^ 15) := by norm_num at *; linarith
  have k2 : (ya ^ 2 + yb ^ 2) * (1 - 6 / 10 ^ 15) ≤ S := by norm_num at *; linarith
  generalize ya ^ 2 + yb ^ 2 = Q at *
  have m1 : √S ≤ √Q * (1 + 4 / 10 ^ 15) := by
    rw [Real.sqrt_le_iff]
    refine ⟨by positivity, ?_⟩
    rw [mul_pow, hR2]
    refine k1.trans ?_
    have : 0 ≤ Q := by linarith
    exact mul_le_mul_of_nonneg_left (by norm_num) this
  have m2 : √Q * (1 - 7 / 10 ^ 15) ≤ √S := by
    apply Real.le_sqrt_of_sq_le
    rw [mul_pow, hR2]
    refine le_trans ?_ k2
    have : 0 ≤ Q := by linarith
    exact mul_le_mul_of_nonneg_left (by norm_num) this
  have h4 := fl_near (√S)
  rw [abs_of_nonneg (Real.sqrt_nonneg S)] at h4
  have h5 := abs_sub_le (fl √S) (√S) (√Q)
  have h6 : |√S - √Q| ≤ √Q * (1 / 10 ^ 14) := by
    rw [abs_le]; constructor <;> norm_num at * <;> linarith
  norm_num at *
  linarith

/-- A sum of binary64 numbers that are near known numbers. -/
theorem sum64 {a b : F64} {x y d e m : ℝ} (ha : |a.1 - x| ≤ d) (hb : |b.1 - y| ≤ e)
    (hm : |x| + |y| + d + e ≤ m) : |(a +ₚ b).1 - (x + y)| ≤ d + e + m * (1 / 10 ^ 15) := by
  rw [val_add]
  have h1 := fl_near (a.1 + b.1)
  have h2 := abs_sub_le (fl (a.1 + b.1)) (a.1 + b.1) (x + y)
  have h3 : |a.1 + b.1 - (x + y)| ≤ d + e := by
    rw [show a.1 + b.1 - (x + y) = (a.1 - x) + (b.1 - y) by ring]
    exact (abs_add_le _ _).trans (add_le_add ha hb)
  have h4 : |a.1 + b.1| ≤ m := by
    have := abs_sub_abs_le_abs_sub (a.1 + b.1) (x + y)
    have := abs_add_le x y
    linarith
  have h5 := mul_le_mul_of_nonneg_right h4 (by norm_num : (0 : ℝ) ≤ 1 / 10 ^ 15)
  linarith

theorem diff64 {a b : F64} {x y d e m : ℝ} (ha : |a.1 - x| ≤ d) (hb : |b.1 - y| ≤ e)
    (hm : |x| + |y| + d + e ≤ m) : |(a -ₚ b).1 - (x - y)| ≤ d + e + m * (1 / 10 ^ 15) := by
  have h := sum64 (a := a) (b := PyNum.neg b) (x := x) (y := -y) (d := d) (e := e) (m := m) ha
    (by rw [val_neg, ← neg_sub', abs_neg]; exact hb) (by rw [abs_neg]; exact hm)
  have e : a -ₚ b = a +ₚ PyNum.neg b := ext64 (by rw [val_sub, val_add, val_neg, sub_eq_add_neg])
  rw [e, sub_eq_add_neg]
  exact h

/-- The area check passes when the whole circle is inside, in binary64 with a margin. -/
theorem fit_inside64 {rot : Rot} {eq : Int} {pa pb ra rb r ma mb : F64} {xa xb ya yb R ta tb : ℝ}
    (pa' : |pa.1 - xa| ≤ 12 / 10 ^ 12) (pb' : |pb.1 - xb| ≤ 12 / 10 ^ 12)
    (ra' : |ra.1 - ya| ≤ 12 / 10 ^ 12) (rb' : |rb.1 - yb| ≤ 12 / 10 ^ 12)
    (r' : |r.1 - R| ≤ 1 / 10 ^ 9) (ma' : |ma.1 - ta| ≤ 12 / 10 ^ 12) (mb' : |mb.1 - tb| ≤ 12 / 10 ^ 12)
    (sa : |xa| ≤ 10 ^ 4 ∧ |ya| ≤ 1000) (sb : |xb| ≤ 10 ^ 4 ∧ |yb| ≤ 1000) (sR : 0 ≤ R ∧ R ≤ 1000)
    (h1 : R + 1 / 10 ^ 6 ≤ xa + ya) (h2 : xa + ya + R + 1 / 10 ^ 6 ≤ ta)
    (h3 : R + 1 / 10 ^ 6 ≤ xb + yb) (h4 : xb + yb + R + 1 / 10 ^ 6 ≤ tb) (n : ℕ) (q pq : Int) :
    fitLoop rot eq pa pb ra rb r ma mb n q pq = .ok () := by
  have key : ∀ {p r1 m : F64} {x y t : ℝ}, |p.1 - x| ≤ 12 / 10 ^ 12 → |r1.1 - y| ≤ 12 / 10 ^ 12 →
      |m.1 - t| ≤ 12 / 10 ^ 12 → |x| ≤ 10 ^ 4 ∧ |y| ≤ 1000 → R + 1 / 10 ^ 6 ≤ x + y →
      x + y + R + 1 / 10 ^ 6 ≤ t →
      (m <ₚ p +ₚ r1 +ₚ r) = false ∧ (p +ₚ r1 -ₚ r <ₚ zeroF) = false := by
    intro p r1 m x y t hp hr hm hs k1 k2
    have s1 := sum64 (m := 20000) hp hr (by norm_num at *; linarith)
    have hxy : |x + y| ≤ 11000 := (abs_add_le _ _).trans (by linarith [hs.1, hs.2])
    have hRa : |R| ≤ 1000 := by rw [abs_of_nonneg sR.1]; exact sR.2
    have s2 := sum64 (m := 20000) s1 r' (by norm_num at *; linarith)
    have s3 := diff64 (m := 20000) s1 r' (by norm_num at *; linarith)
    rw [abs_le] at s2 s3 hm
    constructor
    · rw [← Bool.not_eq_true, lt64_iff, not_lt]
      norm_num at *
      linarith [s2.2, hm.1]
    · rw [← Bool.not_eq_true, lt64_iff, not_lt, val_zero]
      norm_num at *
      linarith [s3.1]
  obtain ⟨a1, a2⟩ := key pa' ra' ma' sa h1 h2
  obtain ⟨b1, b2⟩ := key pb' rb' mb' sb h3 h4
  induction n generalizing q pq with
  | zero => rfl
  | succ n ih =>
    unfold fitLoop
    simp only [a1, a2, b1, b2, ite_self, Bool.false_eq_true, if_false, ih]

/-- `copysign` of a number that is near `R`, with the sign of a number that is near `x`. -/
theorem copysign64 {a s : F64} {x R : ℝ} (ha : |a.1 - R| ≤ 1 / 10 ^ 9) (hs : |s.1 - x| ≤ 1 / 10 ^ 9)
    (hR : 1 / 10 ^ 4 ≤ R) (hx : |x| = R) : |(copysign a s).1 - x| ≤ 1 / 10 ^ 9 := by
  unfold copysign
  rw [abs_le] at hs
  split
  · rename_i h
    rw [lt64_iff, val_ofRat0] at h
    rw [val_neg]
    have : x < 0 := by
      rcases abs_cases x with ⟨h1, h2⟩ | ⟨h1, h2⟩
      · exfalso; rw [h1] at hx; norm_num at *; linarith
      · exact h2
    rw [abs_of_neg this] at hx
    rw [← abs_neg, show -(-a.1 - x) = a.1 - -x by ring, hx]
    exact ha
  · rename_i h
    rw [lt64_iff, val_ofRat0, not_lt] at h
    have : 0 ≤ x := by
      rcases abs_cases x with ⟨h1, h2⟩ | ⟨h1, h2⟩
      · exact h2
      · exfalso; rw [h1] at hx; norm_num at *; linarith
    rw [abs_of_nonneg this] at hx
    rw [hx]; exact ha

theorem copysign_abs {a s : F64} : |(copysign a s).1| = |a.1| := by
  unfold copysign
  split
  · rw [val_neg, abs_neg]
  · rfl

/-- The end that `__adjust_circle` finds. -/
theorem adjustCircle64 {xa xb ya yb pa pb ta tb : ℝ} {rot : Rot}
    (hc : √((xa - ya) ^ 2 + (xb - yb) ^ 2) = √(ya ^ 2 + yb ^ 2))
    (hp : xa = ya ∨ xb = yb ∨ (xa = 0 ∧ xb = 0))
    (hR : 1 / 10 ^ 4 ≤ √(ya ^ 2 + yb ^ 2)) (hR' : √(ya ^ 2 + yb ^ 2) ≤ 1000)
    (sa : |pa| ≤ 10 ^ 4 ∧ |ta| ≤ 10 ^ 4) (sb : |pb| ≤ 10 ^ 4 ∧ |tb| ≤ 10 ^ 4)
    (h1 : √(ya ^ 2 + yb ^ 2) + 1 / 10 ^ 6 ≤ pa + ya)
    (h2 : pa + ya + √(ya ^ 2 + yb ^ 2) + 1 / 10 ^ 6 ≤ ta)
    (h3 : √(ya ^ 2 + yb ^ 2) + 1 / 10 ^ 6 ≤ pb + yb)
    (h4 : pb + yb + √(ya ^ 2 + yb ^ 2) + 1 / 10 ^ 6 ≤ tb) :
    ∃ a b : F64, adjustCircle (F64.of xa) (F64.of xb) (F64.of ya) (F64.of yb) rot (F64.of pa)
      (F64.of pb) (F64.of ta) (F64.of tb) = .ok (a, b) ∧ |a.1 - xa| ≤ 1 / 10 ^ 8 ∧
      |b.1 - xb| ≤ 1 / 10 ^ 8 := by
  have hyp := hypot64 (ya := ya) (yb := yb)
  have sya : |ya| ≤ √(ya ^ 2 + yb ^ 2) := Real.abs_le_sqrt (by nlinarith [sq_nonneg yb])
  have syb : |yb| ≤ √(ya ^ 2 + yb ^ 2) := Real.abs_le_sqrt (by nlinarith [sq_nonneg ya])
  have dxa : |xa - ya| ≤ √(ya ^ 2 + yb ^ 2) := by
    rw [← hc]; exact Real.abs_le_sqrt (by nlinarith [sq_nonneg (xb - yb)])
  have dxb : |xb - yb| ≤ √(ya ^ 2 + yb ^ 2) := by
    rw [← hc]; exact Real.abs_le_sqrt (by nlinarith [sq_nonneg (xa - ya)])
  have eB : xa = ya → |xb - yb| = √(ya ^ 2 + yb ^ 2) := fun h => by
    rw [← hc, h]; simp [Real.sqrt_sq_eq_abs]
  have eA : xb = yb → |xa - ya| = √(ya ^ 2 + yb ^ 2) := fun h => by
    rw [← hc, h]; simp [Real.sqrt_sq_eq_abs]
  set R := √(ya ^ 2 + yb ^ 2) with hRd
  have sxa : |xa| ≤ 2000 := by
    have := abs_sub_abs_le_abs_sub xa ya; linarith
  have sxb : |xb| ≤ 2000 := by
    have := abs_sub_abs_le_abs_sub xb yb; linarith
  set r : F64 := PyNum.sqrt (F64.of ya *ₚ F64.of ya +ₚ F64.of yb *ₚ F64.of yb) with hrd
  have hr : |r.1 - R| ≤ 1 / 10 ^ 9 := by
    rw [hrd, val_sqrt, val_add, val_mul, val_mul, val_of, val_of]
    refine hyp.trans ?_
    have := mul_le_mul_of_nonneg_right hR' (by norm_num : (0 : ℝ) ≤ 1 / 10 ^ 13)
    norm_num at *
    linarith
  have hr0 : 0 < r.1 := by
    have := (abs_le.1 hr).1
    norm_num at *
    linarith
  have near : ∀ {x : ℝ}, |x| ≤ 10 ^ 4 → |(F64.of x).1 - x| ≤ 12 / 10 ^ 12 := fun h =>
    of_near (h.trans (by norm_num))
  have nxa := near (x := xa) (sxa.trans (by norm_num))
  have nxb := near (x := xb) (sxb.trans (by norm_num))
  have nya := near (x := ya) (sya.trans (hR'.trans (by norm_num)))
  have nyb := near (x := yb) (syb.trans (hR'.trans (by norm_num)))
  have fit : ∀ eq q pq, fitLoop rot eq (F64.of pa) (F64.of pb) (F64.of ya) (F64.of yb) r (F64.of ta)
      (F64.of tb) 4 q pq = .ok () := fun eq q pq =>
    fit_inside64 (near sa.1) (near sb.1) nya nyb hr (near sa.2) (near sb.2) ⟨sa.1, sya.trans hR'⟩
      ⟨sb.1, syb.trans hR'⟩ ⟨by linarith [abs_nonneg ya], hR'⟩ h1 h2 h3 h4 4 q pq
  have hrne : (r =ₚ zeroF) = false := by
    rw [← Bool.not_eq_true, eq64_iff, val_zero]; exact hr0.ne'
  have hsame : ∀ x : F64, (x -ₚ x) = zeroF := fun x => ext64 (by rw [val_sub, sub_self, fl_zero, val_zero])
  have hrr : PyNum.sqrt (r *ₚ r) = r := ext64 (by
    rw [val_sqrt, val_mul, fl_sqrt_sq r.2, abs_of_pos hr0])
  unfold adjustCircle
  rw [← hrd]
  simp only [hrne, Bool.false_eq_true, if_false]
  by_cases h0 : xa = 0 ∧ xb = 0
  · have e1 : (F64.of xa =ₚ zeroF && F64.of xb =ₚ zeroF) = true := by
      rw [Bool.and_eq_true, eq_zero64, eq_zero64]; exact h0
    simp only [e1, if_true]
    refine ⟨F64.of xa, F64.of xb, ?_, nxa.trans (by norm_num), nxb.trans (by norm_num)⟩
    change (fitLoop _ _ _ _ _ _ _ _ _ _ _ _ >>= _) = _
    rw [fit]
    rfl
  · have e1 : (F64.of xa =ₚ zeroF && F64.of xb =ₚ zeroF) = false := by
      rw [← Bool.not_eq_true, Bool.and_eq_true, eq_zero64, eq_zero64]; exact h0
    simp only [e1, Bool.false_eq_true, if_false]
    by_cases ha : xa = ya
    · have hz : ((F64.of xa -ₚ F64.of ya) =ₚ (zeroF : F64)) = true := by
        rw [ha, hsame]; exact (eq64_iff _ _).2 rfl
      simp only [hz, if_true]
      have hq : r *ₚ r -ₚ (zeroF : F64) *ₚ zeroF = r *ₚ r := ext64 (by
        rw [val_sub, val_mul zeroF, val_zero, mul_zero, fl_zero, sub_zero]; exact (r *ₚ r).2)
      have hsq : psqrt (r *ₚ r) = .ok r := by
        rw [psqrt64_ok (by rw [val_mul]; exact fl_nonneg (mul_self_nonneg _)), hrr]
      have hds := diff64 (m := 5000) nxb nyb (by norm_num at *; linarith)
      have hcs := copysign64 hr (hds.trans (by norm_num)) hR (eB ha)
      have hsum := sum64 (m := 5000) hcs nyb (by norm_num at *; linarith)
      rw [sub_add_cancel] at hsum
      refine ⟨zeroF +ₚ F64.of ya, copysign r (F64.of xb -ₚ F64.of yb) +ₚ F64.of yb, ?_, ?_,
        hsum.trans (by norm_num)⟩
      · simp only [pure_bind, hq, hsq]
        change (fitLoop _ _ _ _ _ _ _ _ _ _ _ _ >>= _) = _
        rw [fit]
        rfl
      · rw [val_add, val_zero, zero_add, val_of, fl_idem, ha, ← val_of]
        exact nya.trans (by norm_num)
    · have hb : xb = yb := by
        rcases hp with h | h | h
        exacts [absurd h ha, h, absurd h h0]
      have hds := diff64 (m := 5000) nxa nya (by norm_num at *; linarith)
      have hne : (F64.of xa -ₚ F64.of ya).1 ≠ 0 := by
        intro h
        rw [h, zero_sub, abs_neg, eA hb] at hds
        norm_num at *
        linarith
      have hz : ((F64.of xa -ₚ F64.of ya) =ₚ (zeroF : F64)) = false := by
        rw [← Bool.not_eq_true, eq64_iff, val_zero]; exact hne
      simp only [hz, Bool.false_eq_true, if_false]
      have hcs := copysign64 hr (hds.trans (by norm_num)) hR (eA hb)
      have hsum := sum64 (m := 5000) hcs nya (by norm_num at *; linarith)
      rw [sub_add_cancel] at hsum
      have hb0 : F64.of xb -ₚ F64.of yb = zeroF := by rw [hb, hsame]
      have hq1 : r *ₚ r /ₚ (PyNum.ofRat 1 +ₚ PyNum.abs (zeroF /ₚ (F64.of xa -ₚ F64.of ya))) = r *ₚ r :=
        ext64 (by
          have : fl ((1 : ℚ) : ℝ) = 1 := by simp [fl_one]
          rw [val_div, val_add, val_abs, val_div, val_zero, val_ofRat, this, zero_div, fl_zero, abs_zero,
            add_zero, fl_one, div_one]
          exact (r *ₚ r).2)
      have hq2 : r *ₚ r -ₚ copysign r (F64.of xa -ₚ F64.of ya) *ₚ copysign r (F64.of xa -ₚ F64.of ya) =
          zeroF := ext64 (by
        rw [val_sub, val_mul, val_mul, ← abs_mul_abs_self (copysign r _).1, copysign_abs,
          abs_mul_abs_self, sub_self, fl_zero, val_zero])
      have hsq : psqrt (zeroF : F64) = .ok zeroF := by
        rw [psqrt64_ok (by rw [val_zero])]
        exact congrArg _ (ext64 (by rw [val_sqrt, val_zero, Real.sqrt_zero, fl_zero]))
      have hcz : copysign (zeroF : F64) zeroF = zeroF := by
        unfold copysign
        rw [if_neg (by rw [lt64_iff, val_zero, val_ofRat0]; exact lt_irrefl _)]
      refine ⟨copysign r (F64.of xa -ₚ F64.of ya) +ₚ F64.of ya, zeroF +ₚ F64.of yb, ?_,
        hsum.trans (by norm_num), ?_⟩
      · simp only [hb0, pdiv64_ok hne]
        have okb : ∀ {α β : Type} (x : α) (f : α → Except PyErr β), (Except.ok x >>= f) = f x :=
          fun _ _ => rfl
        simp only [okb, pure_bind, hq1, hrr, hq2, hsq, hcz]
        change (fitLoop _ _ _ _ _ _ _ _ _ _ _ _ >>= _) = _
        rw [fit]
        rfl
      · rw [val_add, val_zero, zero_add, val_of, fl_idem, hb, ← val_of]
        exact nyb.trans (by norm_num)

/-- The end of an arc that ends on a horizontal or vertical line through its centre, or at its start. -/
theorem circleEnd64 {plane : Plane} {delta radius : V4 ℝ} {at_ : Axis → ℝ} {pos : V4 F64} {rot : Rot}
    (hpos : ∀ ax, pos.get ax = F64.of (at_ ax))
    (hc : endDist plane delta radius = startDist plane radius)
    (hp : endA plane delta radius = 0 ∨ endB plane delta radius = 0 ∨
      (delta.get (axisA plane) = 0 ∧ delta.get (axisB plane) = 0))
    (hR : 1 / 10 ^ 4 ≤ startDist plane radius) (hR' : startDist plane radius ≤ 1000)
    (hs : ∀ ax, ax = axisA plane ∨ ax = axisB plane →
      |at_ ax| ≤ 10 ^ 4 ∧ |(tableSize c ax : ℝ)| ≤ 10 ^ 4 ∧
      startDist plane radius + 1 / 10 ^ 6 ≤ at_ ax + radius.get ax ∧
      at_ ax + radius.get ax + startDist plane radius + 1 / 10 ^ 6 ≤ tableSize c ax) :
    ∃ ce, circleEnd c plane (delta.map F64.of) (radius.map F64.of) pos rot = .ok ce ∧
      ∀ ax, |(ce.get ax).1 - delta.get ax| ≤ 1 / 10 ^ 8 ∨ ce.get ax = F64.of (delta.get ax) := by
  have hsq : ∀ ra rb : ℝ, √((-ra) ^ 2 + (-rb) ^ 2) = √(ra ^ 2 + rb ^ 2) := fun ra rb => by
    rw [neg_sq, neg_sq]
  obtain ⟨a1, a2, a3, a4⟩ := hs _ (.inl rfl)
  obtain ⟨b1, b2, b3, b4⟩ := hs _ (.inr rfl)
  have px := hpos .x
  have py := hpos .y
  have pz := hpos .z
  have e1 : ∀ q : ℚ, (PyNum.ofRat q : F64) = F64.of (q : ℝ) := fun q => rfl
  unfold circleEnd
  cases plane <;>
    simp only [startDist, endDist, endA, endB, startA, startB, axisA, axisB, V4.get, hsq, sub_eq_zero,
      tableSize] at hc hp hR hR' a1 a2 a3 a4 b1 b2 b3 b4 px py pz
  · obtain ⟨a, b, h, h1, h2⟩ := adjustCircle64 (rot := rot) hc hp hR hR' ⟨a1, a2⟩ ⟨b1, b2⟩ a3 a4 b3 b4
    refine ⟨⟨a, b, F64.of delta.z, F64.of delta.e⟩, ?_, fun ax => ?_⟩
    · simp only [V4.map, e1, px, py, h]
      rfl
    · cases ax
      exacts [.inl h1, .inl h2, .inr rfl, .inr rfl]
  · obtain ⟨a, b, h, h1, h2⟩ := adjustCircle64 (rot := rot) hc hp hR hR' ⟨a1, a2⟩ ⟨b1, b2⟩ a3 a4 b3 b4
    refine ⟨⟨b, F64.of delta.y, a, F64.of delta.e⟩, ?_, fun ax => ?_⟩
    · simp only [V4.map, e1, px, pz, h]
      rfl
    · cases ax
      exacts [.inl h2, .inr rfl, .inl h1, .inr rfl]
  · obtain ⟨a, b, h, h1, h2⟩ := adjustCircle64 (rot := rot) hc hp hR hR' ⟨a1, a2⟩ ⟨b1, b2⟩ a3 a4 b3 b4
    refine ⟨⟨F64.of delta.x, a, b, F64.of delta.e⟩, ?_, fun ax => ?_⟩
    · simp only [V4.map, e1, py, pz, h]
      rfl
    · cases ax
      exacts [.inr rfl, .inl h1, .inl h2, .inr rfl]

/-- Without a radius the arc is refused. -/
theorem circleEnd_zero64 {plane : Plane} {delta radius pos : V4 F64} {rot : Rot}
    (h0 : radius.get (axisA plane) = zeroF ∧ radius.get (axisB plane) = zeroF) :
    circleEnd c plane delta radius pos rot = .error (.gmachine "circle radius is zero") := by
  have key : ∀ {da db pa pb ma mb : F64}, adjustCircle da db zeroF zeroF rot pa pb ma mb =
      .error (.gmachine "circle radius is zero") := by
    intro da db pa pb ma mb
    unfold adjustCircle
    have : ((PyNum.sqrt ((zeroF : F64) *ₚ zeroF +ₚ zeroF *ₚ zeroF)) =ₚ (zeroF : F64)) = true := by
      rw [eq64_iff, val_sqrt, val_add, val_mul, val_zero, mul_zero, fl_zero, add_zero, fl_zero,
        Real.sqrt_zero, fl_zero]
    simp only [this, if_true]
    rfl
  obtain ⟨h1, h2⟩ := h0
  unfold circleEnd
  cases plane <;> simp only [axisA, axisB, V4.get] at h1 h2 <;>
  · simp only [h1, h2, key]
    rfl

/-- The end, rounded to steps. -/
theorem roundEnd64 (hc : SaneCfg c) {ce : V4 F64} {x : ℝ} {n : ℤ} {ax : Axis} {d : ℝ}
    (h : |(ce.get ax).1 - x| ≤ d) (hd : d ≤ 1 / 10 ^ 8) (hx : |x| ≤ 5000)
    (hn : x = n / c.ppm.get ax) (hg : Grid x) :
    (roundToSteps c ce).get ax = F64.of x := by
  have hP : (0 : ℝ) < c.ppm.get ax := by exact_mod_cast hc.ppm_pos ax
  have hP2 : (c.ppm.get ax : ℝ) ≤ 1000 := by exact_mod_cast hc.ppm_le ax
  have e : ce.get ax = F64.of (ce.get ax).1 := ext64 (by rw [val_of]; exact (ce.get ax).2.symm)
  have h := h.trans hd
  rw [get_roundToStepsF, e]
  refine roundTo_exact64 (n := n) (hc.ppm_pos ax) (hc.ppm_le ax) ?_ ?_ hg ?_
  · have := abs_sub_abs_le_abs_sub (ce.get ax).1 x
    norm_num at *
    linarith
  · have e2 : (ce.get ax).1 * c.ppm.get ax - n = ((ce.get ax).1 - x) * c.ppm.get ax := by
      rw [hn]; field_simp
    rw [e2, abs_mul, abs_of_pos hP]
    have := mul_le_mul h hP2 hP.le (by norm_num)
    refine this.trans (by norm_num)
  · rw [← hn, sub_self, abs_zero, zero_add]
    have := mul_le_mul_of_nonneg_right hx (by norm_num : (0 : ℝ) ≤ 35 / 10 ^ 17)
    refine lt_of_le_of_lt this (by norm_num)

end PyCNC
