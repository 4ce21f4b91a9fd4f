import Verif.Lemmas.ArcPoint64
import Verif.Spec.ArcAny64

/-!
# Arcs whose ends are not on their circles: what the machine makes of them in binary64
-/

set_option linter.unusedSectionVars false

namespace PyCNC

open Spec

variable [PyRound] {c : Cfg} {env : Env F64}

/-- One coordinate of the point, rounded to steps. -/
theorem axis_end64 {ea : F64} {x y : ℝ} {p : ℚ} {N : ℤ} (hp : 1 ≤ p) (hp2 : p ≤ 1000)
    (hg : ∀ n : ℤ, Grid ((n : ℝ) / p)) (hb : Beside ea x p) (he : |ea.1| ≤ 1001) (hy : y * p = N)
    (hyl : |y| ≤ 1000) :
    ∃ n : ℤ, PyNum.round10 (Coord.roundTo (ea +ₚ F64.of y) (PyNum.ofRat 1 /ₚ PyNum.ofRat p)) =
        F64.of ((n : ℝ) / p) ∧ |((n - N : ℤ) : ℝ) - ea.1 * p| ≤ 1 / 2 + 2 / 10 ^ 6 ∧
      SameSign ((n - N : ℤ) : ℝ) x := by
  have hP1 : (1 : ℝ) ≤ p := by exact_mod_cast hp
  have hP2 : (p : ℝ) ≤ 1000 := by exact_mod_cast hp2
  have hs := sum64 (a := ea) (b := F64.of y) (x := ea.1) (y := y) (d := 0) (e := 12 / 10 ^ 12) (m := 3000)
    (by simp) (of_near (hyl.trans (by norm_num))) (by norm_num at *; linarith)
  have hd : |(ea +ₚ F64.of y).1| ≤ 10 ^ 4 := by
    have h1 := abs_sub_abs_le_abs_sub (ea +ₚ F64.of y).1 (ea.1 + y)
    have h2 := abs_add_le ea.1 y
    norm_num at *
    linarith
  obtain ⟨n, h1, h2⟩ := roundTo_any64 hp hp2 hd
  have h3 : |((n - N : ℤ) : ℝ) - ea.1 * p| ≤ 1 / 2 + 2 / 10 ^ 6 := by
    have e : ((n - N : ℤ) : ℝ) - ea.1 * p = ((ea +ₚ F64.of y).1 - (ea.1 + y)) * p -
        ((ea +ₚ F64.of y).1 * p - n) := by
      push_cast; rw [← hy]; ring
    rw [e]
    refine (abs_sub _ _).trans ?_
    rw [abs_mul, abs_of_pos (by linarith : (0 : ℝ) < p)]
    have := mul_le_mul hs hP2 (by linarith) (by norm_num)
    norm_num at *
    linarith
  refine ⟨n, h2 (hg n), h3, ?_⟩
  obtain ⟨k1, k2⟩ := abs_le.1 h3
  rcases lt_trichotomy x 0 with hx | hx | hx
  · refine .inr (.inl ⟨?_, hx⟩)
    have := hb.neg hx
    have : (2 : ℝ) / 10 ^ 6 ≤ 1 / 10 := by norm_num
    linarith
  · refine .inr (.inr ⟨?_, hx⟩)
    rw [hb.zero hx, zero_mul, sub_zero] at h3
    have : |n - N| < 1 := by
      have h4 : ((|n - N| : ℤ) : ℝ) < 1 := by
        rw [Int.cast_abs]
        norm_num at *
        linarith
      exact_mod_cast h4
    rw [Int.abs_lt_one_iff.1 this]
    simp
  · refine .inl ⟨?_, hx⟩
    have := hb.pos hx
    have : (2 : ℝ) / 10 ^ 6 ≤ 1 / 10 := by norm_num
    linarith

/-- Distances of points that are half a step apart in both directions. -/
theorem norm_half {a b A B : ℝ} (ha : |a - A| ≤ 1 / 2 + 2 / 10 ^ 6) (hb : |b - B| ≤ 1 / 2 + 2 / 10 ^ 6) :
    |√(a ^ 2 + b ^ 2) - √(A ^ 2 + B ^ 2)| ≤ 71 / 100 := by
  have key : ∀ {a b A B : ℝ}, |a - A| ≤ 1 / 2 + 2 / 10 ^ 6 → |b - B| ≤ 1 / 2 + 2 / 10 ^ 6 →
      √(a ^ 2 + b ^ 2) ≤ √(A ^ 2 + B ^ 2) + 71 / 100 := by
    intro a b A B ha hb
    have hρ := Real.sqrt_nonneg (A ^ 2 + B ^ 2)
    have hρ2 : √(A ^ 2 + B ^ 2) ^ 2 = A ^ 2 + B ^ 2 := Real.sq_sqrt (by positivity)
    generalize √(A ^ 2 + B ^ 2) = ρ at *
    refine Real.sqrt_le_iff.2 ⟨by positivity, ?_⟩
    have ha2 : (a - A) ^ 2 ≤ 252 / 1000 := by
      rw [← sq_abs]
      have := pow_le_pow_left₀ (abs_nonneg _) ha 2
      norm_num at *; linarith
    have hb2 : (b - B) ^ 2 ≤ 252 / 1000 := by
      rw [← sq_abs]
      have := pow_le_pow_left₀ (abs_nonneg _) hb 2
      norm_num at *; linarith
    set x := a - A with hx
    set y := b - B with hy
    have ea : a = A + x := by rw [hx]; ring
    have eb : b = B + y := by rw [hy]; ring
    have hin : A * x + B * y ≤ 71 / 100 * ρ := by
      refine (abs_le_of_sq_le_sq' ?_ (by positivity)).2
      have h1 : (A * x + B * y) ^ 2 ≤ (A ^ 2 + B ^ 2) * (x ^ 2 + y ^ 2) := by
        nlinarith [sq_nonneg (A * y - B * x)]
      have h2 : (A ^ 2 + B ^ 2) * (x ^ 2 + y ^ 2) ≤ (A ^ 2 + B ^ 2) * (71 / 100) ^ 2 := by
        refine mul_le_mul_of_nonneg_left ?_ (by positivity)
        norm_num
        linarith
      rw [mul_pow, hρ2]
      linarith
    have e1 : (A + x) ^ 2 + (B + y) ^ 2 = ρ ^ 2 + 2 * (A * x + B * y) + (x ^ 2 + y ^ 2) := by
      rw [hρ2]; ring
    have e2 : (ρ + 71 / 100) ^ 2 = ρ ^ 2 + 2 * (71 / 100 * ρ) + 5041 / 10000 := by ring
    rw [ea, eb, e1, e2]
    linarith
  have h1 := key ha hb
  have h2 := key (a := A) (b := B) (A := a) (B := b) (by rwa [abs_sub_comm]) (by rwa [abs_sub_comm])
  rw [abs_le]
  constructor <;> linarith

/-- Different whole numbers of steps are different in binary64. -/
theorem div_inj64 {m n : ℤ} {p : ℚ} (hp : (0 : ℝ) < p) (hm : 0 ≤ m) (hn : 0 ≤ n) (hm2 : m ≤ 10 ^ 6)
    (hn2 : n ≤ 10 ^ 6) (hfp : fl p = p)
    (h : (ofInt m /ₚ PyNum.ofRat p : F64).1 = (ofInt n /ₚ PyNum.ofRat p : F64).1) : m = n := by
  have key : ∀ {m n : ℤ}, 0 ≤ m → 0 ≤ n → m ≤ 10 ^ 6 → n ≤ 10 ^ 6 → m < n →
      fl (m / p : ℝ) ≠ fl (n / p : ℝ) := by
    intro m n hm hn hm2 hn2 hlt he
    have a0 : (0 : ℝ) ≤ m := by exact_mod_cast hm
    have b0 : (0 : ℝ) ≤ n := by exact_mod_cast hn
    have a1 : (m : ℝ) ≤ 10 ^ 6 := by exact_mod_cast hm2
    have b1 : (n : ℝ) ≤ 10 ^ 6 := by exact_mod_cast hn2
    have hl : (m : ℝ) + 1 ≤ n := by exact_mod_cast hlt
    have h1 := fl_near ((m : ℝ) / p)
    have h2 := fl_near ((n : ℝ) / p)
    rw [abs_of_nonneg (div_nonneg a0 hp.le), abs_le] at h1
    rw [abs_of_nonneg (div_nonneg b0 hp.le), abs_le] at h2
    rw [he] at h1
    have h3 : (n : ℝ) / p * (1 - 1 / 10 ^ 15) ≤ m / p * (1 + 1 / 10 ^ 15) := by linarith [h1.2, h2.1]
    have h4 := mul_le_mul_of_nonneg_right h3 hp.le
    have e1 : (n : ℝ) / p * (1 - 1 / 10 ^ 15) * p = n * (1 - 1 / 10 ^ 15) := by field_simp
    have e2 : (m : ℝ) / p * (1 + 1 / 10 ^ 15) * p = m * (1 + 1 / 10 ^ 15) := by field_simp
    rw [e1, e2] at h4
    norm_num at *
    linarith
  rw [val_div, val_div, val_ofInt, val_ofInt, val_ofRat, hfp, fl_int, fl_int] at h
  · rcases lt_trichotomy m n with hl | hl | hl
    · exact absurd h (key hm hn hm2 hn2 hl)
    · exact hl
    · exact absurd h.symm (key hn hm hn2 hm2 hl)
  · rw [abs_of_nonneg hn]; omega
  · rw [abs_of_nonneg hm]; omega

/-- The generator accepts only ends that are right in exact arithmetic. -/
theorem ends_of64 {delta radius : V4 ℝ} {plane : Plane} {rot : Rot} {v : F64} {g : CircGen F64} {p : ℚ}
    {A B EA EB : ℤ} (hg : CircGen.new c (delta.map F64.of) (radius.map F64.of) plane rot v = .ok g)
    (hpA : c.ppm.get (axisA plane) = p) (hpB : c.ppm.get (axisB plane) = p) (hp : (0 : ℝ) < p)
    (hfp : fl p = p) (cA : radius.get (axisA plane) * (p : ℝ) = (-A : ℤ))
    (cB : radius.get (axisB plane) * (p : ℝ) = (-B : ℤ))
    (cEA : delta.get (axisA plane) * (p : ℝ) = (EA - A : ℤ))
    (cEB : delta.get (axisB plane) * (p : ℝ) = (EB - B : ℤ))
    (nS : A ≠ 0 ∨ B ≠ 0) (nE : EA ≠ 0 ∨ EB ≠ 0) (sS : √((A : ℝ) ^ 2 + (B : ℝ) ^ 2) ≤ 10001)
    (sE : √((EA : ℝ) ^ 2 + (EB : ℝ) ^ 2) ≤ 10001)
    (hr : √((A : ℝ) ^ 2 + (B : ℝ) ^ 2) ≤ 2 * √((EA : ℝ) ^ 2 + (EB : ℝ) ^ 2)) :
    PyRound.rnd √((EA : ℝ) ^ 2 + (EB : ℝ) ^ 2) = PyRound.rnd √((A : ℝ) ^ 2 + (B : ℝ) ^ 2) := by
  obtain ⟨_, _, hf⟩ := new_facts hg
  have he := hf.endOk
  obtain ⟨xSA, xSB, xEA, xEB⟩ := axes64 plane delta radius
  have kS := dist64 hfp (pt_start hp cA cB nS sS)
  have kE := dist64 hfp (pt_end hp cA cB cEA cEB nE sE hr)
  have hmpm : arcMpm c plane = p := by rw [arcMpm_eq, hpA, hpB, min_self]
  unfold arcRad at he
  rw [hmpm, xSA, xSB, xEA, xEB, kS, kE, eq64_iff] at he
  have hb : ∀ {z : ℝ}, 0 ≤ z → z ≤ 10001 → 0 ≤ PyRound.rnd z ∧ PyRound.rnd z ≤ 10 ^ 6 := by
    intro z h0 h1
    obtain ⟨h2, h3⟩ := abs_le.1 (PyRound.near z)
    constructor
    · have : (-1 : ℝ) < PyRound.rnd z := by linarith
      have : -1 < PyRound.rnd z := by exact_mod_cast this
      omega
    · have : (PyRound.rnd z : ℝ) ≤ 10 ^ 6 := by norm_num; linarith
      exact_mod_cast this
  obtain ⟨b1, b2⟩ := hb (Real.sqrt_nonneg _) sS
  obtain ⟨b3, b4⟩ := hb (Real.sqrt_nonneg _) sE
  exact div_inj64 hp b3 b1 b4 b2 hfp he

/-- What the point on the circle is, for each plane. -/
theorem circleEnd_adjust64 {plane : Plane} {delta radius pos ce : V4 F64} {rot : Rot}
    (h : circleEnd c plane delta radius pos rot = .ok ce) :
    (∃ pa pb ma mb, adjustCircle (delta.get (axisA plane)) (delta.get (axisB plane))
      (radius.get (axisA plane)) (radius.get (axisB plane)) rot pa pb ma mb =
        .ok (ce.get (axisA plane), ce.get (axisB plane))) ∧
    ce.get (axis3 plane) = delta.get (axis3 plane) ∧ ce.get .e = delta.get .e := by
  unfold circleEnd at h
  cases plane <;>
  · obtain ⟨⟨a, b⟩, h1, h⟩ := bindE_ok h
    cases h
    exact ⟨⟨_, _, _, _, h1⟩, rfl, rfl⟩

/-- The lengths after rounding to steps. -/
theorem norm_end64 {x y R p : ℝ} {a b : ℤ} (hp : 0 < p) (hR : 0 < R) (hR2 : R * p ≤ 10000)
    (hsq : |x ^ 2 + y ^ 2 - R ^ 2| ≤ R ^ 2 * (1 / 10 ^ 11)) (ha : |(a : ℝ) - x * p| ≤ 1 / 2 + 2 / 10 ^ 6)
    (hb : |(b : ℝ) - y * p| ≤ 1 / 2 + 2 / 10 ^ 6) :
    |√((a : ℝ) ^ 2 + (b : ℝ) ^ 2) - R * p| ≤ 3 / 4 := by
  have h1 := norm_half ha hb
  have e : (x * p) ^ 2 + (y * p) ^ 2 = (x ^ 2 + y ^ 2) * p ^ 2 := by ring
  rw [e, Real.sqrt_mul (by positivity), Real.sqrt_sq hp.le] at h1
  obtain ⟨l1, l2⟩ := abs_le.1 hsq
  have u1 : √(x ^ 2 + y ^ 2) ≤ R * (1 + 1 / 10 ^ 6) := by
    refine Real.sqrt_le_iff.2 ⟨by positivity, ?_⟩
    have := sq_nonneg R
    norm_num at *
    nlinarith
  have u2 : R * (1 - 1 / 10 ^ 6) ≤ √(x ^ 2 + y ^ 2) := by
    refine Real.le_sqrt_of_sq_le ?_
    have := sq_nonneg R
    norm_num at *
    nlinarith
  have v1 := mul_le_mul_of_nonneg_right u1 hp.le
  have v2 := mul_le_mul_of_nonneg_right u2 hp.le
  have w1 : R * (1 + 1 / 10 ^ 6) * p = R * p + R * p * (1 / 10 ^ 6) := by ring
  have w2 : R * (1 - 1 / 10 ^ 6) * p = R * p - R * p * (1 / 10 ^ 6) := by ring
  rw [w1] at v1
  rw [w2] at v2
  obtain ⟨m1, m2⟩ := abs_le.1 h1
  have hR3 := mul_le_mul_of_nonneg_right hR2 (by norm_num : (0 : ℝ) ≤ 1 / 10 ^ 6)
  have n1 : (10000 : ℝ) * (1 / 10 ^ 6) = 1 / 100 := by norm_num
  rw [n1] at hR3
  exact abs_le.2 ⟨by linarith, by linarith⟩

/-- What is known of the end of the arc that is made. -/
structure AsideEnd (c : Cfg) (r : Ref) (plane : Plane) (w k : Axis → Option ℚ) (rot : Rot) (v : ℝ)
    (E : V4 ℝ) : Prop where
  steps : ∀ ax, ∃ n : ℤ, E.get ax = n / c.ppm.get ax
  grid : ∀ ax, Grid (E.get ax)
  third : E.get (axis3 plane) = 0
  extruder : E.get .e = 0
  near : ∀ ax, ax = axisA plane ∨ ax = axisB plane → |E.get ax| ≤ 3 * startDist plane (r.toCentre c k)
  signA : SameSign (endA plane E (r.toCentre c k)) (endA plane (r.toEnd c w) (r.toCentre c k))
  signB : SameSign (endB plane E (r.toCentre c k)) (endB plane (r.toEnd c w) (r.toCentre c k))
  dist : |endDist plane E (r.toCentre c k) * c.ppm.get (axisA plane) -
    startDist plane (r.toCentre c k) * c.ppm.get (axisA plane)| ≤ 3 / 4
  ends : ∀ {v' : F64} {g : CircGen F64},
    CircGen.new c (E.map F64.of) ((r.toCentre c k).map F64.of) plane rot v' = .ok g →
    PyRound.rnd (endDist plane E (r.toCentre c k) * c.ppm.get (axisA plane)) =
      PyRound.rnd (startDist plane (r.toCentre c k) * c.ppm.get (axisA plane))
  ordinary : PyRound.rnd (endDist plane E (r.toCentre c k) * c.ppm.get (axisA plane)) =
      PyRound.rnd (startDist plane (r.toCentre c k) * c.ppm.get (axisA plane)) →
    OrdinaryArc c E (r.toCentre c k) plane v
  ahead : ¬ BackInQuarter plane E (r.toCentre c k)

/-- The end of the arc that is made. -/
theorem aside_end64 (hc : FloatMachine c) {r : Ref} {plane : Plane} {rot : Rot} {w k : Axis → Option ℚ}
    {v : ℝ} (hv : 1 ≤ v) (h : AsideArc c r plane w k)
    (htab : ∀ ax, ax ≠ .e → |(r.toEnd c w).get ax| ≤ 10 ^ 4) {pos ce : V4 F64}
    (hce : circleEnd c plane ((r.toEnd c w).map F64.of) ((r.toCentre c k).map F64.of) pos rot = .ok ce) :
    ∃ E : V4 ℝ, roundToSteps c ce = E.map F64.of ∧ AsideEnd c r plane w k rot v E := by
  obtain ⟨na, nb, n3⟩ := axes_ne_e plane
  have hP : ∀ ax, (0 : ℝ) < c.ppm.get ax := fun ax => by exact_mod_cast hc.plain.sane.cfg.ppm_pos ax
  have hP' : ∀ ax, (c.ppm.get ax : ℝ) ≤ 1000 := fun ax => by
    exact_mod_cast hc.plain.sane.cfg.ppm_le ax
  obtain ⟨⟨pa, pb, ma, mb, hadj⟩, c3, cE⟩ := circleEnd_adjust64 hce
  simp only [get_map64] at hadj c3 cE
  have hE0 : (r.toEnd c w).get .e = 0 := toEnd_e h.extruder
  have h30 : (r.toEnd c w).get (axis3 plane) = 0 := by rw [toEnd_get n3, h.flat]; simp
  rw [h30] at c3
  rw [hE0] at cE
  obtain ⟨hr2, hasd⟩ := h.aside
  have hst := h.steps
  have hsize := h.size
  have hother := h.other
  have hgA := (decimalStep_ppm (hc.plain.step _ na)).2
  have hp1 := hc.ppm (axisA plane)
  have hp2 := hc.plain.sane.cfg.ppm_le (axisA plane)
  have hfp := h.exact
  have hPA := hP (axisA plane)
  have hPA' := hP' (axisA plane)
  have rA : (r.toCentre c k).get (axisA plane) * c.ppm.get (axisA plane) = (r.centre c k (axisA plane) : ℤ) := by
    rw [toCentre_get na, onSteps_div (hP _)]
  have rB : (r.toCentre c k).get (axisB plane) * c.ppm.get (axisA plane) = (r.centre c k (axisB plane) : ℤ) := by
    rw [toCentre_get nb, h.same, onSteps_div (hP _)]
  have tA : (r.toEnd c w).get (axisA plane) * c.ppm.get (axisA plane) = (r.go c w (axisA plane) : ℤ) := by
    rw [toEnd_get na, onSteps_div (hP _)]
  have tB : (r.toEnd c w).get (axisB plane) * c.ppm.get (axisA plane) = (r.go c w (axisB plane) : ℤ) := by
    rw [toEnd_get nb, h.same, onSteps_div (hP _)]
  have hsd : startDist plane (r.toCentre c k) =
      √((r.toCentre c k).get (axisA plane) ^ 2 + (r.toCentre c k).get (axisB plane) ^ 2) := by
    unfold startDist startA startB; rw [neg_sq, neg_sq]
  have htA := htab _ na
  have htB := htab _ nb
  have h0 : ¬ ((r.toEnd c w).get (axisA plane) = 0 ∧ (r.toEnd c w).get (axisB plane) = 0) := by
    rintro ⟨zA, zB⟩
    apply hother
    simp only [startA, startB, endA, endB, zA, zB, zero_sub]
  have hpB : c.ppm.get (axisB plane) = c.ppm.get (axisA plane) := h.same.symm
  have radOn : ∀ {ax}, ax ≠ .e → OnSteps c (r.toCentre c k) ax := fun {ax} hax =>
    ⟨r.centre c k ax, by rw [toCentre_get hax, onSteps_div (hP _)]⟩
  have hcs := startDist_ge (c := c) (r := r) (plane := plane) (k := k) hc.plain.sane.cfg
  set p : ℚ := c.ppm.get (axisA plane) with hpd
  set rad := r.toCentre c k with hrad
  set D := r.toEnd c w with hD
  set xa := D.get (axisA plane) with hxa
  set xb := D.get (axisB plane) with hxb
  set ya := rad.get (axisA plane) with hya
  set yb := rad.get (axisB plane) with hyb
  set N := r.centre c k (axisA plane) with hN
  set M := r.centre c k (axisB plane) with hM
  rw [hsd] at hr2 hasd hst hsize
  have eA : endA plane D rad = xa - ya := rfl
  have eB : endB plane D rad = xb - yb := rfl
  rw [eA, eB] at hasd hother
  have yal : |ya| ≤ √(ya ^ 2 + yb ^ 2) := Real.abs_le_sqrt (by nlinarith [sq_nonneg yb])
  have ybl : |yb| ≤ √(ya ^ 2 + yb ^ 2) := Real.abs_le_sqrt (by nlinarith [sq_nonneg ya])
  have gap : ∀ {x y : ℝ} {m n : ℤ}, x * p = m → y * p = n → x = y ∨ 1 / 1000 ≤ |x - y| := by
    intro x y m n hx hy
    by_cases hmn : m = n
    · left
      have : x * p = y * p := by rw [hx, hy, hmn]
      exact mul_right_cancel₀ hPA.ne' this
    · right
      have h1 : (1 : ℝ) ≤ |((m - n : ℤ) : ℝ)| := by
        rw [← Int.cast_abs]
        exact_mod_cast Int.one_le_abs (sub_ne_zero.2 hmn)
      have h2 : ((m - n : ℤ) : ℝ) = (x - y) * p := by push_cast; rw [← hx, ← hy]; ring
      rw [h2, abs_mul, abs_of_pos hPA] at h1
      have h3 := mul_le_mul_of_nonneg_left hPA' (abs_nonneg (x - y))
      linarith
  obtain ⟨ea, eb, ha, hb, bA, bB, hsq⟩ := adjust_point64 hadj h0 hPA hr2 hst
    (off64 htA ((yal.trans hsize).trans (by norm_num)) (gap tA rA))
    (off64 htB ((ybl.trans hsize).trans (by norm_num)) (gap tB rB)) hasd
  -- sizes
  set R := √(ya ^ 2 + yb ^ 2) with hRd
  have hR0 : 0 < R := by
    by_contra hn
    have := mul_nonpos_of_nonpos_of_nonneg (not_lt.1 hn) hPA.le
    linarith
  have hsq' := abs_le.1 hsq
  have small : ∀ {x y : ℝ}, x ^ 2 + y ^ 2 - R ^ 2 ≤ R ^ 2 * (1 / 10 ^ 11) → |x| ≤ 1001 / 1000 * R := by
    intro x y hxy
    refine abs_le.2 (abs_le_of_sq_le_sq' ?_ (by positivity))
    have := sq_nonneg y
    have := sq_nonneg R
    norm_num at *
    nlinarith
  have sA : |ea.1| ≤ 1001 / 1000 * R := small hsq'.2
  have sB : |eb.1| ≤ 1001 / 1000 * R := small (x := eb.1) (y := ea.1) (by rw [add_comm]; exact hsq'.2)
  have hy1 : |ya| ≤ 1000 := yal.trans hsize
  have hy2 : |yb| ≤ 1000 := ybl.trans hsize
  obtain ⟨nA, qA, dA, gA⟩ := axis_end64 hp1 hp2 hgA bA (by linarith) rA hy1
  obtain ⟨nB, qB, dB, gB⟩ := axis_end64 hp1 hp2 hgA bB (by linarith) rB hy2
  have hnorm := norm_end64 hPA hR0 hst hsq dA dB
  let f : Axis → ℝ := fun ax => if ax = axisA plane then (nA : ℝ) / p else
    if ax = axisB plane then (nB : ℝ) / p else 0
  let E : V4 ℝ := ⟨f .x, f .y, f .z, f .e⟩
  have hf : ∀ ax, E.get ax = f ax := by intro ax; cases ax <;> rfl
  have fA : E.get (axisA plane) = (nA : ℝ) / p := by rw [hf]; simp [f]
  have fB : E.get (axisB plane) = (nB : ℝ) / p := by rw [hf]; cases plane <;> simp [f, axisA, axisB]
  have f3 : E.get (axis3 plane) = 0 := by
    rw [hf]; cases plane <;> simp [f, axisA, axisB, axis3]
  have fE : E.get .e = 0 := by rw [hf]; cases plane <;> simp [f, axisA, axisB]
  have four : ∀ {C : Axis → Prop}, C (axisA plane) → C (axisB plane) → C (axis3 plane) → C .e → ∀ ax, C ax := by
    intro C h1 h2 h3 h4 ax
    cases plane <;> cases ax <;> assumption
  have hz : ∀ q : ℚ, 0 < q → q ≤ 1000 →
      PyNum.round10 (Coord.roundTo (F64.of 0) (PyNum.ofRat 1 /ₚ PyNum.ofRat q)) = F64.of 0 := by
    intro q h1 h2
    refine roundTo_exact64 (n := 0) h1 h2 (by norm_num) (by norm_num) grid_zero (by norm_num)
  have hzz := fun ax => hz _ (hc.plain.sane.cfg.ppm_pos ax) (hc.plain.sane.cfg.ppm_le ax)
  have e1 : ((nA - N : ℤ) : ℝ) = endA plane E rad * p := by
    rw [endA, sub_mul, fA, div_mul_cancel₀ _ hPA.ne', rA]; push_cast; ring
  have e2 : ((nB - M : ℤ) : ℝ) = endB plane E rad * p := by
    rw [endB, sub_mul, fB, div_mul_cancel₀ _ hPA.ne', rB]; push_cast; ring
  have cEd : endDist plane E rad * p = √(((nA - N : ℤ) : ℝ) ^ 2 + ((nB - M : ℤ) : ℝ) ^ 2) := by
    rw [e1, e2]
    have : (endA plane E rad * p) ^ 2 + (endB plane E rad * p) ^ 2 =
      (endA plane E rad ^ 2 + endB plane E rad ^ 2) * (p : ℝ) ^ 2 := by ring
    rw [this, Real.sqrt_mul (by positivity), Real.sqrt_sq hPA.le]
    rfl
  have hsg : ∀ {x y : ℝ}, SameSign (x * p) y → SameSign x y := by
    intro x y h
    rcases h with ⟨h1, h2⟩ | ⟨h1, h2⟩ | ⟨h1, h2⟩
    · exact .inl ⟨(mul_pos_iff_of_pos_right hPA).1 h1, h2⟩
    · exact .inr (.inl ⟨by
        by_contra hn
        have := mul_nonneg (not_lt.1 hn) hPA.le
        linarith, h2⟩)
    · exact .inr (.inr ⟨(mul_eq_zero.1 h1).resolve_right hPA.ne', h2⟩)
  refine ⟨E, ?_, ?_, ?_, f3, fE, ?_, hsg (by rw [← e1]; exact gA), hsg (by rw [← e2]; exact gB),
    by rw [cEd, hsd]; exact hnorm, ?_, ?_, ?_⟩
  · refine V4.ext_get ?_
    refine four ?_ ?_ ?_ ?_
    · rw [get_roundToStepsF, get_map64, fA, ha]; exact qA
    · rw [get_roundToStepsF, get_map64, fB, hb, hpB]; exact qB
    · rw [get_roundToStepsF, get_map64, f3, c3]; exact hzz _
    · rw [get_roundToStepsF, get_map64, fE, cE]; exact hzz _
  · refine four ⟨nA, fA⟩ ⟨nB, by rw [fB, hpB]⟩ ⟨0, by rw [f3]; simp⟩ ⟨0, by rw [fE]; simp⟩
  · refine four (by rw [fA]; exact hgA _) (by rw [fB]; exact hgA _) (by rw [f3]; exact grid_zero)
      (by rw [fE]; exact grid_zero)
  · have key : ∀ {x y e : ℝ} {n m : ℤ}, x = (n : ℝ) / p → |y| ≤ R → y * p = (m : ℤ) → |e| ≤ 1001 / 1000 * R →
        |((n - m : ℤ) : ℝ) - e * p| ≤ 1 / 2 + 2 / 10 ^ 6 → |x| ≤ 3 * R := by
      intro x y e n m hx hy hm he hd
      rw [hx, abs_div, abs_of_pos hPA, div_le_iff₀ hPA]
      have h1 : (n : ℝ) = (((n - m : ℤ) : ℝ) - e * p) + e * p + y * p := by rw [hm]; push_cast; ring
      have h2 := mul_le_mul_of_nonneg_right hy hPA.le
      have h3 := mul_le_mul_of_nonneg_right he hPA.le
      have h4 : |(n : ℝ)| ≤ |((n - m : ℤ) : ℝ) - e * p| + |e| * p + |y| * p := by
        have e1 : |e| * (p : ℝ) = |e * p| := by rw [abs_mul, abs_of_pos hPA]
        have e2 : |y| * (p : ℝ) = |y * p| := by rw [abs_mul, abs_of_pos hPA]
        rw [e1, e2]
        conv_lhs => rw [h1]
        exact abs_add_three _ _ _
      have h5 : (2 : ℝ) / 10 ^ 6 ≤ 1 / 10 := by norm_num
      linarith
    rw [hsd]
    rintro ax (rfl | rfl)
    · exact key fA yal rA sA dA
    · exact key fB ybl rB sB dB
  · intro v' g hg
    have hm := abs_le.1 hnorm
    have cS : √(((-N : ℤ) : ℝ) ^ 2 + ((-M : ℤ) : ℝ) ^ 2) = R * p := by
      push_cast
      rw [neg_sq, neg_sq, ← rA, ← rB]
      have : (ya * p) ^ 2 + (yb * p) ^ 2 = (ya ^ 2 + yb ^ 2) * (p : ℝ) ^ 2 := by ring
      rw [this, Real.sqrt_mul (by positivity), Real.sqrt_sq hPA.le]
    have ne_of : ∀ {a b : ℤ}, √((a : ℝ) ^ 2 + (b : ℝ) ^ 2) ≠ 0 → a ≠ 0 ∨ b ≠ 0 := by
      intro a b hne
      by_contra hcon
      push Not at hcon
      apply hne
      rw [hcon.1, hcon.2]; simp
    have hends := ends_of64 (A := -N) (B := -M) (EA := nA - N) (EB := nB - M) hg rfl hpB hPA hfp
      (by rw [rA]; simp) (by rw [rB]; simp) (by rw [fA, div_mul_cancel₀ _ hPA.ne']; simp)
      (by rw [fB, div_mul_cancel₀ _ hPA.ne']; simp) (ne_of (by rw [cS]; positivity))
      (ne_of (by intro h; rw [h] at hm; linarith [hm.1])) (by rw [cS]; linarith) (by linarith [hm.2])
      (by rw [cS]; linarith [hm.1])
    rw [cEd, hends, cS, hsd]
  · intro hends
    have hco : (coarse c plane : ℚ) = p := by unfold coarse; rw [hpB, ← hpd, min_self]
    have fE' : E.e = 0 := fE
    refine ⟨⟨hc.plain.sane.cfg.ppm_pos _, hc.plain.sane.cfg.ppm_pos _, radOn na, radOn nb,
      ⟨nA, by rw [fA, ← hpd, div_mul_cancel₀ _ hPA.ne']⟩, ⟨nB, by rw [fB, hpB, div_mul_cancel₀ _ hPA.ne']⟩,
      .inl hpB.symm⟩, by rw [hsd]; exact hR0.ne', ?_, by rw [hsd]; exact hsize, by rw [f3]; norm_num,
      by rw [fE']; norm_num, fun hne => absurd f3 hne, fun hne => absurd fE' hne, .inl ⟨f3, fE'⟩, hv⟩
    rw [hco]; exact hends
  · rintro ⟨hq, -⟩
    apply hother
    rw [hq, ← arcQuarter_scale (a := endA plane E rad) hPA]
    rw [← e1, ← e2]
    exact arcQuarter_sign gA gB

end PyCNC
