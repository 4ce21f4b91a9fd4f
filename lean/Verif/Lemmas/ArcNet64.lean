import Verif.Lemmas.Arc64

/-!
# Where arcs end in binary64
-/

set_option linter.unusedSectionVars false

namespace PyCNC

open Spec

/-- An axis that starts one step further on is always one step ahead. -/
theorem walk_later {R s d : ℤ} (h : -R ≤ s + d ∧ s + d ≤ R) (i : ℕ) :
    walk R (s + d) d i = walk R s d (i + 1) := by
  induction i with
  | zero =>
    change (s + d, d) = bounce R (s, d)
    unfold bounce
    rw [if_pos h]
  | succ i ih =>
    rw [walk, ih]
    rfl

/-- One step moves by one step. -/
theorem walk_unit {R s d : ℤ} (hd : d = 1 ∨ d = -1) (i : ℕ) :
    |(walk R s d (i + 1)).1 - (walk R s d i).1| = 1 := by
  have h := walk_dir (R := R) (s := s) hd i
  have e : walk R s d (i + 1) = bounce R (walk R s d i) := rfl
  rw [e]
  unfold bounce
  split
  · simp only [add_sub_cancel_left]
    rcases h with h | h <;> rw [h] <;> rfl
  · simp only [sub_sub_cancel_left, abs_neg]
    rcases h with h | h <;> rw [h] <;> rfl

/-- Starting one step off changes the distance by at most two steps. -/
theorem walk_off {R A S d : ℤ} (hA : -R ≤ A ∧ A ≤ R) (hS : -R ≤ S ∧ S ≤ R) (hd : d = 1 ∨ d = -1)
    (h : S = A ∨ S = A + 1 ∨ S = A - 1) (i : ℕ) :
    |((walk R S d i).1 - S) - ((walk R A d i).1 - A)| ≤ 2 := by
  have key : S = A ∨ S = A + d ∨ A = S + d := by omega
  rcases key with rfl | rfl | rfl
  · simp
  · rw [walk_later hS]
    have := walk_unit (R := R) (s := A) hd i
    rw [_root_.abs_eq (by norm_num)] at this
    rw [abs_le]
    omega
  · rw [walk_later hA]
    have := walk_unit (R := R) (s := S) hd i
    rw [_root_.abs_eq (by norm_num)] at this
    rw [abs_le]
    omega

/-- An axis that is sent no pulse does not move. -/
theorem net_of_steps_zero {F : Type} {c : Cfg} {ax : Axis} {evs : List (Event F)}
    (h : steps ax evs = 0) : netSteps c ax evs = 0 := by
  suffices H : ∀ d, netFrom c ax d evs = 0 from H 0
  intro d
  induction evs generalizing d with
  | nil => rfl
  | cons e r ih =>
    cases e with
    | dir v => exact ih h _
    | pulse t =>
      unfold netFrom
      cases hx : t.get ax with
      | none =>
        have h' : steps ax r = 0 := by
          simp only [steps, stepTimes, hx] at h; exact h
        simp [ih h']
      | some τ =>
        simp [steps, stepTimes, hx] at h

variable [PyRound]

/-- `int(x * pulses_per_mm)` of a coordinate on a step. -/
theorem trunc_near {x : ℝ} {p : ℚ} {n : ℤ} (hp : 0 < (p : ℝ)) (hfp : fl p = p) (hx : x * p = (-n : ℤ))
    (hn : |(n : ℝ)| ≤ 10 ^ 5) :
    let S := PyNum.truncI (PyNum.neg (F64.of x) *ₚ PyNum.ofRat p)
    S = n ∨ S = n + 1 ∨ S = n - 1 := by
  have hv : (PyNum.neg (F64.of x) *ₚ PyNum.ofRat p).1 = -fl (fl x * p) := by
    rw [val_mul, val_ofRat, hfp, val_neg, neg_mul, fl_neg]; rfl
  have hnear : |-fl (fl x * p) - n| < 1 := by
    have h1 := of_on_step hp hx
    change |fl x * p - _| ≤ _ at h1
    push_cast at h1
    rw [abs_neg, sub_neg_eq_add] at h1
    have h2 := fl_near (fl x * p)
    rw [show -fl (fl x * p) - n = -(fl (fl x * p) + n) by ring, abs_neg]
    generalize fl (fl x * p) = z at *
    generalize fl x * (p : ℝ) = w at *
    have h3 : |w| ≤ |(n : ℝ)| + 1 := by
      have := abs_sub_abs_le_abs_sub w (-(n : ℝ))
      rw [abs_neg, sub_neg_eq_add] at this
      linarith
    have h4 := abs_sub_le z w (-(n : ℝ))
    rw [sub_neg_eq_add, sub_neg_eq_add] at h4
    linarith
  obtain ⟨k1, k2⟩ := abs_lt.1 hnear
  simp only
  change (if 0 ≤ (PyNum.neg (F64.of x) *ₚ PyNum.ofRat p : F64).1 then
    ⌊(PyNum.neg (F64.of x) *ₚ PyNum.ofRat p : F64).1⌋ else
    ⌈(PyNum.neg (F64.of x) *ₚ PyNum.ofRat p : F64).1⌉) = n ∨ (if 0 ≤
      (PyNum.neg (F64.of x) *ₚ PyNum.ofRat p : F64).1 then
    ⌊(PyNum.neg (F64.of x) *ₚ PyNum.ofRat p : F64).1⌋ else
    ⌈(PyNum.neg (F64.of x) *ₚ PyNum.ofRat p : F64).1⌉) = n + 1 ∨ (if 0 ≤
      (PyNum.neg (F64.of x) *ₚ PyNum.ofRat p : F64).1 then
    ⌊(PyNum.neg (F64.of x) *ₚ PyNum.ofRat p : F64).1⌋ else
    ⌈(PyNum.neg (F64.of x) *ₚ PyNum.ofRat p : F64).1⌉) = n - 1
  rw [hv]
  generalize -fl (fl x * p) = z at *
  split
  · have a : n - 1 ≤ ⌊z⌋ := Int.le_floor.2 (by push_cast; linarith)
    have b : ⌊z⌋ < n + 1 := Int.floor_lt.2 (by push_cast; linarith)
    omega
  · have a : n - 1 < ⌈z⌉ := Int.lt_ceil.2 (by push_cast; linarith)
    have b : ⌈z⌉ ≤ n + 1 := Int.ceil_le.2 (by push_cast; linarith)
    omega

variable {c : Cfg} {delta radius : V4 ℝ} {plane : Plane} {v : ℝ}

/-- The sign of a number survives. -/
theorem sign_of64 (x : ℝ) : sign1 (F64.of x) = if x < 0 then -1 else 1 := by
  have h : ((F64.of x) <ₚ PyNum.ofRat 0) = true ↔ x < 0 := by
    rw [lt64_iff, val_ofRat, Rat.cast_zero, fl_zero]
    change fl x < 0 ↔ x < 0
    constructor
    · intro h1
      by_contra hc
      linarith [fl_nonneg (not_lt.1 hc)]
    · intro h1
      have := fl_pos (x := -x) (by linarith)
      rw [fl_neg] at this
      linarith
  unfold sign1
  by_cases hx : x < 0
  · rw [if_pos (h.2 hx), if_pos hx]
  · rw [if_neg (fun h1 => hx (h.1 h1)), if_neg hx]

/-- The pulses of the axis across the plane and of the extruder. -/
theorem other64 (hc : SaneCfg c) {g' : CircGen F64} (hpl : g'.plane = plane)
    (hd3 : |delta.get (axis3 plane)| ≤ 1000) (hdE : |delta.e| ≤ 1000)
    (i3 : g'.it3 = PyNum.abs (F64.of (delta.get (axis3 plane))) *ₚ
      PyNum.ofRat (c.ppm.get (axis3 plane)))
    (iE : g'.itE = PyNum.abs (F64.of delta.e) *ₚ PyNum.ofRat c.ppm.e)
    (d3 : g'.dir3 = sign1 (F64.of (delta.get (axis3 plane)))) (dE : g'.dirE = sign1 (F64.of delta.e)) :
    g'.it3.1 ≤ 2 ^ 53 ∧ g'.itE.1 ≤ 2 ^ 53 ∧ ∀ evs, Emits c (.circular g') evs →
      ∀ ax, ax = axis3 plane ∨ ax = .e →
        (steps ax evs : ℤ) = ⌈fl (|fl (delta.get ax)| * fl (c.ppm.get ax))⌉₊ ∧
        netSteps c ax evs = if delta.get ax < 0 then -(steps ax evs : ℤ) else (steps ax evs : ℤ) := by
  have val : ∀ x : ℝ, ∀ q : ℚ, (PyNum.abs (F64.of x) *ₚ (PyNum.ofRat q : F64)).1 =
      fl (|fl x| * fl q) := fun x q => by rw [val_mul, val_abs, val_ofRat]; rfl
  have small : ∀ x : ℝ, ∀ ax, |x| ≤ 1000 → fl (|fl x| * fl (c.ppm.get ax)) ≤ 2 ^ 53 := by
    intro x ax hx
    have h1 := fl_near x
    have h2 := abs_sub_abs_le_abs_sub (fl x) x
    have p1 : (0 : ℝ) < c.ppm.get ax := by exact_mod_cast hc.ppm_pos ax
    have p2 : (c.ppm.get ax : ℝ) ≤ 1000 := by exact_mod_cast hc.ppm_le ax
    have h3 := fl_hi p1.le
    have h5 : |fl x| * fl (c.ppm.get ax) ≤ 1001 * 1001 := by
      have h0 := fl_nonneg p1.le
      gcongr <;> linarith
    have h6 := fl_hi (mul_nonneg (abs_nonneg (fl x)) (fl_nonneg p1.le))
    generalize |fl x| * fl (c.ppm.get ax) = y at *
    norm_num
    linarith
  have k3 : g'.it3.1 ≤ 2 ^ 53 := by rw [i3, val]; exact small _ _ hd3
  have kE : g'.itE.1 ≤ 2 ^ 53 := by rw [iE, val]; exact small _ .e hdE
  refine ⟨k3, kE, fun evs he ax hax => ?_⟩
  obtain ⟨N, hN⟩ := he
  have hN := hN N le_rfl
  have h3 := circ_run_3 c g' N
  have hE := circ_run_e c g' N
  have s3 := (circ_steps_3 c g' N ⌈g'.it3.1⌉₊ fun i => by
    rw [← fires64_iff _ k3 i, Bool.not_eq_true']).2
  have sE := (circ_steps_e c g' N ⌈g'.itE.1⌉₊ fun i => by
    rw [← fires64_iff _ kE i, Bool.not_eq_true']).2
  rw [hpl] at h3 s3
  rw [hN] at h3 hE s3 sE
  rcases hax with rfl | rfl
  · rw [h3, s3 rfl, d3, i3, val, sign_of64]
    refine ⟨rfl, ?_⟩
    split <;> simp
  · rw [hE, sE rfl, dE, iE, val, sign_of64]
    refine ⟨rfl, ?_⟩
    change _ = if delta.e < 0 then _ else _
    split <;> simp

/-- The pulses of such an axis are those of its distance, up to the rounding. -/
theorem ceil64 {x : ℝ} {p : ℚ} (hx : |x| ≤ 1000) (hp : 0 < (p : ℝ)) (hp2 : (p : ℝ) ≤ 1000)
    (hfp : fl p = p) : |x| * p - 1 / 10 ^ 6 ≤ ⌈fl (|fl x| * fl p)⌉₊ ∧
      (⌈fl (|fl x| * fl p)⌉₊ : ℝ) < |x| * p + 1 + 1 / 10 ^ 6 ∧
      ∀ n : ℤ, x * p = n → Fits p n →
        (⌈fl (|fl x| * fl p)⌉₊ : ℤ) = |n| := by
  rw [hfp]
  have h1 := fl_near x
  have h2 := abs_sub_abs_le_abs_sub (fl x) x
  have h3 := abs_sub_abs_le_abs_sub x (fl x)
  rw [abs_sub_comm x] at h3
  have y0 : 0 ≤ |fl x| * (p : ℝ) := by positivity
  have l1 := fl_lo y0
  have l2 := fl_hi y0
  have m1 : (|x| - |x| * (1 / 10 ^ 15)) * p ≤ |fl x| * p := by gcongr; linarith
  have m2 : |fl x| * p ≤ (|x| + |x| * (1 / 10 ^ 15)) * p := by gcongr; linarith
  have m3 : |x| * p ≤ 1000 * 1000 := by gcongr
  have z0 := fl_nonneg y0
  have e0 : fl (|fl x| * p) = |fl (fl x * p)| := by
    rw [← abs_of_pos hp, ← abs_mul, abs_of_pos hp]
    rcases le_total 0 (fl x * p) with h | h
    · rw [abs_of_nonneg h, abs_of_nonneg (fl_nonneg h)]
    · have h' := fl_nonneg (x := -(fl x * p)) (by linarith)
      rw [fl_neg] at h'
      rw [abs_of_nonpos h, fl_neg, abs_of_nonpos (by linarith)]
  have c1 : fl (|fl x| * p) ≤ ⌈fl (|fl x| * p)⌉₊ := Nat.le_ceil _
  have c2 := Nat.ceil_lt_add_one z0
  refine ⟨by linarith, by linarith, fun n hn hov => ?_⟩
  have hxd : x = n / p := by rw [eq_div_iff hp.ne']; exact hn
  unfold Fits at hov
  rw [← hxd, ← e0] at hov
  have hxn : |x| * p = |(n : ℝ)| := by rw [← hn, abs_mul, abs_of_pos hp]
  have u : (⌈fl (|fl x| * p)⌉₊ : ℝ) < (|n| : ℤ) + 1 := by push_cast; linarith
  have l : ((|n| : ℤ) : ℝ) - 1 < ⌈fl (|fl x| * p)⌉₊ := by push_cast; linarith
  have u' : (⌈fl (|fl x| * p)⌉₊ : ℤ) < |n| + 1 := by exact_mod_cast u
  have l' : |n| - 1 < (⌈fl (|fl x| * p)⌉₊ : ℤ) := by exact_mod_cast l
  omega

theorem other_steps (hc : SaneCfg c) (h : OrdinaryArc c delta radius plane v)
    (hfp : ∀ ax, fl (c.ppm.get ax) = c.ppm.get ax) {ax : Axis} (hx : ax = axis3 plane ∨ ax = .e)
    {evs : List (Event F64)}
    (hk : (steps ax evs : ℤ) = ⌈fl (|fl (delta.get ax)| * fl (c.ppm.get ax))⌉₊ ∧
      netSteps c ax evs = if delta.get ax < 0 then -(steps ax evs : ℤ) else (steps ax evs : ℤ)) :
    |delta.get ax| * c.ppm.get ax - 1 / 10 ^ 6 ≤ steps ax evs ∧
      (steps ax evs : ℝ) < |delta.get ax| * c.ppm.get ax + 1 + 1 / 10 ^ 6 ∧
      netSteps c ax evs = (if delta.get ax < 0 then -(steps ax evs : ℤ) else (steps ax evs : ℤ)) ∧
      ∀ n : ℤ, delta.get ax * c.ppm.get ax = n → Fits (c.ppm.get ax) n → netSteps c ax evs = n := by
  have p1 : (0 : ℝ) < c.ppm.get ax := by exact_mod_cast hc.ppm_pos ax
  have p2 : (c.ppm.get ax : ℝ) ≤ 1000 := by exact_mod_cast hc.ppm_le ax
  have hle : |delta.get ax| ≤ 1000 := by
    rcases hx with rfl | rfl
    exacts [h.le3, h.leE]
  obtain ⟨k1, k2⟩ := hk
  obtain ⟨c1, c2, c3⟩ := ceil64 hle p1 p2 (hfp ax)
  have k1' : steps ax evs = ⌈fl (|fl (delta.get ax)| * fl (c.ppm.get ax))⌉₊ := by exact_mod_cast k1
  rw [← k1'] at c1 c2 c3
  refine ⟨c1, c2, k2, fun n hn hov => ?_⟩
  rw [k2, c3 n hn hov]
  have hs : delta.get ax < 0 ↔ n < 0 := by
    rw [← Int.cast_lt_zero (R := ℝ), ← hn]
    constructor
    · intro h1; exact mul_neg_of_neg_of_pos h1 p1
    · intro h1; exact neg_of_mul_neg_left h1 p1.le
  by_cases h0 : n < 0
  · rw [if_pos (hs.2 h0), abs_of_neg h0]; ring
  · rw [if_neg (fun h1 => h0 (hs.1 h1)), abs_of_nonneg (not_lt.1 h0)]

open scoped Classical in
/-- The pulses of an arc in binary64. -/
theorem arc64_net (hc : SaneCfg c) (h : OrdinaryArc c delta radius plane v)
    (hpq : c.ppm.get (axisA plane) = c.ppm.get (axisB plane))
    (hfp : fl (c.ppm.get (axisA plane)) = c.ppm.get (axisA plane))
    (hsz : startDist plane radius * c.ppm.get (axisA plane) ≤ 10000)
    (hbal : (delta.get (axis3 plane) = 0 ∧ delta.e = 0) ∨ Balanced plane delta radius)
    (hR : Survives (c.ppm.get (axisA plane))
      (PyRound.rnd (startDist plane radius * c.ppm.get (axisA plane)))) (rot : Rot) :
    ∃ g g' evs, CircGen.new c delta radius plane rot v = .ok g ∧
      CircGen.new c (delta.map F64.of) (radius.map F64.of) plane rot (F64.of v) = .ok g' ∧
      Emits c (.circular g') evs ∧
      (∀ evs', Emits c (.circular g) evs' → ∀ ax, ax = axisA plane ∨ ax = axisB plane →
        steps ax evs = steps ax evs') ∧
      ∀ ax, (ax = axisA plane ∨ ax = axisB plane →
        |(netSteps c ax evs : ℝ) - (if BackInQuarter plane delta radius then 0 else
          delta.get ax * c.ppm.get ax)| ≤ 2 ∧
        ((∀ n : ℤ, radius.get ax * c.ppm.get ax = n → Survives (c.ppm.get ax) n) →
          (netSteps c ax evs : ℝ) = if BackInQuarter plane delta radius then 0 else
            delta.get ax * c.ppm.get ax)) ∧
        (ax = axis3 plane ∨ ax = .e →
          (steps ax evs : ℤ) = ⌈fl (|fl (delta.get ax)| * fl (c.ppm.get ax))⌉₊ ∧
          netSteps c ax evs = if delta.get ax < 0 then -(steps ax evs : ℤ) else (steps ax evs : ℤ)) := by
  obtain ⟨g, g', hnew, hnew', hs, hgood, sA, sB, i3, iE, d3, dE⟩ :=
    arc64_new hc h hpq hfp hsz hbal hR rot
  obtain ⟨hpl, R, RB, A, B, EA, EB, hi, rA, rB, tA, tB, p1, p2, q1, q2, -, oA, oB, b1, b2, w1, w2⟩ :=
    arc_gen h.grid hnew
  have hP : (0 : ℝ) < c.ppm.get (axisA plane) := by exact_mod_cast h.grid.posA
  have hi' := hi
  rw [← hpq] at hi'
  have cA : radius.get (axisA plane) * (c.ppm.get (axisA plane) : ℝ) = (-A : ℤ) := by
    have := hi'.hA; unfold startA at this; push_cast; linarith
  have cB : radius.get (axisB plane) * (c.ppm.get (axisA plane) : ℝ) = (-B : ℤ) := by
    have := hi'.hB; unfold startB at this; push_cast; linarith
  have cEA : delta.get (axisA plane) * (c.ppm.get (axisA plane) : ℝ) = EA - A := by
    have := hi'.hEA; unfold endA at this; push_cast at cA ⊢; linarith
  have cEB : delta.get (axisB plane) * (c.ppm.get (axisA plane) : ℝ) = EB - B := by
    have := hi'.hEB; unfold endB at this; push_cast at cB ⊢; linarith
  have hRB : RB = R := by rw [← hpq, q1] at q2; exact q2.symm
  have hRl : (R : ℝ) ≤ 10 ^ 5 := by
    have := (abs_le.1 (PyRound.near (startDist plane radius * c.ppm.get (axisA plane)))).2
    rw [q1] at this
    linarith
  have rangeA : |(A : ℝ)| ≤ 10 ^ 5 := by
    have h1 : (-R : ℝ) ≤ A := by exact_mod_cast hi.rA.1
    have h2 : (A : ℝ) ≤ R := by exact_mod_cast hi.rA.2
    rw [abs_le]; constructor <;> linarith
  have rangeB : |(B : ℝ)| ≤ 10 ^ 5 := by
    have h3 := hi.rB
    rw [hRB] at h3
    have h1 : (-R : ℝ) ≤ B := by exact_mod_cast h3.1
    have h2 : (B : ℝ) ≤ R := by exact_mod_cast h3.2
    rw [abs_le]; constructor <;> linarith
  have nA := trunc_near hP hfp cA rangeA
  have nB := trunc_near hP hfp cB rangeB
  simp only at nA nB
  rw [← sA] at nA
  rw [hpq] at nB
  rw [← sB] at nB
  obtain ⟨g2, φs, φe, R2, A2, B2, EA2, EB2, hnew2, hq2, hp2⟩ := pts64 hc h hpq hsz rot
  have hin := hp2.inside hfp
  have hR2 : R2 = R := by rw [← hq2, q1]
  rw [hR2, ← sA, hpq, ← sB] at hin
  rw [hRB] at rB b2 w2
  have iB := hi.rB
  rw [hRB] at iB
  have hpl' : g'.plane = plane := by rw [hs.plane, hpl]
  obtain ⟨k3, kE, hoth⟩ := other64 hc hpl' h.le3 h.leE i3 iE d3 dE
  obtain ⟨evs, he⟩ := circ64_done hgood k3 kE
  refine ⟨g, g', evs, hnew, hnew', he, ?_, fun ax => ⟨?_, hoth evs he ax⟩⟩
  · intro evs' he' ax hx
    obtain ⟨N, hN⟩ := he
    obtain ⟨N', hN'⟩ := he'
    have hN := hN N le_rfl
    have hN' := hN' N' le_rfl
    have t1 := circ_run_a c g' N (by rw [hs.radA, rA]; exact hin.1.1) (by rw [hs.radA, rA]; exact hin.1.2)
      (by rw [hs.dirA]; exact oA) (by rw [hs.itA, hs.radA, rA]; exact b1)
    have t2 := circ_run_b c g' N (by rw [hs.radB, rB]; exact hin.2.1) (by rw [hs.radB, rB]; exact hin.2.2)
      (by rw [hs.dirB]; exact oB) (by rw [hs.itB, hs.radB, rB]; exact b2)
    have u1 := circ_run_a c g N' (by rw [rA, tA]; exact hi.rA.1) (by rw [rA, tA]; exact hi.rA.2)
      oA (by rw [rA]; exact b1)
    have u2 := circ_run_b c g N' (by rw [rB, tB]; exact iB.1) (by rw [rB, tB]; exact iB.2)
      oB (by rw [rB]; exact b2)
    rw [hpl', hN] at t1 t2
    rw [hpl, hN'] at u1 u2
    have k1 := t1.2.2 rfl
    have k2 := t2.2.2 rfl
    have l1 := u1.2.2 rfl
    have l2 := u2.2.2 rfl
    simp only at k1 k2 l1 l2
    rw [hs.itA] at k1
    rw [hs.itB] at k2
    rcases hx with rfl | rfl
    · rw [k1, l1]
    · rw [k2, l2]
  · obtain ⟨N, hN⟩ := he
    have hN := hN N le_rfl
    have t1 := circ_run_a c g' N (by rw [hs.radA, rA]; exact hin.1.1) (by rw [hs.radA, rA]; exact hin.1.2)
      (by rw [hs.dirA]; exact oA) (by rw [hs.itA, hs.radA, rA]; exact b1)
    have t2 := circ_run_b c g' N (by rw [hs.radB, rB]; exact hin.2.1) (by rw [hs.radB, rB]; exact hin.2.2)
      (by rw [hs.dirB]; exact oB) (by rw [hs.itB, hs.radB, rB]; exact b2)
    rw [hpl', hN] at t1 t2
    have k1 := t1.2.2 rfl
    have k2 := t2.2.2 rfl
    obtain ⟨t1, -, -⟩ := t1
    obtain ⟨t2, -, -⟩ := t2
    simp only at k1 k2 t1 t2
    rw [k1, hs.radA, hs.dirA, hs.itA, rA] at t1
    rw [k2, hs.radB, hs.dirB, hs.itB, rB] at t2
    have f1 := walk_off hi.rA hin.1 oA nA g.itA.toNat
    have f2 := walk_off iB hin.2 oB nB g.itB.toNat
    rw [← t1, w1] at f1
    rw [← t2, w2] at f2
    rintro (rfl | rfl)
    · constructor
      · rw [cEA]
        have : |((netSteps c (axisA plane) evs : ℤ) : ℝ) -
            (((if BackInQuarter plane delta radius then A else EA) - A : ℤ) : ℝ)| ≤ 2 := by
          exact_mod_cast f1
        convert this using 2
        split <;> simp
      · intro hv
        have e := (trunc_survives hP hfp cA (by push_cast; rw [abs_neg]; exact rangeA)
          (hv _ cA)).2
        rw [← sA, neg_neg] at e
        rw [e, w1] at t1
        rw [t1, cEA]
        split <;> simp
    · rw [← hpq]
      constructor
      · rw [cEB]
        have : |((netSteps c (axisB plane) evs : ℤ) : ℝ) -
            (((if BackInQuarter plane delta radius then B else EB) - B : ℤ) : ℝ)| ≤ 2 := by
          exact_mod_cast f2
        convert this using 2
        split <;> simp
      · intro hv
        have e := (trunc_survives hP hfp cB (by push_cast; rw [abs_neg]; exact rangeB)
          (hv _ cB)).2
        rw [hpq, ← sB, neg_neg] at e
        rw [e, w2] at t2
        rw [t2, cEB]
        split <;> simp

end PyCNC
