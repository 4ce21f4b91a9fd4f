import Verif.Lemmas.ArcTrack
import Verif.Lemmas.Timed

/-!
# The way of an arc
-/

set_option linter.unusedSectionVars false

namespace PyCNC

open Spec Real

variable [PyRound]

/-! ## The turn and the numbers of pulses -/

/-- The turn leads from the angle of the start to that of the end. -/
theorem turn_leads {rot : Rot} {φs φe : ℝ} (s0 : 0 ≤ φs) (s1 : φs < 2 * π) (e0 : 0 ≤ φe)
    (e1 : φe < 2 * π) : φs + rotSign rot * |arcTurn rot φs φe| = φe + 2 *
      (match rot with
        | .cw => if φs < φe then 0 else 1
        | .ccw => if φe < φs then 0 else -1 : ℤ) * π := by
  have hpi := pi_pos
  unfold arcTurn
  simp only [sub_eq, ofRat_eq, pi_eq, mul_eq, add_eq, zeroF_eq, Rat.cast_ofNat, Bool.or_eq_true,
    lt_iff, Bool.and_eq_true, eq_iff, decide_eq_true_eq]
  cases rot
  · simp only [reduceCtorEq, if_false, and_true, rotSign]
    by_cases h : φs < φe
    · rw [if_neg (by rintro (h | h) <;> linarith), if_pos h, abs_of_pos (by linarith)]
      push_cast; ring
    · rw [if_pos (by
        rcases (not_lt.1 h).lt_or_eq with h | h
        · exact .inl (by linarith)
        · exact .inr (by linarith)), if_neg h, abs_of_pos (by linarith)]
      push_cast; ring
  · simp only [reduceCtorEq, if_true, and_false, or_false, rotSign]
    by_cases h : φe < φs
    · rw [if_pos (by linarith), if_pos h, add_sub_cancel_right, abs_of_neg (by linarith)]
      push_cast; ring
    · rw [if_neg (by linarith), if_neg h, abs_of_neg (by linarith)]
      push_cast; ring

/-- The numbers of pulses as distances. -/
theorem its_unroll {sa sb ea eb p q φs φe : ℝ} {R RB A B EA EB : ℤ}
    (hi : ArcInts sa sb ea eb p q R RB A B EA EB) (hs : angle sa sb = .ok φs)
    (he : angle ea eb = .ok φe) (rot : Rot) (hnb : ¬ BackQ sa sb ea eb) :
    (SameRay sa sb ea eb ∧ φs = φe ∧
      arcIterations rot φs φe R RB |A| |B| |EA| |EB| |A - EA| |B - EB| = (4 * R, 4 * RB)) ∨
    ∃ w, ((w = 0 ∧ φs < φe) ∨ (w = 4 ∧ φe < φs)) ∧
      arcIterations rot φs φe R RB |A| |B| |EA| |EB| |A - EA| |B - EB| =
        (turned rot R (unrollA R (arcQuarter ea eb) EA + w * R - unrollA R (arcQuarter sa sb) A),
         turned rot RB (unrollB RB (arcQuarter ea eb) EB + w * RB - unrollB RB (arcQuarter sa sb) B)) ∧
      0 ≤ unrollA R (arcQuarter ea eb) EA + w * R - unrollA R (arcQuarter sa sb) A ∧
      unrollA R (arcQuarter ea eb) EA + w * R - unrollA R (arcQuarter sa sb) A ≤ 4 * R ∧
      0 ≤ unrollB RB (arcQuarter ea eb) EB + w * RB - unrollB RB (arcQuarter sa sb) B ∧
      unrollB RB (arcQuarter ea eb) EB + w * RB - unrollB RB (arcQuarter sa sb) B ≤ 4 * RB := by
  have hpi := pi_pos
  obtain ⟨s0, s1, s2, s3, s4⟩ := angle_ok hs
  obtain ⟨e0, e1, e2, e3, e4⟩ := angle_ok he
  have gs := arcQuarter_signs (angle_ne hs) hi.hp hi.hq hi.hA hi.hB
  have ge := arcQuarter_signs (angle_ne he) hi.hp hi.hq hi.hEA hi.hEB
  obtain ⟨ls, us⟩ := quarter_range s4 s0 s1 s2 s3
  obtain ⟨le, ue⟩ := quarter_range e4 e0 e1 e2 e3
  have hlt := fun h : arcQuarter sa sb = arcQuarter ea eb =>
    angle_lt_iff s4 e4 s2 s3 e2 e3 ls us (h ▸ le) (h ▸ ue)
  have hlt2 := fun h : arcQuarter sa sb = arcQuarter ea eb =>
    angle_lt_iff e4 s4 e2 e3 s2 s3 (h ▸ le) (h ▸ ue) ls us
  have hmono := hi.mono
  have q1 : 0 ≤ arcQuarter sa sb ∧ arcQuarter sa sb ≤ 3 := by
    rcases arcQuarter_cases sa sb with h | h | h | h <;> omega
  have q2 : 0 ≤ arcQuarter ea eb ∧ arcQuarter ea eb ≤ 3 := by
    rcases arcQuarter_cases ea eb with h | h | h | h <;> omega
  unfold BackQ at hnb
  unfold SameRay
  generalize arcQuarter sa sb = qs at *
  generalize arcQuarter ea eb = qe at *
  have tS : PyNum.truncI (φs /ₚ (PyNum.pi /ₚ PyNum.ofRat 2)) = qs := truncI_quarter q1.1 ls us
  unfold arcIterations
  simp only [tS]
  rcases lt_or_ge φs φe with hlt' | hge
  · have tE : PyNum.truncI (φe /ₚ (PyNum.pi /ₚ PyNum.ofRat 2)) = qe := truncI_quarter q2.1 le ue
    have hle : (φe ≤ₚ φs) = false := by simpa using hlt'
    simp only [hle, Bool.false_eq_true, if_false, tE]
    have hq : qs ≤ qe := by
      have : (qs : ℝ) < qe + 1 := by
        by_contra hc
        push Not at hc
        nlinarith
      have : (qs : ℤ) < qe + 1 := by exact_mod_cast this
      omega
    right
    rw [if_neg (by omega)]
    refine ⟨0, .inl ⟨rfl, hlt'⟩, ?_⟩
    rcases hq.lt_or_eq with hq | hq
    · rw [if_neg (by omega)]
      obtain ⟨f1, f2⟩ := fold_a (w := 0) (R := R) (RB := RB) gs ge (.inl rfl) (by omega) (by omega)
      obtain ⟨⟨r1, r2⟩, r3, r4⟩ := unroll_range (w := 0) gs ge hi.rA hi.rEA hi.rB hi.rEB (.inl rfl)
        (by omega) (by omega)
      rw [add_zero] at f1 f2
      refine ⟨?_, r1, r2, r3, r4⟩
      have hf := Prod.ext (y := (_, _)) f1 f2
      rw [hf]
      cases rot <;> rfl
    · subst hq
      have hx := (hlt rfl).1 hlt'
      rw [if_pos rfl]
      obtain ⟨m1, m2⟩ := hmono rfl hx
      have a1 := abs_nonneg (A - EA)
      have a2 := abs_nonneg (B - EB)
      have z1 : unrollA R qs EA - unrollA R qs A = unrollA R qs EA + 0 * R - unrollA R qs A := by ring
      have z2 : unrollB RB qs EB - unrollB RB qs B = unrollB RB qs EB + 0 * RB - unrollB RB qs B := by
        ring
      rw [m1, z1] at a1
      rw [m2, z2] at a2
      rw [m1, m2, z1, z2]
      have u1 : unrollA R qs EA + 0 * R - unrollA R qs A ≤ 4 * R := by
        have := hi.rA; have := hi.rEA
        simp only [unrollA]; split_ifs <;> omega
      have u2 : unrollB RB qs EB + 0 * RB - unrollB RB qs B ≤ 4 * RB := by
        have := hi.rB; have := hi.rEB
        simp only [unrollB]; split_ifs <;> omega
      refine ⟨?_, a1, u1, a2, u2⟩
      cases rot <;> rfl
  · have tE : PyNum.truncI ((φe +ₚ PyNum.ofRat 2 *ₚ PyNum.pi) /ₚ (PyNum.pi /ₚ PyNum.ofRat 2)) = qe + 4 := by
      refine truncI_quarter (by omega) ?_ ?_ <;> push_cast <;>
        simp only [add_eq, mul_eq, ofRat_eq, pi_eq, Rat.cast_ofNat] <;> linarith
    have hle : (φe ≤ₚ φs) = true := by simpa using hge
    simp only [hle, if_true, tE]
    have hq : qe ≤ qs := by
      have : (qe : ℝ) < qs + 1 := by
        by_contra hc
        push Not at hc
        nlinarith
      have : (qe : ℤ) < qs + 1 := by exact_mod_cast this
      omega
    rcases hq.lt_or_eq with hq | hq
    · right
      rw [if_neg (by omega), if_neg (by omega)]
      obtain ⟨f1, f2⟩ := fold_a (w := 4) (R := R) (RB := RB) gs ge (.inr rfl) (by omega) (by omega)
      obtain ⟨⟨r1, r2⟩, r3, r4⟩ := unroll_range (w := 4) gs ge hi.rA hi.rEA hi.rB hi.rEB (.inr rfl)
        (by omega) (by omega)
      have hφ : φe < φs := by
        have : (qe : ℝ) + 1 ≤ qs := by exact_mod_cast hq
        nlinarith
      refine ⟨4, .inr ⟨rfl, hφ⟩, ?_, r1, r2, r3, r4⟩
      have hf := Prod.ext (y := (_, _)) f1 f2
      rw [hf]
      cases rot <;> rfl
    · left
      subst hq
      rw [if_pos (by omega)]
      have h1 := mt (hlt rfl).2 (not_lt.2 hge)
      have h2 : ¬ ea * sb < sa * eb := fun h => hnb ⟨rfl, h⟩
      refine ⟨⟨rfl, le_antisymm (not_lt.1 h1) (not_lt.1 h2)⟩, le_antisymm ?_ hge, rfl⟩
      have := mt (hlt2 rfl).1 (by intro h; apply h2; linarith)
      exact not_lt.1 this

/-! ## The time of a point -/

theorem findTime_turn {g : CircGen ℝ} {φs ρ θ : ℝ} (hφ : g.startAngle = φs) (s0 : 0 ≤ φs)
    (s1 : φs < 2 * π) (hρ : 0 < ρ) (h1 : 0 < rotSign g.rot * θ - rotSign g.rot * φs)
    (h2 : rotSign g.rot * θ - rotSign g.rot * φs < 2 * π) {a b : ℝ} (ha : a = ρ * sin θ)
    (hb : b = ρ * cos θ) :
    g.findTime a b = .ok (g.rDivV * (rotSign g.rot * θ - rotSign g.rot * φs)) := by
  have hpi := pi_pos
  have hsq : a ^ 2 + b ^ 2 = ρ ^ 2 := by
    rw [ha, hb]; linear_combination ρ ^ 2 * sin_sq_add_cos_sq θ
  obtain ⟨ψ, e0, e1, e2, e3, e4⟩ := angle_spec (a := a) (b := b) (by rw [hsq]; positivity)
  rw [hsq, Real.sqrt_sq hρ.le] at e3 e4
  obtain ⟨n, hn⟩ := same_angle (x := θ) (y := ψ)
    (mul_left_cancel₀ hρ.ne' (by rw [← ha, ← e3])) (mul_left_cancel₀ hρ.ne' (by rw [← hb, ← e4]))
  unfold CircGen.findTime
  rw [e0]
  have hint : ∀ m : ℤ, (-1 : ℝ) < m → (m : ℝ) < 1 → m = 0 := fun m h1 h2 => by
    have a1 : (-1 : ℤ) < m := by exact_mod_cast h1
    have a2 : m < (1 : ℤ) := by exact_mod_cast h2
    omega
  have fin : ∀ (d x : ℝ) (m : ℤ), x = d + 2 * m * π → 0 < x → x < 2 * π → -(2 * π) < d → d < 2 * π →
      (if d ≤ 0 then d + 2 * π else d) = x := by
    intro d x m hx x0 x1 d0 d1
    split
    · next h =>
      have : m - 1 = 0 := hint _ (by push_cast; by_contra hc; nlinarith) (by
        push_cast; by_contra hc; nlinarith)
      have hm : m = 1 := by omega
      rw [hx, hm]; push_cast; ring
    · next h =>
      have hm : m = 0 := hint _ (by by_contra hc; nlinarith) (by by_contra hc; nlinarith)
      rw [hx, hm]; push_cast; ring
  cases hrot : g.rot
  · rw [hrot] at h1 h2
    simp only [rotSign, Int.cast_one, one_mul] at h1 h2 ⊢
    have := fin (ψ - φs) (θ - φs) n (by rw [hn]; ring) h1 h2 (by linarith) (by linarith)
    change Except.ok _ = _
    congr 1
    simp only [mul_eq, sub_eq, add_eq, le_iff, zeroF_eq, ofRat_eq, pi_eq, Rat.cast_ofNat, hφ]
    rw [this]
  · rw [hrot] at h1 h2
    simp only [rotSign, Int.cast_neg, Int.cast_one, neg_mul, one_mul] at h1 h2 ⊢
    have := fin (φs - ψ) (-θ - -φs) (-n) (by rw [hn]; push_cast; ring) h1 h2 (by linarith) (by linarith)
    change Except.ok _ = _
    congr 1
    simp only [mul_eq, sub_eq, add_eq, le_iff, zeroF_eq, ofRat_eq, pi_eq, Rat.cast_ofNat, hφ]
    rw [this]

theorem psi_signed {R : ℝ} (hR : 0 < R) (rot : Rot) (u j : ℝ) :
    Psi R (rotSign rot * u + j) = rotSign rot * Psi R (u + rotSign rot * j) := by
  cases rot
  · simp [rotSign]
  · simp only [rotSign, Int.cast_neg, Int.cast_one, neg_mul, one_mul]
    rw [← psi_neg hR]
    congr 1; ring

theorem sqrt_scaled {R p q : ℝ} (hp : 0 < p) :
    √((R / p) ^ 2 - q / p * (q / p)) = √(R ^ 2 - q ^ 2) / p := by
  rw [show (R / p) ^ 2 - q / p * (q / p) = (R ^ 2 - q ^ 2) / p ^ 2 by field_simp,
    Real.sqrt_div' _ (sq_nonneg p), Real.sqrt_sq hp.le]

/-- The timetable of the first axis. -/
theorem times_a {g : CircGen ℝ} {p : ℚ} {R u : ℤ} {φ T : ℝ} (hp : 0 < p)
    (ht : Track R (rotSign g.rot * u) (rotSign g.rot * φ) T g.itA.toNat)
    (hφ : g.startAngle = φ) (s0 : 0 ≤ φ) (s1 : φ < 2 * π) (hT : g.deltaAngle = T)
    (hR : g.radiusAP = R) (h2 : g.radiusA2 = ((R : ℝ) / p) ^ 2)
    (hf : ∀ i : ℕ, (i : ℤ) < g.itA → Folded R (-1) (u + rotSign g.rot * (i + 1))
      (circularHelper g.startAP (i + 1) R g.sideA g.dirA).1
      (circularHelper g.startAP (i + 1) R g.sideA g.dirA).2.2)
    (hr : ∀ i : ℕ, (i : ℤ) < g.itA → -R ≤ (circularHelper g.startAP (i + 1) R g.sideA g.dirA).1 ∧
      (circularHelper g.startAP (i + 1) R g.sideA g.dirA).1 ≤ R)
    (i : ℕ) {d : ℤ} {t : Option ℝ} (h : g.circularA i p = .ok (d, t)) :
    t = if i < g.itA.toNat then some (g.rDivV * turnAt R (rotSign g.rot * u) (rotSign g.rot * φ) T
      g.itA.toNat i) else none := by
  have hp' : (0 : ℝ) < p := by exact_mod_cast hp
  unfold CircGen.circularA at h
  split at h
  · next hi => cases h; rw [if_neg (by omega)]
  next hi =>
  rw [if_pos (by omega)]
  have hf := hf i (by omega)
  have hr := hr i (by omega)
  rw [hR] at h
  rcases hh : circularHelper g.startAP (i + 1) R g.sideA g.dirA with ⟨q, d', side⟩
  rw [hh] at hf hr h
  simp only at h hf hr
  unfold turnAt
  split at h
  · next hl =>
    cases h
    rw [if_pos (by omega)]
    simp only [mul_eq, hT]
  next hl =>
  rw [if_neg (by omega)]
  obtain ⟨f1, f2⟩ := hf.point ht.hR (.inr rfl) hr.1 hr.2
  have hin := ht.inside (j := i + 1) (by omega) (by omega)
  push_cast at hin f1 f2 ⊢
  rw [psi_signed ht.R'] at hin ⊢
  obtain ⟨h3, -⟩ := on_circle hp' ht.hR hr.1 hr.2
  rw [h2] at h
  have e1 : psqrt (((R : ℝ) / p) ^ 2 -ₚ (ofInt q /ₚ PyNum.ofRat p) *ₚ (ofInt q /ₚ PyNum.ofRat p)) =
      .ok (√((R : ℝ) ^ 2 - (q : ℝ) ^ 2) / p) := by
    rw [← sqrt_scaled hp']
    simp only [sub_eq, mul_eq, div_eq, ofInt_eq, ofRat_eq]; exact psqrt_ok h3
  rw [e1] at h
  have e2 := findTime_turn (g := g) (θ := Psi R (u + rotSign g.rot * (i + 1))) (ρ := (R : ℝ) / p) hφ s0 s1
    (div_pos ht.R' hp') hin.1 hin.2.2 (a := ofInt q /ₚ PyNum.ofRat p)
    (b := if side then PyNum.neg (√((R : ℝ) ^ 2 - (q : ℝ) ^ 2) / p) else
      √((R : ℝ) ^ 2 - (q : ℝ) ^ 2) / p)
    (by simp only [div_eq, ofInt_eq, ofRat_eq]; rw [f1]; ring)
    (by
      rw [show (R : ℝ) / p * cos (Psi R (u + rotSign g.rot * (i + 1))) =
        (R * cos (Psi R (u + rotSign g.rot * (i + 1)))) / p by ring, ← f2]
      cases side <;> simp only [neg_eq, if_true, Bool.false_eq_true, if_false] <;> ring)
  change (g.findTime _ _ >>= _) = _ at h
  rw [e2] at h
  cases h; rfl

/-- The timetable of the second axis. -/
theorem times_b {g : CircGen ℝ} {p : ℚ} {R u : ℤ} {φ T : ℝ} (hp : 0 < p)
    (ht : Track R (rotSign g.rot * u) (rotSign g.rot * (φ + π / 2)) T g.itB.toNat)
    (hφ : g.startAngle = φ) (s0 : 0 ≤ φ) (s1 : φ < 2 * π) (hT : g.deltaAngle = T)
    (hR : g.radiusBP = R) (h2 : g.radiusB2 = ((R : ℝ) / p) ^ 2)
    (hf : ∀ i : ℕ, (i : ℤ) < g.itB → Folded R 1 (u + rotSign g.rot * (i + 1))
      (circularHelper g.startBP (i + 1) R g.sideB g.dirB).1
      (circularHelper g.startBP (i + 1) R g.sideB g.dirB).2.2)
    (hr : ∀ i : ℕ, (i : ℤ) < g.itB → -R ≤ (circularHelper g.startBP (i + 1) R g.sideB g.dirB).1 ∧
      (circularHelper g.startBP (i + 1) R g.sideB g.dirB).1 ≤ R)
    (i : ℕ) {d : ℤ} {t : Option ℝ} (h : g.circularB i p = .ok (d, t)) :
    t = if i < g.itB.toNat then some (g.rDivV * turnAt R (rotSign g.rot * u)
      (rotSign g.rot * (φ + π / 2)) T g.itB.toNat i) else none := by
  have hp' : (0 : ℝ) < p := by exact_mod_cast hp
  unfold CircGen.circularB at h
  split at h
  · next hi => cases h; rw [if_neg (by omega)]
  next hi =>
  rw [if_pos (by omega)]
  have hf := hf i (by omega)
  have hr := hr i (by omega)
  rw [hR] at h
  rcases hh : circularHelper g.startBP (i + 1) R g.sideB g.dirB with ⟨q, d', side⟩
  rw [hh] at hf hr h
  simp only at h hf hr
  unfold turnAt
  split at h
  · next hl =>
    cases h
    rw [if_pos (by omega)]
    simp only [mul_eq, hT]
  next hl =>
  rw [if_neg (by omega)]
  obtain ⟨f1, f2⟩ := hf.point ht.hR (.inl rfl) hr.1 hr.2
  have hin := ht.inside (j := i + 1) (by omega) (by omega)
  push_cast at hin f1 f2 ⊢
  rw [psi_signed ht.R'] at hin ⊢
  have hθ : rotSign g.rot * Psi R (u + rotSign g.rot * (i + 1)) - rotSign g.rot * (φ + π / 2) =
      rotSign g.rot * (Psi R (u + rotSign g.rot * (i + 1)) - π / 2) - rotSign g.rot * φ := by ring
  rw [hθ] at hin ⊢
  obtain ⟨h3, -⟩ := on_circle hp' ht.hR hr.1 hr.2
  rw [h2] at h
  have e1 : psqrt (((R : ℝ) / p) ^ 2 -ₚ (ofInt q /ₚ PyNum.ofRat p) *ₚ (ofInt q /ₚ PyNum.ofRat p)) =
      .ok (√((R : ℝ) ^ 2 - (q : ℝ) ^ 2) / p) := by
    rw [← sqrt_scaled hp']
    simp only [sub_eq, mul_eq, div_eq, ofInt_eq, ofRat_eq]; exact psqrt_ok h3
  rw [e1] at h
  have e2 := findTime_turn (g := g) (θ := Psi R (u + rotSign g.rot * (i + 1)) - π / 2)
    (ρ := (R : ℝ) / p) hφ s0 s1
    (div_pos ht.R' hp') hin.1 hin.2.2
    (a := if side then PyNum.neg (√((R : ℝ) ^ 2 - (q : ℝ) ^ 2) / p) else
      √((R : ℝ) ^ 2 - (q : ℝ) ^ 2) / p) (b := ofInt q /ₚ PyNum.ofRat p)
    (by
      rw [sin_sub_pi_div_two, show (R : ℝ) / p * -cos (Psi R (u + rotSign g.rot * (i + 1))) =
        -(R * cos (Psi R (u + rotSign g.rot * (i + 1)))) / p by ring, ← f2]
      cases side <;> simp only [neg_eq, if_true, Bool.false_eq_true, if_false] <;> ring)
    (by simp only [div_eq, ofInt_eq, ofRat_eq]; rw [cos_sub_pi_div_two, f1]; ring)
  change (g.findTime _ _ >>= _) = _ at h
  rw [e2] at h
  cases h; rfl

/-! ## All of it -/

/-- The tracks of the two axes of an arc. -/
structure ArcTracks (c : Cfg) (delta radius : V4 ℝ) (plane : Plane) (rot : Rot) (g : CircGen ℝ)
    (R RB A B uA uB : ℤ) (φ : ℝ) : Prop where
  plane_eq : g.plane = plane
  rot_eq : g.rot = rot
  rA : PyRound.rnd (startDist plane radius * c.ppm.get (axisA plane)) = R
  rB : PyRound.rnd (startDist plane radius * c.ppm.get (axisB plane)) = RB
  sA : startA plane radius * c.ppm.get (axisA plane) = A
  sB : startB plane radius * c.ppm.get (axisB plane) = B
  φ0 : 0 ≤ φ
  φ1 : φ < 2 * π
  aφ : startA plane radius = startDist plane radius * sin φ
  bφ : startB plane radius = startDist plane radius * cos φ
  sweep : Sweep plane delta radius rot g.deltaAngle
  ta : Track R (rotSign rot * uA) (rotSign rot * φ) g.deltaAngle g.itA.toNat
  tb : Track RB (rotSign rot * uB) (rotSign rot * (φ + π / 2)) g.deltaAngle g.itB.toNat
  posA : ∀ c n, ∃ k ≤ g.itA.toNat, steps (axisA plane) ((Gen.circular g).run c n .init).1 = k ∧
    (((Gen.circular g).run c n .init).2 = .done → k = g.itA.toNat) ∧
    (A : ℝ) + netSteps c (axisA plane) ((Gen.circular g).run c n .init).1 =
      R * sin (Psi R (uA + rotSign rot * k))
  posB : ∀ c n, ∃ k ≤ g.itB.toNat, steps (axisB plane) ((Gen.circular g).run c n .init).1 = k ∧
    (((Gen.circular g).run c n .init).2 = .done → k = g.itB.toNat) ∧
    (B : ℝ) + netSteps c (axisB plane) ((Gen.circular g).run c n .init).1 =
      RB * sin (Psi RB (uB + rotSign rot * k))
  timeA : ∀ i d t, g.circularA i (c.ppm.get (axisA plane)) = .ok (d, t) →
    t = if i < g.itA.toNat then some (g.rDivV * turnAt R (rotSign rot * uA) (rotSign rot * φ)
      g.deltaAngle g.itA.toNat i) else none
  timeB : ∀ i d t, g.circularB i (c.ppm.get (axisB plane)) = .ok (d, t) →
    t = if i < g.itB.toNat then some (g.rDivV * turnAt RB (rotSign rot * uB)
      (rotSign rot * (φ + π / 2)) g.deltaAngle g.itB.toNat i) else none

theorem new_turn {c : Cfg} {delta radius : V4 ℝ} {plane : Plane} {rot : Rot} {v : ℝ}
    {g : CircGen ℝ} (h : CircGen.new c delta radius plane rot v = .ok g) :
    ∃ φs φe, NewFacts c delta radius plane rot g φs φe ∧ g.deltaAngle = |arcTurn rot φs φe| := by
  obtain ⟨he, φs, φe, maxV, q, h1, h2, _, _, h5⟩ := new_ok h
  obtain ⟨mV, aT, lT, rfl⟩ := times_mk h5
  exact ⟨φs, φe, mk_facts h1 h2 he _ _ _ _ _ _, rfl⟩

/-- Where the end of an arc is, seen from the directions at both ends. -/
theorem sweep_of {plane : Plane} {delta radius : V4 ℝ} {rot : Rot} {φs φe T : ℝ} {w : ℤ} (t0 : 0 < T)
    (t1 : T ≤ 2 * π)
    (sA : startA plane radius = startDist plane radius * sin φs)
    (sB : startB plane radius = startDist plane radius * cos φs)
    (eA : endA plane delta radius = endDist plane delta radius * sin φe)
    (eB : endB plane delta radius = endDist plane delta radius * cos φe)
    (w3 : φs + rotSign rot * T = φe + 2 * w * π) : Sweep plane delta radius rot T := by
  refine ⟨t0, t1, ?_⟩
  have hsin : sin (φs + rotSign rot * T) = sin φe := by
    rw [w3]
    have := sin_add_int_mul_two_pi φe w
    rw [← this]; congr 1; ring
  have hcos : cos (φs + rotSign rot * T) = cos φe := by
    rw [w3]
    have := cos_add_int_mul_two_pi φe w
    rw [← this]; congr 1; ring
  rw [eA, eB, ← hsin, ← hcos]
  cases rot
  · simp only [rotSign, Int.cast_one, one_mul]
    rw [sin_add, cos_add]
    constructor
    · linear_combination (-endDist plane delta radius * cos T) * sA + (-endDist plane delta radius * sin T) * sB
    · linear_combination (-endDist plane delta radius * cos T) * sB + (endDist plane delta radius * sin T) * sA
  · simp only [rotSign, Int.cast_neg, Int.cast_one, neg_mul, one_mul]
    rw [sin_add, cos_add, cos_neg, sin_neg]
    constructor
    · linear_combination (-endDist plane delta radius * cos T) * sA + (endDist plane delta radius * sin T) * sB
    · linear_combination (-endDist plane delta radius * cos T) * sB + (-endDist plane delta radius * sin T) * sA

/-- The distance of the end from the centre, in steps. -/
theorem end_near {c : Cfg} {delta radius : V4 ℝ} {plane : Plane} {R RB : ℤ}
    (h : GridArc c delta radius plane) (hend : arcEndOk c delta radius plane = true)
    (q1 : PyRound.rnd (startDist plane radius * c.ppm.get (axisA plane)) = R)
    (q2 : PyRound.rnd (startDist plane radius * c.ppm.get (axisB plane)) = RB) :
    |endDist plane delta radius * c.ppm.get (axisA plane) - R| ≤ 1 / 2 ∧
      |endDist plane delta radius * c.ppm.get (axisB plane) - RB| ≤ 1 / 2 := by
  have nA := PyRound.near (startDist plane radius * c.ppm.get (axisA plane))
  have nB := PyRound.near (startDist plane radius * c.ppm.get (axisB plane))
  rw [q1, abs_sub_comm] at nA
  rw [q2, abs_sub_comm] at nB
  rcases h.fit with heq | ⟨-, -, hx⟩
  · have hmpm : arcMpm c plane ≠ 0 := by rw [arcMpm_eq]; exact (lt_min h.posA h.posB).ne'
    have hend := (arcEndOk_eq c delta radius plane hmpm).1 hend
    have hm : arcMpm c plane = c.ppm.get (axisA plane) := by rw [arcMpm_eq, ← heq, min_self]
    rw [hm, q1] at hend
    have hRR : R = RB := by rw [← q1, ← q2, heq]
    have := PyRound.near (endDist plane delta radius * c.ppm.get (axisA plane))
    rw [hend, abs_sub_comm] at this
    refine ⟨this, ?_⟩
    rw [← heq, ← hRR]; exact this
  · rw [hx]; exact ⟨nA, nB⟩

/-- The walk of the first axis along its unrolled track. -/
theorem fold_pos_a {g : CircGen ℝ} {R S u k : ℤ} (hR : 0 < R) (r1 : g.radiusAP = R) (r3 : g.startAP = S)
    (hS : -R ≤ S ∧ S ≤ R) (h4 : g.itA ≤ 4 * R) (a1 : u = 2 * k * R + sg k * S)
    (a2 : g.sideA = true ↔ sg k = -1) (a3 : g.dirA = rotSign g.rot * sg k) :
    (∀ c n, ∃ k ≤ g.itA.toNat, steps (axisA g.plane) ((Gen.circular g).run c n .init).1 = k ∧
      (((Gen.circular g).run c n .init).2 = .done → k = g.itA.toNat) ∧
      (S : ℝ) + netSteps c (axisA g.plane) ((Gen.circular g).run c n .init).1 =
        R * sin (Psi R (u + rotSign g.rot * k))) ∧
    (∀ i : ℕ, (i : ℤ) < g.itA → Folded R (-1) (u + rotSign g.rot * (i + 1))
      (circularHelper g.startAP (i + 1) R g.sideA g.dirA).1
      (circularHelper g.startAP (i + 1) R g.sideA g.dirA).2.2) ∧
    (∀ i : ℕ, (i : ℤ) < g.itA → -R ≤ (circularHelper g.startAP (i + 1) R g.sideA g.dirA).1 ∧
      (circularHelper g.startAP (i + 1) R g.sideA g.dirA).1 ≤ R) := by
  have oA : g.dirA = 1 ∨ g.dirA = -1 := by
    rw [a3]
    rcases rotSign_or g.rot with h | h <;> rcases sg_or k with h' | h' <;> rw [h, h'] <;> simp
  have fA : ∀ i : ℕ, Folded R (-1) (u + rotSign g.rot * i)
      (circularHelper g.startAP i R g.sideA g.dirA).1
      (circularHelper g.startAP i R g.sideA g.dirA).2.2 := fun i =>
    helper_fold (.inr rfl) (by rw [r3]; exact a1) a2 a3
  have wA : ∀ i : ℕ, (i : ℤ) ≤ 4 * R → (circularHelper g.startAP i R g.sideA g.dirA).1 =
      (walk R S g.dirA i).1 := fun i hi4 => by
    have := helper_walk (side := g.sideA) i hS.1 hS.2 oA hi4
    rw [r3, ← this]
  have inA : ∀ i : ℕ, (i : ℤ) ≤ 4 * R → -R ≤ (circularHelper g.startAP i R g.sideA g.dirA).1 ∧
      (circularHelper g.startAP i R g.sideA g.dirA).1 ≤ R := fun i hi4 => by
    rw [wA i hi4]; exact walk_range hS.1 hS.2 hR oA i
  refine ⟨fun c n => ?_, fun i hi => ?_, fun i hi => ?_⟩
  · obtain ⟨x1, x2, x3⟩ := circ_run_a c g n (by rw [r1, r3]; exact hS.1) (by rw [r1, r3]; exact hS.2) oA
      (by rw [r1]; exact h4)
    refine ⟨_, x2, rfl, x3, ?_⟩
    have hk4 : ((steps (axisA g.plane) ((Gen.circular g).run c n .init).1 : ℕ) : ℤ) ≤ 4 * R := by
      omega
    rw [x1, r1, r3, ← wA _ hk4]
    have := ((fA (steps (axisA g.plane) ((Gen.circular g).run c n .init).1)).point hR (.inr rfl)
      (inA _ hk4).1 (inA _ hk4).2).1
    push_cast at this ⊢
    rw [← this]; ring
  · exact_mod_cast fA (i + 1)
  · exact_mod_cast inA (i + 1) (by push_cast; omega)

/-- The walk of the second axis along its unrolled track. -/
theorem fold_pos_b {g : CircGen ℝ} {R S u k : ℤ} (hR : 0 < R) (r1 : g.radiusBP = R) (r3 : g.startBP = S)
    (hS : -R ≤ S ∧ S ≤ R) (h4 : g.itB ≤ 4 * R) (a1 : u = 2 * k * R + sg k * S)
    (a2 : g.sideB = true ↔ sg k = 1) (a3 : g.dirB = rotSign g.rot * sg k) :
    (∀ c n, ∃ k ≤ g.itB.toNat, steps (axisB g.plane) ((Gen.circular g).run c n .init).1 = k ∧
      (((Gen.circular g).run c n .init).2 = .done → k = g.itB.toNat) ∧
      (S : ℝ) + netSteps c (axisB g.plane) ((Gen.circular g).run c n .init).1 =
        R * sin (Psi R (u + rotSign g.rot * k))) ∧
    (∀ i : ℕ, (i : ℤ) < g.itB → Folded R (1) (u + rotSign g.rot * (i + 1))
      (circularHelper g.startBP (i + 1) R g.sideB g.dirB).1
      (circularHelper g.startBP (i + 1) R g.sideB g.dirB).2.2) ∧
    (∀ i : ℕ, (i : ℤ) < g.itB → -R ≤ (circularHelper g.startBP (i + 1) R g.sideB g.dirB).1 ∧
      (circularHelper g.startBP (i + 1) R g.sideB g.dirB).1 ≤ R) := by
  have oA : g.dirB = 1 ∨ g.dirB = -1 := by
    rw [a3]
    rcases rotSign_or g.rot with h | h <;> rcases sg_or k with h' | h' <;> rw [h, h'] <;> simp
  have fA : ∀ i : ℕ, Folded R (1) (u + rotSign g.rot * i)
      (circularHelper g.startBP i R g.sideB g.dirB).1
      (circularHelper g.startBP i R g.sideB g.dirB).2.2 := fun i =>
    helper_fold (.inl rfl) (by rw [r3]; exact a1) a2 a3
  have wA : ∀ i : ℕ, (i : ℤ) ≤ 4 * R → (circularHelper g.startBP i R g.sideB g.dirB).1 =
      (walk R S g.dirB i).1 := fun i hi4 => by
    have := helper_walk (side := g.sideB) i hS.1 hS.2 oA hi4
    rw [r3, ← this]
  have inA : ∀ i : ℕ, (i : ℤ) ≤ 4 * R → -R ≤ (circularHelper g.startBP i R g.sideB g.dirB).1 ∧
      (circularHelper g.startBP i R g.sideB g.dirB).1 ≤ R := fun i hi4 => by
    rw [wA i hi4]; exact walk_range hS.1 hS.2 hR oA i
  refine ⟨fun c n => ?_, fun i hi => ?_, fun i hi => ?_⟩
  · obtain ⟨x1, x2, x3⟩ := circ_run_b c g n (by rw [r1, r3]; exact hS.1) (by rw [r1, r3]; exact hS.2) oA
      (by rw [r1]; exact h4)
    refine ⟨_, x2, rfl, x3, ?_⟩
    have hk4 : ((steps (axisB g.plane) ((Gen.circular g).run c n .init).1 : ℕ) : ℤ) ≤ 4 * R := by
      omega
    rw [x1, r1, r3, ← wA _ hk4]
    have := ((fA (steps (axisB g.plane) ((Gen.circular g).run c n .init).1)).point hR (.inl rfl)
      (inA _ hk4).1 (inA _ hk4).2).1
    push_cast at this ⊢
    rw [← this]; ring
  · exact_mod_cast fA (i + 1)
  · exact_mod_cast inA (i + 1) (by push_cast; omega)

/-- How far the tracks go, in steps and in angles. -/
theorem arc_len {sa sb ea eb p q φs φe T : ℝ} {R RB A B EA EB itA itB : ℤ}
    (hi : ArcInts sa sb ea eb p q R RB A B EA EB) (p1 : 0 < R) (p2 : 0 < RB) (hs : angle sa sb = .ok φs)
    (he : angle ea eb = .ok φe) (rot : Rot) (hnb : ¬ BackQ sa sb ea eb)
    (hits : (itA, itB) = arcIterations rot φs φe R RB |A| |B| |EA| |EB| |A - EA| |B - EB|)
    (hT : T = |arcTurn rot φs φe|) :
    ∃ w : ℤ, unrollA R (arcQuarter sa sb) A + rotSign rot * itA =
        unrollA R (arcQuarter ea eb) EA + 4 * w * R ∧
      unrollB RB (arcQuarter sa sb) B + rotSign rot * itB =
        unrollB RB (arcQuarter ea eb) EB + 4 * w * RB ∧
      φs + rotSign rot * T = φe + 2 * w * π ∧ 0 ≤ itA ∧ itA ≤ 4 * R ∧ 0 ≤ itB ∧
      itB ≤ 4 * RB := by
  obtain ⟨s0, s1, -, -, -⟩ := angle_ok hs
  obtain ⟨e0, e1, -, -, -⟩ := angle_ok he
  obtain ⟨t0, t1, -, t3⟩ := turn_bounds (rot := rot) s0 s1 e0 e1
  have hlead := turn_leads (rot := rot) s0 s1 e0 e1
  rw [← hT] at t0 t1 t3 hlead
  rcases its_unroll hi hs he rot hnb with ⟨hray, hφ, hx⟩ | ⟨w, hw, hx, b1, b2, b3, b4⟩
  · rw [hx] at hits
    have i1 : itA = 4 * R := congrArg Prod.fst hits
    have i2 : itB = 4 * RB := congrArg Prod.snd hits
    obtain ⟨x1, x2⟩ := hi.same hray.1 hray.2
    refine ⟨rotSign rot, ?_, ?_, ?_, by omega, by omega, by omega, by omega⟩
    · rw [i1, x1, hray.1]; ring
    · rw [i2, x2, hray.1]; ring
    · rw [t3 hφ, hφ]; ring
  · rw [hx] at hits
    have i1 : itA = _ := congrArg Prod.fst hits
    have i2 : itB = _ := congrArg Prod.snd hits
    simp only at i1 i2
    clear hx hits
    cases rot
    · simp only [turned] at i1 i2
      simp only [rotSign] at hlead ⊢
      rw [i1, i2]
      rcases hw with ⟨rfl, hw⟩ | ⟨rfl, hw⟩
      · rw [if_pos hw] at hlead
        exact ⟨0, by ring, by ring, hlead, b1, b2, b3, b4⟩
      · rw [if_neg (by linarith)] at hlead
        exact ⟨1, by ring, by ring, hlead, b1, b2, b3, b4⟩
    · simp only [turned] at i1 i2
      simp only [rotSign] at hlead ⊢
      rw [i1, i2]
      rcases hw with ⟨rfl, hw⟩ | ⟨rfl, hw⟩
      · rw [if_neg (by linarith)] at hlead
        exact ⟨-1, by ring, by ring, hlead, by omega, by omega, by omega, by omega⟩
      · rw [if_pos hw] at hlead
        exact ⟨0, by ring, by ring, hlead, by omega, by omega, by omega, by omega⟩

theorem arc_tracks {c : Cfg} {delta radius : V4 ℝ} {plane : Plane} {rot : Rot} {v : ℝ}
    {g : CircGen ℝ} (h : GridArc c delta radius plane)
    (hg : CircGen.new c delta radius plane rot v = .ok g) (hnb : ¬ BackInQuarter plane delta radius) :
    ∃ R RB A B uA uB φ, ArcTracks c delta radius plane rot g R RB A B uA uB φ := by
  obtain ⟨φs, φe, hf, hturn⟩ := new_turn hg
  obtain ⟨R, RB, A, B, EA, EB, hi, r1, r2, r3, r4, p1, p2, hits, q1, q2, -, -⟩ := arc_ints h hf
  have hs := hf.angS
  have he := hf.angE
  rw [arcSA_eq, arcSB_eq] at hs
  rw [arcEA_eq, arcEB_eq] at he
  obtain ⟨s0, s1, sA, sB, sr⟩ := angle_ok hs
  obtain ⟨e0, e1, eA, eB, er⟩ := angle_ok he
  have hd := hf.dirs
  rw [startDirs_eq sr s0 s1 sA sB hi.hp hi.hq hi.hA hi.hB rot] at hd
  have hdA : g.dirA = _ := congrArg Prod.fst hd
  have hdB : g.dirB = _ := congrArg Prod.snd hd
  simp only at hdA hdB
  have gs := arcQuarter_signs (angle_ne hs) hi.hp hi.hq hi.hA hi.hB
  have ge := arcQuarter_signs (angle_ne he) hi.hp hi.hq hi.hEA hi.hEB
  obtain ⟨ls, us⟩ := quarter_range sr s0 s1 sA sB
  obtain ⟨le, ue⟩ := quarter_range er e0 e1 eA eB
  obtain ⟨t0, t1, -, -⟩ := turn_bounds (rot := rot) s0 s1 e0 e1
  rw [← hturn] at t0 t1
  have nA := PyRound.near (startDist plane radius * c.ppm.get (axisA plane))
  have nB := PyRound.near (startDist plane radius * c.ppm.get (axisB plane))
  rw [q1, abs_sub_comm] at nA
  rw [q2, abs_sub_comm] at nB
  have nE := end_near h hf.endOk q1 q2
  obtain ⟨w, w1, w2, w3, i0, i4, j0, j4⟩ := arc_len hi p1 p2 hs he rot hnb hits hturn
  have nsA := near_a gs p1 nA hi.rA (mul_pos sr hi.hp) ls us
    (by rw [← hi.hA, sA]; exact mul_right_comm _ _ _)
  have nsB := near_b gs p2 nB hi.rB (mul_pos sr hi.hq) ls us
    (by rw [← hi.hB, sB]; exact mul_right_comm _ _ _)
  have neA := near_a ge p1 nE.1 hi.rEA (mul_pos er hi.hp) le ue
    (by rw [← hi.hEA, eA]; exact mul_right_comm _ _ _)
  have neB := near_b ge p2 nE.2 hi.rEB (mul_pos er hi.hq) le ue
    (by rw [← hi.hEB, eB]; exact mul_right_comm _ _ _)
  have ta := track_of (rot := rot) p1 t0 t1 i0 i4 nsA neA w1 w3
  have tb := track_of (rot := rot) p2 t0 t1 j0 j4 nsB neB (w := w) (by linear_combination w2)
    (by linear_combination w3)
  obtain ⟨kA, a1, a2, a3⟩ := fold_start_a (R := R) (rot := rot) p1 gs hi.eA (side := g.sideA)
    (by rw [hf.sideA, r4, hdB])
  obtain ⟨kB, b1, b2, b3⟩ := fold_start_b (R := RB) (rot := rot) p2 gs hi.eB (side := g.sideB)
    (by rw [hf.sideB, r3, hdA])
  have g2A := hf.rad2A
  have g2B := hf.rad2B
  rw [planeAxes_eq, arcRad_eq, mul_eq, ← pow_two] at g2A g2B
  obtain rfl := hf.plane_eq
  obtain rfl := hf.rot_eq
  obtain ⟨x1, x2, x3⟩ := fold_pos_a p1 r1 r3 hi.rA i4 a1 a2 (by rw [hdA, a3])
  obtain ⟨y1, y2, y3⟩ := fold_pos_b p2 r2 r4 hi.rB j4 b1 b2 (by rw [hdB, b3])
  exact ⟨R, RB, A, B, _, _, φs, rfl, rfl, q1, q2, hi.hA, hi.hB, s0, s1,
    sA, sB, sweep_of t0 t1 sA sB eA eB w3, ta, tb, x1, y1,
    fun i d t ht => times_a h.posA ta hf.angStart s0 s1 rfl r1 (by rw [g2A, ← q1]) x2 x3 i ht,
    fun i d t ht => times_b h.posB tb hf.angStart s0 s1 rfl r2 (by rw [g2B, ← q2]) y2 y3 i ht⟩

end PyCNC
