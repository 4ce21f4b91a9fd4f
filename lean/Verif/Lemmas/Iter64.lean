import Verif.Lemmas.ArcExact
import Verif.Lemmas.Order64

/-!
# The numbers of pulses of an arc in binary64
-/

set_option linter.unusedSectionVars false

namespace PyCNC

open Spec

variable [PyRound]

/-- The end angle after a full turn. -/
theorem turn64 {q A B : ℤ} {φ : F64} (hq : 0 ≤ q) (hq3 : q ≤ 3) (h : Quart q A B φ.1) :
    PyNum.truncI ((φ +ₚ PyNum.ofRat 2 *ₚ PyNum.pi) /ₚ ((PyNum.pi : F64) /ₚ PyNum.ofRat 2)) = q + 4 := by
  have l := halfPi_lo
  have u := halfPi_hi
  have h1 := h.le
  have h2 := h.lt
  have q0 : (0 : ℝ) ≤ q := by exact_mod_cast hq
  have q3 : (q : ℝ) ≤ 3 := by exact_mod_cast hq3
  have hv : (φ +ₚ PyNum.ofRat 2 *ₚ PyNum.pi : F64).1 = fl (φ.1 + 4 * halfPi) := by
    rw [val_add, full64]
  apply trunc_quarter64 (by omega) (by omega)
  · rw [hv]
    refine le_fl_of_le (fl_halfPi (q + 4) (by omega) (by omega)) ?_
    push_cast; linarith
  · rw [hv]
    have hx : 0 ≤ φ.1 + 4 * halfPi := by nlinarith
    have h3 := fl_hi hx
    have h4 : φ.1 + 4 * halfPi ≤ 20 := by nlinarith
    push_cast
    linarith

/-- `_iterations_a` and `_iterations_b` depend on the order of the angles and on their quarters. -/
theorem iters_eq {F G : Type} [PyNum F] [PyNum G] {φs φe : F} {ψs ψe : G} {qs qe : ℤ}
    (hle : (φe ≤ₚ φs) = (ψe ≤ₚ ψs))
    (s1 : PyNum.truncI (φs /ₚ (PyNum.pi /ₚ PyNum.ofRat 2)) = qs)
    (s2 : PyNum.truncI (ψs /ₚ (PyNum.pi /ₚ PyNum.ofRat 2)) = qs)
    (e1 : PyNum.truncI (φe /ₚ (PyNum.pi /ₚ PyNum.ofRat 2)) = qe)
    (e2 : PyNum.truncI (ψe /ₚ (PyNum.pi /ₚ PyNum.ofRat 2)) = qe)
    (t1 : PyNum.truncI ((φe +ₚ PyNum.ofRat 2 *ₚ PyNum.pi) /ₚ (PyNum.pi /ₚ PyNum.ofRat 2)) = qe + 4)
    (t2 : PyNum.truncI ((ψe +ₚ PyNum.ofRat 2 *ₚ PyNum.pi) /ₚ (PyNum.pi /ₚ PyNum.ofRat 2)) = qe + 4)
    (rot : Rot) (a b d e f g h i : ℤ) :
    arcIterations rot φs φe a b d e f g h i = arcIterations rot ψs ψe a b d e f g h i := by
  unfold arcIterations
  simp only [s1, s2, hle]
  cases (ψe ≤ₚ ψs)
  · simp only [Bool.false_eq_true, if_false, e1, e2]
  · simp only [if_true, t1, t2]

/-- The numbers of pulses computed in binary64 are those computed exactly. -/
theorem iters64 {xa xb ya yb p P Q φs φe : ℝ} {sa sb ea eb ψs ψe : F64} {R RB A B EA EB : ℤ}
    (hi : ArcInts xa xb ya yb P Q R RB A B EA EB) (hPQ : P = Q)
    (hs : angle xa xb = .ok φs) (he : angle ya yb = .ok φe)
    (ps : Pt64 p sa sb A B) (pe : Pt64 p ea eb EA EB)
    (hsame : EA = A → EB = B → ea = sa ∧ eb = sb)
    (as : angle sa sb = .ok ψs) (ae : angle ea eb = .ok ψe) (rot : Rot) (a b d e f g h i : ℤ) :
    arcIterations rot ψs ψe a b d e f g h i = arcIterations rot φs φe a b d e f g h i ∧
      startDirs rot ψs = startDirs rot φs := by
  subst hPQ
  have hpi := Real.pi_pos
  have hP := hi.hp
  obtain ⟨s0, s1, s2, s3, s4⟩ := angle_ok hs
  obtain ⟨e0, e1, e2, e3, e4⟩ := angle_ok he
  have gs := arcQuarter_signs (angle_ne hs) hi.hp hi.hq hi.hA hi.hB
  have ge := arcQuarter_signs (angle_ne he) hi.hp hi.hq hi.hEA hi.hEB
  obtain ⟨ls, us⟩ := quarter_range s4 s0 s1 s2 s3
  obtain ⟨le, ue⟩ := quarter_range e4 e0 e1 e2 e3
  have hdirs := startDirs_eq s4 s0 s1 s2 s3 hi.hp hi.hq hi.hA hi.hB rot
  have hlt := fun h : arcQuarter xa xb = arcQuarter ya yb =>
    angle_lt_iff s4 e4 s2 s3 e2 e3 ls us (h ▸ le) (h ▸ ue)
  have hsm := hi.same
  have q1 : 0 ≤ arcQuarter xa xb ∧ arcQuarter xa xb ≤ 3 := by
    rcases arcQuarter_cases xa xb with h | h | h | h <;> omega
  have q2 : 0 ≤ arcQuarter ya yb ∧ arcQuarter ya yb ≤ 3 := by
    rcases arcQuarter_cases ya yb with h | h | h | h <;> omega
  have hcross : (xa * yb < ya * xb ↔ A * EB < EA * B) ∧ (ya * xb = xa * yb ↔ EA * B = A * EB) := by
    have hPP : 0 < P * P := mul_pos hP hP
    have f1 : (xa * yb) * (P * P) = ((A * EB : ℤ) : ℝ) := by
      push_cast; rw [← hi.hA, ← hi.hEB]; ring
    have f2 : (ya * xb) * (P * P) = ((EA * B : ℤ) : ℝ) := by
      push_cast; rw [← hi.hEA, ← hi.hB]; ring
    constructor
    · rw [← mul_lt_mul_iff_left₀ hPP, f1, f2]; exact Int.cast_lt
    · rw [← mul_left_inj' hPP.ne', f1, f2]; exact Int.cast_inj
  generalize arcQuarter xa xb = qs at *
  generalize arcQuarter ya yb = qe at *
  obtain ⟨ψs', as', qqs⟩ := quart64 ps gs
  obtain ⟨ψe', ae', qqe⟩ := quart64 pe ge
  obtain rfl : ψs = ψs' := Except.ok.inj (as.symm.trans as')
  obtain rfl : ψe = ψe' := Except.ok.inj (ae.symm.trans ae')
  have l := halfPi_lo
  refine ⟨iters_eq (qs := qs) (qe := qe) ?_ ?_ ?_ ?_ ?_ ?_ ?_ rot a b d e f g h i,
    (startDirs64 gs qqs rot).trans hdirs.symm⟩
  · -- the order of the angles
    rw [Bool.eq_iff_iff, le64_iff, le_iff]
    rcases lt_trichotomy qs qe with hq | hq | hq
    · have h1 : (qs : ℝ) + 1 ≤ qe := by exact_mod_cast hq
      have h2 := qqs.lt
      have h3 := qqe.le
      constructor <;> intro h <;> nlinarith
    · have hl := hlt hq
      rw [hcross.1] at hl
      subst hq
      rcases lt_trichotomy (A * EB) (EA * B) with hx | hx | hx
      · have := angles_order64 ps pe gs ge hx as ae
        have h2 := hl.2 hx
        constructor <;> intro h <;> linarith
      · obtain ⟨r1, r2⟩ := hsm rfl (hcross.2.2 hx.symm)
        obtain ⟨rfl, rfl⟩ := hsame r1 r2
        obtain rfl : ψs = ψe := Except.ok.inj (as.symm.trans ae)
        have h2 : ¬ φs < φe := by rw [hl]; omega
        exact ⟨fun _ => not_lt.1 h2, fun _ => le_rfl⟩
      · have := angles_order64 pe ps ge gs hx ae as
        have h2 : ¬ φs < φe := by rw [hl]; omega
        exact ⟨fun _ => not_lt.1 h2, fun _ => by linarith⟩
    · have h1 : (qe : ℝ) + 1 ≤ qs := by exact_mod_cast hq
      have h2 := qqe.lt
      have h3 := qqs.le
      constructor <;> intro h <;> nlinarith
  · exact trunc_quarter64 q1.1 (by omega) qqs.le (by have := qqs.lt; linarith)
  · exact truncI_quarter q1.1 ls us
  · exact trunc_quarter64 q2.1 (by omega) qqe.le (by have := qqe.lt; linarith)
  · exact truncI_quarter q2.1 le ue
  · exact turn64 q2.1 q2.2 qqe
  · have e5 : (φe +ₚ PyNum.ofRat 2 *ₚ PyNum.pi : ℝ) = φe + 2 * Real.pi := by simp
    rw [e5]
    exact truncI_quarter (by omega) (by push_cast; linarith) (by push_cast; linarith)

end PyCNC
