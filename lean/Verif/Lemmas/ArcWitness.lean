import Verif.Lemmas.ArcNet
import Verif.Lemmas.LinearWitness

/-!
# Arcs that go wrong

Full circles in the plane of the axes Y (100 pulses per mm) and Z (400 pulses per mm).
-/

set_option linter.unusedSectionVars false

namespace PyCNC

open Spec Real

/-- A run sees the parameters of every pulse it emits. -/
theorem run_visits {F : Type} [PyNum F] {c : Cfg} {g : Gen F} {D : Axis → Nat → Int}
    {fires : Axis → Nat → Bool} (hp : Planned c g D fires) (ax : Axis) (k : Nat) (n : Nat)
    (s : GenState) (h1 : s.it.get ax ≤ k) (h2 : k < s.it.get ax + steps ax (g.run c n s).1) :
    ∃ it r, it.get ax = k ∧ g.interp c it = .ok r := by
  induction n generalizing s with
  | zero =>
    change k < s.it.get ax + 0 at h2
    omega
  | succ n ih =>
    rcases run_succ c g n s with ⟨e, _, h⟩ | ⟨_, h⟩ | ⟨ev, s', hn, h⟩ <;> rw [h] at h2
    · change k < s.it.get ax + 0 at h2
      omega
    · change k < s.it.get ax + 0 at h2
      omega
    · obtain ⟨h3, h4⟩ := planned_next hp hn ax
      rw [steps_cons] at h2
      rcases Nat.lt_or_ge k (s'.it.get ax) with hk | hk
      · obtain rfl : s.it.get ax = k := by omega
        rcases next_cases c g s with ⟨e, _, h5⟩ | ⟨d, t, hi, _⟩
        · rw [hn] at h5; cases h5
        · exact ⟨_, _, rfl, hi⟩
      · exact ih s' hk (by omega)

variable [PyRound]

theorem full_its {φ : ℝ} (h0 : 0 ≤ φ) (rot : Rot) (ra rb a b c d e f : Int) :
    arcIterations rot φ φ ra rb a b c d e f = (4 * ra, 4 * rb) := by
  have hpi := pi_pos
  unfold arcIterations
  have h1 : (φ ≤ₚ φ) = true := by simp
  simp only [h1, if_true]
  rw [if_pos]
  simp only [div_eq, pi_eq, ofRat_eq, truncI_eq, add_eq, mul_eq, Rat.cast_ofNat]
  rw [if_pos (by positivity), if_pos (by positivity)]
  have : (φ + 2 * π) / (π / 2) = φ / (π / 2) + (4 : ℤ) := by
    push_cast; field_simp; ring
  rw [this, Int.floor_add_intCast]
  omega

theorem sane_cfg : SaneCfg Cfg.default := default_sane true

section YZ

variable {W R : ℤ}

theorem yz_dist (hW : 0 < W) : startDist .yz ⟨0, 0, (W : ℝ) / 400, 0⟩ = W / 400 := by
  have : (0 : ℝ) < W := by exact_mod_cast hW
  simp only [startDist, startA, startB, axisA, axisB, V4.get]
  rw [show (-(0 : ℝ)) ^ 2 + (-(W / 400)) ^ 2 = ((W : ℝ) / 400) ^ 2 by ring]
  exact Real.sqrt_sq (by positivity)

theorem yz_end : endDist .yz ⟨0, 0, 0, 0⟩ ⟨0, 0, (W : ℝ) / 400, 0⟩ =
    startDist .yz ⟨0, 0, (W : ℝ) / 400, 0⟩ := by
  simp only [startDist, endDist, startA, startB, endA, endB, axisA, axisB, V4.get, zero_sub]

/-- The generator of a full circle of radius `W / 400` mm around a point above the start. -/
theorem yz_circle (h1 : 400 ≤ W) (h2 : W ≤ 4000) (hR : |(W : ℝ) / 400 * 100 - R| < 1 / 2) :
    ∃ g, CircGen.new Cfg.default ⟨0, 0, 0, 0⟩ ⟨0, 0, (W : ℝ) / 400, 0⟩ .yz .cw 600 = .ok g ∧
      CircBase Cfg.default g ∧ g.plane = .yz ∧ g.startAP = 0 ∧ g.startBP = -W ∧ g.radiusAP = R ∧
      g.radiusBP = 4 * R ∧ g.dirA = -1 ∧ g.dirB = 1 ∧ g.itA = 4 * R ∧ g.itB = 16 * R ∧
      g.radiusA2 = ((R : ℝ) / 100) ^ 2 ∧ g.radiusB2 = ((W : ℝ) / 400) ^ 2 := by
  have hW1 : (400 : ℝ) ≤ W := by exact_mod_cast h1
  have hW2 : (W : ℝ) ≤ 4000 := by exact_mod_cast h2
  have hW : 0 < W := by omega
  have hco : coarse Cfg.default .yz = 100 := by
    simp only [coarse, axisA, axisB, V4.get, Cfg.default]; norm_num
  have hd := yz_dist hW
  have hs : SizedArc Cfg.default ⟨0, 0, 0, 0⟩ ⟨0, 0, (W : ℝ) / 400, 0⟩ .yz 600 := by
    refine ⟨?_, ?_, ?_, ?_, ?_, ?_, ?_, ?_, ?_, .inl ⟨rfl, rfl⟩, by norm_num⟩
    · simp [axisA, V4.get, Cfg.default]
    · simp [axisB, V4.get, Cfg.default]
    · rw [hd, hco]; push_cast; linarith
    · rw [yz_end]
    · rw [hd]; linarith
    · simp [axis3, V4.get]
    · simp
    · intro h; exact absurd rfl h
    · intro h; exact absurd rfl h
  obtain ⟨g, φs, φe, hg, hb, hf⟩ := arc_new sane_cfg hs .cw
  have e1 : PyRound.rnd (startDist .yz ⟨0, 0, (W : ℝ) / 400, 0⟩ * (100 : ℚ)) = R := by
    rw [hd]; exact rnd_unique (by push_cast; exact hR)
  have e2 : PyRound.rnd (startDist .yz ⟨0, 0, (W : ℝ) / 400, 0⟩ * (400 : ℚ)) = W := by
    rw [hd, show (W : ℝ) / 400 * (400 : ℚ) = W by push_cast; field_simp]; exact rnd_int W
  have pA : (planeAxes Plane.yz Cfg.default.ppm).1 = 100 := rfl
  have pB : (planeAxes Plane.yz Cfg.default.ppm).2.1 = 400 := rfl
  have hm : arcMpm Cfg.default .yz = 100 := by rw [coarse_eq, hco]
  have hangE : φe = φs := by
    have h3 := hf.angE
    rw [show arcEA .yz ⟨0, 0, 0, 0⟩ ⟨0, 0, (W : ℝ) / 400, 0⟩ = arcSA .yz ⟨0, 0, (W : ℝ) / 400, 0⟩ by
        simp [arcEA, planeAxes], show arcEB .yz ⟨0, 0, 0, 0⟩ ⟨0, 0, (W : ℝ) / 400, 0⟩ =
        arcSB .yz ⟨0, 0, (W : ℝ) / 400, 0⟩ by simp [arcEB, planeAxes], hf.angS] at h3
    cases h3; rfl
  have hangS := hf.angS
  obtain ⟨s0, s1, sA, sB, sr⟩ := angle_ok hangS
  have rad : arcRad (F := ℝ) 100 .yz ⟨0, 0, (W : ℝ) / 400, 0⟩ = R / 100 := by
    rw [arcRad_eq, e1]; norm_num
  have radB : arcRad (F := ℝ) 400 .yz ⟨0, 0, (W : ℝ) / 400, 0⟩ = W / 400 := by
    rw [arcRad_eq, e2]; norm_num
  have sa0 : arcSA .yz ⟨0, 0, (W : ℝ) / 400, 0⟩ = 0 := by simp [arcSA, planeAxes]
  have sb0 : arcSB .yz ⟨0, 0, (W : ℝ) / 400, 0⟩ = -(W / 400) := by simp [arcSB, planeAxes]
  have hr1 : (R : ℝ) / 100 * 100 = (R : ℤ) := by field_simp
  have hr2 : (R : ℝ) / 100 * 400 = (4 * R : ℤ) := by push_cast; ring
  have hits := hf.its
  rw [hangE, full_its s0, hm, pA, pB, rad] at hits
  simp only [mul_eq, ofRat_eq, Rat.cast_ofNat, roundI_eq, hr1, hr2, rnd_int] at hits
  have hdirs := hf.dirs
  rw [startDirs_eq (p := 100) (q := 400) (A := 0) (B := -W) sr s0 s1 sA sB (by norm_num)
    (by norm_num) (by rw [sa0]; simp) (by rw [sb0]; push_cast; ring), sa0, sb0] at hdirs
  have hq : arcQuarter 0 (-((W : ℝ) / 400)) = 2 := by
    unfold arcQuarter
    rw [if_neg (by rintro ⟨_, h⟩; linarith), if_neg (by rintro ⟨h, _⟩; linarith),
      if_pos ⟨le_rfl, by linarith⟩]
  rw [hq] at hdirs
  have hA := hf.startA
  have hB := hf.startB
  have hRA := hf.radA
  have hRB := hf.radB
  have h2A := hf.rad2A
  have h2B := hf.rad2B
  rw [pA, sa0] at hA
  rw [pB, sb0] at hB
  rw [hm, pA, rad] at hRA
  rw [hm, pB, rad] at hRB
  rw [pA, rad] at h2A
  rw [pB, radB] at h2B
  simp only [mul_eq, ofRat_eq, Rat.cast_ofNat] at hA hB hRA hRB h2A h2B
  rw [hr1, truncI_int] at hRA
  rw [hr2, truncI_int] at hRB
  rw [show (0 : ℝ) * 100 = ((0 : ℤ) : ℝ) by norm_num, truncI_int] at hA
  rw [show -((W : ℝ) / 400) * 400 = ((-W : ℤ) : ℝ) by push_cast; ring, truncI_int] at hB
  refine ⟨g, hg, hb, hf.plane_eq, hA, hB, hRA, hRB, congrArg Prod.fst hdirs,
    congrArg Prod.snd hdirs, congrArg Prod.fst hits, ?_, ?_, ?_⟩
  · have := congrArg Prod.snd hits
    simp only at this
    omega
  · rw [h2A]; ring
  · rw [h2B]; ring

end YZ

/-- A full circle of radius 1.0025 mm ends two steps above its start. -/
theorem yz_ends_wrong : ∃ (g : CircGen ℝ) (evs : List (Event ℝ)),
    CircGen.new Cfg.default ⟨0, 0, 0, 0⟩ ⟨0, 0, 401 / 400, 0⟩ .yz .cw 600 = .ok g ∧
    Emits Cfg.default (.circular g) evs ∧ netSteps Cfg.default .z evs = 2 := by
  obtain ⟨g, hg, hb, hpl, hA, hB, hRA, hRB, dA, dB, iA, iB, r2A, r2B⟩ :=
    yz_circle (W := 401) (R := 100) (by norm_num) (by norm_num) (by norm_num [abs_of_pos])
  have hgood : CircGood Cfg.default g := by
    refine ⟨hb, ⟨100, by norm_num, ?_, ?_⟩, ⟨401, by norm_num, ?_, ?_⟩⟩
    · rw [r2A, hpl]; simp [axisA, V4.get, Cfg.default]
    · rw [hA, hRA, dA, iA]; exact helper_inside (by norm_num) (by norm_num) (by norm_num) (by norm_num)
    · rw [r2B, hpl]; simp [axisB, V4.get, Cfg.default]
    · intro i hi
      rw [hB, hRB, dB]
      rw [iB] at hi
      unfold circularHelper
      simp only
      split_ifs <;> simp only <;> constructor <;> omega
  obtain ⟨evs, N, hN⟩ := circ_emits hgood
  refine ⟨g, evs, by simpa using hg, ⟨N, hN⟩, ?_⟩
  have hN' := hN N le_rfl
  have hz : GenState.init.it.get Axis.z = 0 := rfl
  obtain ⟨-, h4⟩ := planned_steps (circ_planned Cfg.default g) .z 1600
    (fun i => by
      rw [circ_fires]
      simp only [CircGen.totals, hpl, axisA, axisB, reduceCtorEq, if_false, if_true, iB]; omega) N .init
    (by rw [hz]; omega)
  have hnet := planned_net (circ_planned Cfg.default g) N .init .z 0 (fun d hd => by cases hd)
  rw [hN'] at h4 hnet
  have h4 := h4 rfl
  simp only [hz, Nat.zero_add] at h4 hnet
  rw [netSteps, hnet, h4]
  have hD : ∀ j ∈ Finset.range 1600, g.dirAt .z j = if j ≤ 800 then 1 else -1 := by
    intro j hj
    rw [Finset.mem_range] at hj
    simp only [CircGen.dirAt, hpl, axisA, axisB, reduceCtorEq, if_false, if_true]
    rw [if_neg (by rw [iB]; omega), hB, hRB, dB]
    unfold circularHelper
    simp only
    split_ifs <;> first | omega | rfl
  rw [Finset.sum_congr rfl hD]
  decide +kernel

/-- A full circle of radius 1.0075 mm raises an exception. -/
theorem yz_raises : ∃ g : CircGen ℝ,
    CircGen.new Cfg.default ⟨0, 0, 0, 0⟩ ⟨0, 0, 403 / 400, 0⟩ .yz .cw 600 = .ok g ∧
    ∃ n evs e, (Gen.circular g).run Cfg.default n .init = (evs, .raised e) := by
  obtain ⟨g, hg, hb, hpl, hA, hB, hRA, hRB, dA, dB, iA, iB, r2A, r2B⟩ :=
    yz_circle (W := 403) (R := 101) (by norm_num) (by norm_num) (by norm_num [abs_lt])
  refine ⟨g, by simpa using hg, ?_⟩
  have hp := circ_planned Cfg.default g
  set N := 2 * leftOf g.totals GenState.init + 2 with hN
  have hends := planned_ends hp g.totals (circ_fires g) N .init
    (fun ax => by cases ax <;> exact Nat.zero_le _) (by split <;> omega)
  have hz : GenState.init.it.get Axis.z = 0 := rfl
  obtain ⟨-, h4⟩ := planned_steps hp .z 1616
    (fun i => by
      rw [circ_fires]
      simp only [CircGen.totals, hpl, axisA, axisB, reduceCtorEq, if_false, if_true, iB]; omega) N .init
    (by rw [hz]; omega)
  rw [hz, Nat.zero_add] at h4
  rcases hx : ((Gen.circular g).run Cfg.default N .init).2 with _ | e | _
  · exfalso
    obtain ⟨it, ⟨d, t⟩, hit, hi⟩ := run_visits hp .z 806 N .init (by rw [hz]; omega)
      (by rw [hz, h4 hx]; omega)
    have h5 := circ_interp.1 (hi : g.interp Cfg.default it = .ok (d, t)) .z
    rw [hit] at h5
    simp only [CircGen.axisAt, hpl, axisA, axisB, reduceCtorEq, if_false, if_true, CircGen.circularB] at h5
    rw [if_neg (by rw [iB]; omega), hB, hRB, dB] at h5
    have hh : circularHelper (-403) ((806 : ℕ) + 1) (4 * 101) g.sideB 1 = (404, 1, g.sideB) := by
      unfold circularHelper; norm_num
    rw [hh] at h5
    simp only at h5
    rw [if_neg (by rw [iB]; omega), r2B] at h5
    have hs : psqrt ((((403 : ℤ) : ℝ) / 400) ^ 2 -ₚ
        (ofInt 404 /ₚ PyNum.ofRat (Cfg.default.ppm.get .z)) *ₚ
        (ofInt 404 /ₚ PyNum.ofRat (Cfg.default.ppm.get .z))) = .error .value := by
      unfold psqrt
      rw [if_pos]
      simp [V4.get, Cfg.default]
      norm_num
    rw [hs] at h5
    cases h5
  · exact ⟨N, _, e, Prod.ext rfl hx⟩
  · exact absurd hx hends

end PyCNC
