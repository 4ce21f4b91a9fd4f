import Verif.Lemmas.ArcMachineWitness
import Verif.Lemmas.ArcNet
import Verif.Lemmas.Head

/-!
# A half circle that starts and ends on the table and leaves it in between
-/

namespace PyCNC

open Spec

variable [PyRound]

/-- The number of steps of an arc that ends in a later quarter, in the sense of clockwise motion. -/
theorem its_forward {sa sb ea eb p q φs φe : ℝ} {R RB A B EA EB : ℤ}
    (hi : ArcInts sa sb ea eb p q R RB A B EA EB) (hs : angle sa sb = .ok φs)
    (he : angle ea eb = .ok φe) (rot : Rot) (hq : arcQuarter sa sb < arcQuarter ea eb) :
    arcIterations rot φs φe R RB |A| |B| |EA| |EB| |A - EA| |B - EB| =
      (turned rot R (unrollA R (arcQuarter ea eb) EA - unrollA R (arcQuarter sa sb) A),
        turned rot RB (unrollB RB (arcQuarter ea eb) EB - unrollB RB (arcQuarter sa sb) B)) := by
  have hpi := Real.pi_pos
  obtain ⟨s0, s1, s2, s3, s4⟩ := angle_ok hs
  obtain ⟨e0, e1, e2, e3, e4⟩ := angle_ok he
  have gs := arcQuarter_signs (angle_ne hs) hi.hp hi.hq hi.hA hi.hB
  have ge := arcQuarter_signs (angle_ne he) hi.hp hi.hq hi.hEA hi.hEB
  obtain ⟨ls, us⟩ := quarter_range s4 s0 s1 s2 s3
  obtain ⟨le, ue⟩ := quarter_range e4 e0 e1 e2 e3
  have q1 : 0 ≤ arcQuarter sa sb ∧ arcQuarter sa sb ≤ 3 := by
    rcases arcQuarter_cases sa sb with h | h | h | h <;> omega
  have q2 : 0 ≤ arcQuarter ea eb ∧ arcQuarter ea eb ≤ 3 := by
    rcases arcQuarter_cases ea eb with h | h | h | h <;> omega
  generalize arcQuarter sa sb = qs at *
  generalize arcQuarter ea eb = qe at *
  have tS : PyNum.truncI (φs /ₚ (PyNum.pi /ₚ PyNum.ofRat 2)) = qs := truncI_quarter q1.1 ls us
  have tE : PyNum.truncI (φe /ₚ (PyNum.pi /ₚ PyNum.ofRat 2)) = qe := truncI_quarter q2.1 le ue
  have hlt : φs < φe := by
    have h1 : (qs : ℝ) + 1 ≤ qe := by exact_mod_cast hq
    nlinarith
  have hle : (φe ≤ₚ φs) = false := by simpa using hlt
  unfold arcIterations
  simp only [tS, hle, Bool.false_eq_true, if_false, tE]
  rw [if_neg (by omega), if_neg (by omega)]
  obtain ⟨f1, f2⟩ := fold_a (w := 0) (R := R) (RB := RB) gs ge (.inl rfl) (by omega) (by omega)
  rw [add_zero] at f1 f2
  have hf := Prod.ext (y := (_, _)) f1 f2
  rw [hf]
  cases rot <;> simp [turned]

theorem steps_take_succ (ax : Axis) (evs : List (Event ℝ)) (n : ℕ) :
    steps ax (evs.take (n + 1)) ≤ steps ax (evs.take n) + 1 := by
  induction evs generalizing n with
  | nil => simp
  | cons ev r ih =>
    cases n with
    | zero =>
      simp only [List.take_zero, zero_add, List.take_succ_cons]
      cases ev with
      | dir d => simp [steps, stepTimes]
      | pulse t => cases h : t.get ax <;> simp [steps, stepTimes, h]
    | succ n =>
      rw [List.take_succ_cons, List.take_succ_cons, steps_cons ax ev (r.take (n + 1)),
        steps_cons ax ev (r.take n)]
      have := ih n
      omega

/-- Every number of steps up to the last one is reached. -/
theorem steps_reach (ax : Axis) (evs : List (Event ℝ)) {k : ℕ} (h : k ≤ steps ax evs) :
    ∃ n, steps ax (evs.take n) = k := by
  by_contra hc
  push Not at hc
  have key : ∀ n, steps ax (evs.take n) < k := by
    intro n
    induction n with
    | zero =>
      have h0 := hc 0
      have : steps ax (evs.take 0) = 0 := by simp [steps, stepTimes]
      omega
    | succ n ih =>
      have := steps_take_succ ax evs n
      have := hc (n + 1)
      omega
  have := key evs.length
  rw [List.take_length] at this
  omega

theorem half_sized : SizedArc Cfg.default ⟨0, -10, 0, 0⟩ ⟨0, -5, 0, 0⟩ .xy 600 := by
  have e1 : √((0 : ℝ) ^ 2 + (-5) ^ 2) = 5 := by
    rw [show (0 : ℝ) ^ 2 + (-5) ^ 2 = 5 ^ 2 by norm_num]; exact Real.sqrt_sq (by norm_num)
  have e2 : √((0 - 0 : ℝ) ^ 2 + (-10 - -5) ^ 2) = 5 := by
    rw [show (0 - 0 : ℝ) ^ 2 + (-10 - -5) ^ 2 = 5 ^ 2 by norm_num]; exact Real.sqrt_sq (by norm_num)
  refine sized_xy (R := 500) (by norm_num) ?_ ?_ ?_ (by norm_num)
  · rw [e1]; norm_num
  · rw [e1]; norm_num
  · rw [e2]; norm_num

omit [PyRound] in
theorem half_onSteps (ax : Axis) : OnSteps Cfg.default (⟨0, -10, 0, 0⟩ : V4 ℝ) ax ∧
    OnSteps Cfg.default (⟨0, -5, 0, 0⟩ : V4 ℝ) ax := by
  cases ax
  · exact ⟨⟨0, by norm_num [V4.get, Cfg.default]⟩, ⟨0, by norm_num [V4.get, Cfg.default]⟩⟩
  · exact ⟨⟨-1000, by norm_num [V4.get, Cfg.default]⟩, ⟨-500, by norm_num [V4.get, Cfg.default]⟩⟩
  · exact ⟨⟨0, by norm_num [V4.get, Cfg.default]⟩, ⟨0, by norm_num [V4.get, Cfg.default]⟩⟩
  · exact ⟨⟨0, by norm_num [V4.get, Cfg.default]⟩, ⟨0, by norm_num [V4.get, Cfg.default]⟩⟩

omit [PyRound] in
theorem half_grid : GridArc Cfg.default ⟨0, -10, 0, 0⟩ ⟨0, -5, 0, 0⟩ .xy where
  posA := by norm_num [axisA, V4.get, Cfg.default]
  posB := by norm_num [axisB, V4.get, Cfg.default]
  radA := (half_onSteps _).2
  radB := (half_onSteps _).2
  delA := (half_onSteps _).1
  delB := (half_onSteps _).1
  fit := .inl (by norm_num [axisA, axisB, V4.get, Cfg.default])

theorem half_end {m n : ℤ} : circleEnd Cfg.default .xy ⟨0, -10, 0, 0⟩ ⟨0, -5, 0, 0⟩
    ⟨(m : ℝ) / 100, n / 100, 0, 0⟩ .cw = .ok ⟨0, -10, 0, 0⟩ := by
  have e1 : √((-5 : ℝ) ^ 2) = 5 := by
    rw [show (-5 : ℝ) ^ 2 = 5 ^ 2 by norm_num]; exact Real.sqrt_sq (by norm_num)
  have hP : circlePoint ((0 : ℝ) - 0) (-10 - -5) (0 ^ 2 + (-5) ^ 2) = (0, -5) := by
    unfold circlePoint
    norm_num [e1]
    rw [show (25 : ℝ) = 5 ^ 2 by norm_num]; exact Real.sqrt_sq (by norm_num)
  have hq : quarter (0 : ℝ) (-5) = 4 := by rw [quarter_eq]; norm_num
  have hq' : quarter (-0 : ℝ) (-(-5)) = 1 := by rw [quarter_eq]; norm_num
  have := circleEnd_xy (c := Cfg.default) (delta := ⟨0, -10, 0, 0⟩) (radius := ⟨0, -5, 0, 0⟩)
    (pos := ⟨(m : ℝ) / 100, n / 100, 0, 0⟩) (rot := .cw) (by norm_num) (by norm_num) hP
    (by simp only [hq, hq']; exact fit_at_once (by norm_num))
  rw [this]
  norm_num

/-- The default machine makes a half circle to the right. -/
theorem half_moves {env : Env ℝ} (henv : ∀ tr, env.move tr = none) {m n : ℤ}
    (hm : 0 ≤ m ∧ m ≤ 20000) (hn : 1000 ≤ n ∧ n ≤ 20000) {s : MState ℝ}
    (hs : s.pos = ⟨m / 100, n / 100, 0, 0⟩) (hpl : s.plane = .xy) :
    ∃ g : CircGen ℝ, CircGen.new Cfg.default ⟨0, -10, 0, 0⟩ ⟨0, -5, 0, 0⟩ .xy .cw 600 = .ok g ∧
      ∃ p, moveCircular Cfg.default env ⟨0, -10, 0, 0⟩ ⟨0, -5, 0, 0⟩ 600 .cw s =
        (.ok (), { s with pos := p, trace := .move (.circular g) :: s.trace }) := by
  have rd := rts_vec (x := 0) (y := -10) (z := 0) 0 (-1000) 0 (by norm_num) (by norm_num) (by norm_num)
  have rr := rts_vec (x := 0) (y := -5) (z := 0) 0 (-500) 0 (by norm_num) (by norm_num) (by norm_num)
  obtain ⟨g, φs, φe, hg, -, -⟩ := arc_new sane_cfg half_sized .cw
  have hvel := checkVelocity_gen (default_limits true) (g := .circular g)
    (arc_limit sane_cfg (default_limits true) auto_default half_sized hg (.inl ⟨rfl, rfl⟩))
  refine ⟨g, hg, ?_⟩
  have h1 : checkDelta Cfg.default s.pos (roundToSteps Cfg.default ⟨0, -10, 0, 0⟩) = .ok () := by
    rw [rd, hs]
    have := area_default (m := m) (n := n) (l := 0) (m' := 0) (n' := -1000) (l' := 0) (by omega)
      (by omega) (by omega)
    norm_num at this
    exact this
  rw [circ_moves henv h1 (by rw [rd, rr, hs, hpl]; exact half_end) (by rw [rd, rr, hpl]; exact hg) hvel
    (by rw [rd]; exact extra_none _ _)]
  exact ⟨_, rfl⟩

/-- The pulses of the half circle: the first axis goes 500 steps to the right. -/
theorem half_train {g : CircGen ℝ}
    (hg : CircGen.new Cfg.default ⟨0, -10, 0, 0⟩ ⟨0, -5, 0, 0⟩ .xy .cw 600 = .ok g) :
    ∃ evs, Emits Cfg.default (.circular g) evs ∧
      ∃ pre, pre <+: evs ∧ netSteps Cfg.default .x pre = 500 := by
  have e1 : √((0 : ℝ) ^ 2 + (-5) ^ 2) = 5 := by
    rw [show (0 : ℝ) ^ 2 + (-5) ^ 2 = 5 ^ 2 by norm_num]; exact Real.sqrt_sq (by norm_num)
  have e2 : √((0 - 0 : ℝ) ^ 2 + (-10 - -5) ^ 2) = 5 := by
    rw [show (0 - 0 : ℝ) ^ 2 + (-10 - -5) ^ 2 = 5 ^ 2 by norm_num]; exact Real.sqrt_sq (by norm_num)
  obtain ⟨s1, s2⟩ := arc_sizes (da := 0) (db := -10) (ra := 0) (rb := -5) (d3 := 0) (e := 0)
  have hord : OrdinaryArc Cfg.default ⟨0, -10, 0, 0⟩ ⟨0, -5, 0, 0⟩ .xy 600 := by
    refine ⟨half_grid, ?_, ?_, ?_, ?_, ?_, ?_, ?_, .inl ⟨rfl, rfl⟩, by norm_num⟩
    · rw [s1, e1]; norm_num
    · rw [s1, s2, e1, e2]
    · rw [s1, e1]; norm_num
    · norm_num [axis3, V4.get]
    · norm_num
    · norm_num [axis3, V4.get]
    · norm_num
  obtain ⟨g', hg', hgood, -⟩ := arc_good sane_cfg hord .cw
  rw [hg] at hg'
  cases hg'
  obtain ⟨evs, hev⟩ := circ_emits hgood
  refine ⟨evs, hev, ?_⟩
  obtain ⟨φs, φe, hf⟩ := new_facts hg
  obtain ⟨R, RB, A, B, EA, EB, hi, r1, r2, r3, r4, p1, p2, hits, q1, q2, _, _⟩ := arc_ints half_grid hf
  have hs := hf.angS
  have he := hf.angE
  rw [arcSA_eq, arcSB_eq] at hs
  rw [arcEA_eq, arcEB_eq] at he
  have v1 : startA .xy (⟨0, -5, 0, 0⟩ : V4 ℝ) = 0 := by norm_num [startA, axisA, V4.get]
  have v2 : startB .xy (⟨0, -5, 0, 0⟩ : V4 ℝ) = 5 := by norm_num [startB, axisB, V4.get]
  have v3 : endA .xy (⟨0, -10, 0, 0⟩ : V4 ℝ) ⟨0, -5, 0, 0⟩ = 0 := by norm_num [endA, axisA, V4.get]
  have v4 : endB .xy (⟨0, -10, 0, 0⟩ : V4 ℝ) ⟨0, -5, 0, 0⟩ = -5 := by norm_num [endB, axisB, V4.get]
  rw [v1, v2] at hs
  rw [v3, v4] at he
  rw [v1, v2, v3, v4] at hi
  have hp : ((Cfg.default.ppm.get (axisA .xy) : ℚ) : ℝ) = 100 := by
    norm_num [axisA, V4.get, Cfg.default]
  have hA : A = 0 := by
    have := hi.hA
    rw [zero_mul] at this
    exact_mod_cast this.symm
  have hEA : EA = 0 := by
    have := hi.hEA
    rw [zero_mul] at this
    exact_mod_cast this.symm
  have hR : R = 500 := by
    rw [← q1, s1, e1, hp]
    have := rnd_int 500
    norm_num at this ⊢
    exact this
  have a1 : arcQuarter (0 : ℝ) 5 = 0 := by unfold arcQuarter; norm_num
  have a2 : arcQuarter (0 : ℝ) (-5) = 2 := by unfold arcQuarter; norm_num
  rw [its_forward hi hs he .cw (by rw [a1, a2]; norm_num), a1, a2] at hits
  have hit : g.itA = 1000 := by
    have := congrArg Prod.fst hits
    simp only at this
    rw [this]
    simp [turned, unrollA, hA, hEA, hR]
  have hd := hf.dirs
  obtain ⟨t0, t1, tA, tB, tr⟩ := angle_ok hs
  rw [startDirs_eq tr t0 t1 tA tB hi.hp hi.hq hi.hA hi.hB .cw, a1] at hd
  have hdA : g.dirA = 1 := by
    have := congrArg Prod.fst hd
    simp only at this
    rw [this]
    simp [dirA]
  obtain ⟨N, hN⟩ := hev
  have hrun := hN N le_rfl
  have hall := circ_run_a Cfg.default g N (by omega) (by omega) (by omega) (by omega)
  rw [hrun, hf.plane_eq] at hall
  have hst := hall.2.2 rfl
  simp only [axisA] at hst
  obtain ⟨k, hk⟩ := steps_reach .x evs (k := 500) (by omega)
  refine ⟨evs.take k, List.take_prefix _ _, ?_⟩
  obtain ⟨n, hn⟩ := emits_prefix ⟨N, hN⟩ (List.take_prefix k evs)
  have hpre := (circ_run_a Cfg.default g n (by omega) (by omega) (by omega) (by omega)).1
  rw [hn, hf.plane_eq] at hpre
  simp only [axisA] at hpre
  rw [hk, hdA, r1, r3, hA, hR, walk_up (by norm_num) (by norm_num) (by norm_num)] at hpre
  rw [hpre]
  norm_num

end PyCNC
