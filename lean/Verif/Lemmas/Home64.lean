import Verif.Lemmas.Straight64
import Verif.Lemmas.Interp64
import Verif.Spec.Home64

/-!
# Homing in binary64
-/

set_option linter.unusedSectionVars false

namespace PyCNC

open Spec

variable [PyRound] {c : Cfg} {env : Env F64}

/-- A straight move by whole steps that the table allows. -/
theorem move_by64 (hc : SaneCfg c) (hl : DecimalLimits c) (hf : ∀ ax, c.maxVel.get ax ≤ 60000)
    (ha : c.autoVel = true) (henv : ∀ tr, env.move tr = none) {s : MState F64} {d : V4 F64} {v : F64}
    (hv : 1 ≤ v.1) {n : V4 ℤ} (hs : Steps64 c n (roundToSteps c d)) (hne : ∃ ax, n.get ax ≠ 0)
    (hck : checkDelta c s.pos (roundToSteps c d) = .ok ()) :
    ∃ lg evs, moveLinear c env d v s = (.ok (), { s with
        pos := Coord.add s.pos (roundToSteps c d)
        trace := .move (.linear lg) :: s.trace }) ∧
      Emits c (.linear lg) evs ∧ (∀ ax, netSteps c ax evs = n.get ax) ∧
      LinearGen.new c (roundToSteps c d) v = .ok lg := by
  have hP : ∀ ax, (0 : ℝ) < c.ppm.get ax := fun ax => by exact_mod_cast hc.ppm_pos ax
  have hP2 : ∀ ax, (c.ppm.get ax : ℝ) ≤ 1000 := fun ax => by exact_mod_cast hc.ppm_le ax
  have hz : Coord.isZero (roundToSteps c d) = false := by
    rcases h : Coord.isZero (roundToSteps c d) with _ | _
    · rfl
    exfalso
    obtain ⟨ax, h1⟩ := hne
    apply h1
    have h2 := (isZero64 _).1 h ax
    have h3 := hs.near ax
    rw [h2, val_zero, zero_sub, abs_neg, abs_div, abs_of_pos (hP ax), div_le_iff₀ (hP ax)] at h3
    have h4 : |(n.get ax : ℝ)| < 1 := by
      have := hP2 ax
      norm_num at *
      linarith
    have h5 : |n.get ax| < 1 := by exact_mod_cast h4
    exact Int.abs_lt_one_iff.1 h5
  obtain ⟨lg, l1, l2⟩ := line_accepted64 hc hl hf ha hs hv hz
  obtain ⟨lg', l3, hgood⟩ := linear64_new hc hs hne hv
  rw [l1] at l3
  cases l3
  obtain ⟨evs, hem⟩ := linear64_done hgood
  refine ⟨lg, evs, ?_, hem, train64 hc hs l1 hem, l1⟩
  rcases moveLinear_cases (c := c) (env := env) d v s with ⟨h0, _⟩ | ⟨_, e, _, h⟩ |
    ⟨_, lg', _, h2, _, ⟨e, h3, _⟩ | ⟨_, h⟩⟩
  · rw [hz] at h0; cases h0
  · exfalso
    rcases h with h | h | ⟨g', h', h⟩
    · rw [hck] at h; cases h
    · rw [l1] at h; cases h
    · rw [l1] at h'; cases h'
      rw [l2] at h; cases h
  · rw [henv] at h3; cases h3
  · rw [l1] at h2; cases h2
    exact h

theorem zeroed_on {r : Ref} (ho : StepsOnTable c r.steps) (hp : ∀ ax, 0 ≤ c.ppm.get ax)
    (ht : ∀ ax, 0 ≤ tableSize c ax) (sel : Axis → Prop) : StepsOnTable c (r.zeroed sel).steps := by
  intro ax hax
  by_cases h : sel ax
  · simp only [Ref.zeroed, if_pos h]
    refine ⟨le_refl _, ?_⟩
    have h1 : (0 : ℝ) ≤ c.ppm.get ax := by exact_mod_cast hp ax
    have h2 : (0 : ℝ) ≤ tableSize c ax := by exact_mod_cast ht ax
    push_cast
    positivity
  · simp only [Ref.zeroed, if_neg h]
    exact ho ax hax

/-- A call that homing makes: a straight move over the table. -/
def HomeCall (c : Cfg) (call : HalCall F64) : Prop :=
  ∃ lg d v n, call = .move (.linear lg) ∧ Steps64 c n d ∧ (∃ ax, n.get ax ≠ 0) ∧ 1 ≤ v.1 ∧
    LinearGen.new c d v = .ok lg ∧ ∀ ax, (|n.get ax| : ℝ) ≤ reach c 0 ax * c.ppm.get ax

/-- One of the moves of `safe_zero`. -/
theorem zero_step64 (hc : FloatMachine c) (henv : ∀ tr, env.move tr = none) {s : MState F64}
    {r : Ref} (ho : StepsOnTable c r.steps) (hg : Grid r.extruded) (hx : |r.extruded| ≤ 3 * 10 ^ 4)
    (hm : Matches64 c s r) (sel : Axis → Prop) (hsel : ¬ sel .e) {d : V4 F64}
    (hd1 : ∀ ax, sel ax → d.get ax = PyNum.round10 (PyNum.neg (s.pos.get ax)))
    (hd0 : ∀ ax, ¬ sel ax → d.get ax = PyNum.round10 zeroF) {v : F64} (hv : 1 ≤ v.1) :
    ∃ s', moveLinear c env d v s = (.ok (), s') ∧ Matches64 c s' (r.zeroed sel) ∧
      s' = { s with pos := s'.pos, trace := s'.trace } ∧
      ∃ calls, s'.trace = calls ++ s.trace ∧ ∀ call ∈ calls, HomeCall c call := by
  classical
  have hP : ∀ ax, (0 : ℝ) < c.ppm.get ax := fun ax => by exact_mod_cast hc.plain.sane.cfg.ppm_pos ax
  have hat : ∀ ax, Grid (r.at c ax) ∧ |r.at c ax| ≤ 3 * 10 ^ 4 ∧ (ax ≠ .e → |r.at c ax| ≤ 10 ^ 4) := fun ax => by
    have := refOk_at (r := { r with origin := fun _ => 0, unit := 1, feed := 0 }) hc
      ⟨ho, hg, fun _ => ⟨grid_zero, by norm_num⟩, .inl rfl, grid_zero⟩ hx ax
    cases ax <;> exact this
  let b : Axis → ℝ := fun ax => if sel ax then -(r.at c ax) else 0
  have hne : ∀ {ax}, sel ax → ax ≠ .e := fun h he => by subst he; exact hsel h
  have hgb : ∀ ax, Grid (b ax) ∧ |b ax| ≤ 10 ^ 4 := fun ax => by
    by_cases h : sel ax
    · simp only [b, if_pos h]
      exact ⟨(hat ax).1.neg, by rw [abs_neg]; exact (hat ax).2.2 (hne h)⟩
    · simp only [b, if_neg h]
      exact ⟨grid_zero, by norm_num⟩
  have hb5 : ∀ ax, |b ax| ≤ 10 ^ 5 := fun ax => (hgb ax).2.trans (by norm_num)
  have hd : ∀ ax, d.get ax = F64.of (b ax) := fun ax => by
    by_cases h : sel ax
    · rw [hd1 ax h, hm.pos]
      have e : (PyNum.neg (F64.of (r.at c ax)) : F64) = F64.of (b ax) := by
        apply ext64
        rw [val_neg, val_of, val_of]
        simp only [b, if_pos h]
        rw [fl_neg]
      rw [e, round10_of64 (hgb ax).1 (hb5 ax)]
    · rw [hd0 ax h, of_round10_zero]
      simp only [b, if_neg h]
  let n : Axis → ℤ := fun ax => if sel ax then -r.steps ax else 0
  have hnb : ∀ ax, b ax * c.ppm.get ax = n ax := fun ax => by
    by_cases h : sel ax
    · simp only [b, n, if_pos h]
      rw [at_steps (hne h)]
      have := (hP ax).ne'
      push_cast
      field_simp
    · simp [b, n, if_neg h]
  have hbn : ∀ ax, b ax = n ax / c.ppm.get ax := fun ax => by
    rw [← hnb, mul_div_cancel_right₀ _ (hP ax).ne']
  have hw : ∀ ax, (roundToSteps c d).get ax = F64.of (b ax) := fun ax => by
    rw [get_roundToSteps64, hd]
    refine roundTo_exact64 (n := n ax) (hc.plain.sane.cfg.ppm_pos ax) (hc.plain.sane.cfg.ppm_le ax) (hb5 ax)
      (by rw [hnb, sub_self, abs_zero]; norm_num) (hgb ax).1 ?_
    rw [← hbn, sub_self, abs_zero, zero_add]
    have := mul_le_mul_of_nonneg_right (hgb ax).2 (by norm_num : (0 : ℝ) ≤ 35 / 10 ^ 17)
    refine lt_of_le_of_lt this (by norm_num)
  have en : ∀ ax, (⟨n .x, n .y, n .z, n .e⟩ : V4 ℤ).get ax = n ax := fun ax => by cases ax <;> rfl
  have hS : Steps64 c ⟨n .x, n .y, n .z, n .e⟩ (roundToSteps c d) := by
    refine ⟨fun ax => ?_, fun ax h0 => ?_, fun ax => ?_⟩
    · rw [hw, en, ← hbn]
      exact (of_near (hb5 ax)).trans (by norm_num)
    · rw [en] at h0
      rw [hw, hbn, h0, val_of]
      simp [fl_zero]
    · rw [en, ← hnb, abs_mul, abs_of_pos (hP ax)]
      exact mul_le_mul_of_nonneg_right (hgb ax).2 (hP ax).le
  obtain ⟨hck, -⟩ := checkDelta64 hc.plain.sane hm.pos hw (fun ax hax => ⟨(hat ax).1, (hat ax).2.2 hax⟩)
    (fun ax _ => ⟨(hgb ax).1, (hgb ax).2.trans (by norm_num)⟩)
  have hsum : ∀ ax, r.at c ax + b ax = (r.zeroed sel).at c ax := fun ax => by
    by_cases h : sel ax
    · have e1 : r.at c ax + b ax = 0 := by simp [b, h]
      rw [e1, at_steps (hne h)]
      simp [Ref.zeroed, h]
    · cases ax <;> simp [b, h, Ref.zeroed, Ref.at]
  by_cases hz : ∃ ax, n ax ≠ 0
  · obtain ⟨lg, evs, h1, h2, h3, h4⟩ := move_by64 hc.plain.sane.cfg hc.plain.limits hc.fast hc.plain.auto henv hv hS
      (by simpa only [en] using hz) (hck.2 fun ax hax => by
        rw [hsum, at_steps hax]
        have := (zeroed_on ho (fun ax => (hc.plain.sane.cfg.ppm_pos ax).le)
          (fun ax => by have := (tableSize_le hc.plain.sane ax).1; exact_mod_cast this) sel) ax hax
        have t0 : (0 : ℝ) ≤ (r.zeroed sel).steps ax := by exact_mod_cast this.1
        exact ⟨div_nonneg t0 (hP ax).le, by rw [div_le_iff₀ (hP ax)]; exact this.2⟩)
    refine ⟨_, h1, ⟨fun ax => ?_, ?_, hm.loc, hm.conv, hm.mode, hm.vel⟩, rfl, [_], rfl, ?_⟩
    · dsimp only
      rw [get_addF, hm.pos, hw, add64 (hat ax).1 (hgb ax).1 ((hat ax).2.1.trans (by norm_num)) (hb5 ax), hsum]
    · obtain ⟨evs0, hev, hn⟩ := hm.motors
      refine ⟨_, .move h2 hev, fun ax => ?_⟩
      rw [netSteps_append (emits_announced h2 (List.prefix_refl _)), hn, h3, en]
      by_cases h : sel ax <;> simp [n, h, Ref.zeroed]
    · intro call h
      refine ⟨lg, _, v, _, List.mem_singleton.1 h, hS, by simpa only [en] using hz, hv, h4, fun ax => ?_⟩
      rw [en]
      by_cases hs : sel ax
      · obtain ⟨t1, t2⟩ := ho ax (hne hs)
        have t1 : (0 : ℝ) ≤ r.steps ax := by exact_mod_cast t1
        have e : reach c 0 ax = tableSize c ax := by
          cases ax <;> rfl
        simp only [n, if_pos hs]
        rw [e]
        push_cast
        rwa [abs_neg, abs_of_nonneg t1]
      · simp only [n, if_neg hs]
        have t1 : (0 : ℝ) ≤ (reach c 0 ax : ℝ) := by
          have := (tableSize_le hc.plain.sane ax).1
          cases ax <;> exact this
        have := mul_nonneg t1 (hP ax).le
        simpa using this
  · push Not at hz
    have h0 : Coord.isZero (roundToSteps c d) = true := (isZero64 _).2 fun ax => ext64 (by
      rw [hS.zero ax (by rw [en]; exact hz ax), val_zero])
    have e : r.zeroed sel = r := by
      have : (r.zeroed sel).steps = r.steps := by
        funext ax
        by_cases h : sel ax
        · have := hz ax
          simp only [n, if_pos h] at this
          simp only [Ref.zeroed, if_pos h]
          omega
        · simp only [Ref.zeroed, if_neg h]
      unfold Ref.zeroed at this ⊢
      dsimp only at this
      rw [this]
    refine ⟨s, moveLinear_zero h0, ?_, rfl, [], rfl, by simp⟩
    rw [e]
    exact hm

theorem zeroed_zeroed (r : Ref) (p q : Axis → Prop) :
    (r.zeroed p).zeroed q = r.zeroed fun ax => p ax ∨ q ax := by
  classical
  unfold Ref.zeroed
  congr 1
  funext ax
  by_cases h1 : p ax <;> by_cases h2 : q ax <;> simp [h1, h2]

/-- The axes that `safe_zero` is asked to move. -/
def Asked (x y z : Bool) : Axis → Prop
  | .x => x = true
  | .y => y = true
  | .z => z = true
  | .e => False

/-- `safe_zero` moves the axes to zero. -/
theorem safeZero64 (hc : FloatMachine c) (henv : ∀ tr, env.move tr = none) {s : MState F64}
    {r : Ref} (ho : StepsOnTable c r.steps) (hg : Grid r.extruded) (hx : |r.extruded| ≤ 3 * 10 ^ 4)
    (hm : Matches64 c s r) (x y z : Bool) :
    ∃ s', safeZero c env x y z s = (.ok (), s') ∧ Matches64 c s' (r.zeroed (Asked x y z)) ∧
      s' = { s with pos := s'.pos, trace := s'.trace } ∧
      ∃ calls, s'.trace = calls ++ s.trace ∧ ∀ call ∈ calls, HomeCall c call := by
  have one : ∀ ax, (1 : ℝ) ≤ (PyNum.ofRat (c.maxVel.get ax) : F64).1 := fun ax => by
    rw [val_ofRat]
    have h1 : (1 : ℝ) ≤ c.maxVel.get ax := by
      have : (60 : ℝ) ≤ c.maxVel.get ax := by exact_mod_cast hc.plain.sane.cfg.maxVel ax
      linarith
    have := fl_mono h1
    rwa [fl_one] at this
  -- the move of X and Y
  have first : ∃ s1, (do
      let s ← M.get
      if x && !y then
        moveLinear c env (Coord.new (PyNum.neg s.pos.x) zeroF zeroF zeroF) (PyNum.ofRat c.maxVel.x)
      else if y && !x then
        moveLinear c env (Coord.new zeroF (PyNum.neg s.pos.y) zeroF zeroF) (PyNum.ofRat c.maxVel.x)
      else if x && y then
        moveLinear c env (Coord.new (PyNum.neg s.pos.x) (PyNum.neg s.pos.y) zeroF zeroF)
          (pmin (PyNum.ofRat c.maxVel.x) (PyNum.ofRat c.maxVel.y)) : M F64 Unit) s = (.ok (), s1) ∧
      Matches64 c s1 (r.zeroed (Asked x y false)) ∧
      s1 = { s with pos := s1.pos, trace := s1.trace } ∧
      ∃ calls, s1.trace = calls ++ s.trace ∧ ∀ call ∈ calls, HomeCall c call := by
    rw [M.bind_get]
    rcases x with _ | _ <;> rcases y with _ | _
    · refine ⟨s, rfl, ?_, rfl, [], rfl, by simp⟩
      have : r.zeroed (Asked false false false) = r := by
        unfold Ref.zeroed
        cases r
        congr 1
        funext ax
        cases ax <;> simp [Asked]
      rw [this]; exact hm
    · exact zero_step64 hc henv ho hg hx hm (Asked false true false) (by simp [Asked])
        (fun ax h => by cases ax <;> first | rfl | simp [Asked] at h)
        (fun ax h => by cases ax <;> first | rfl | simp [Asked] at h) (one .x)
    · exact zero_step64 hc henv ho hg hx hm (Asked true false false) (by simp [Asked])
        (fun ax h => by cases ax <;> first | rfl | simp [Asked] at h)
        (fun ax h => by cases ax <;> first | rfl | simp [Asked] at h) (one .x)
    · refine zero_step64 hc henv ho hg hx hm (Asked true true false) (by simp [Asked])
        (fun ax h => by cases ax <;> first | rfl | simp [Asked] at h)
        (fun ax h => by cases ax <;> first | rfl | simp [Asked] at h) ?_
      unfold pmin
      split
      exacts [one .y, one .x]
  obtain ⟨s1, h1, h2, h3, calls, h4, h5⟩ := first
  have hrun : safeZero c env x y z s = (if z then do
      let s ← M.get
      moveLinear c env (Coord.new zeroF zeroF (PyNum.neg s.pos.z) zeroF) (PyNum.ofRat c.maxVel.z)
      else pure () : M F64 Unit) s1 := by
    refine Eq.trans ?_ (M.bind_ok (f := fun _ => (if z then do
      let s ← M.get
      moveLinear c env (Coord.new zeroF zeroF (PyNum.neg s.pos.z) zeroF) (PyNum.ofRat c.maxVel.z)
      else pure () : M F64 Unit)) h1)
    rcases x with _ | _ <;> rcases y with _ | _ <;> rcases z with _ | _ <;> rfl
  rw [hrun]
  rcases z with _ | _
  · exact ⟨s1, rfl, h2, h3, calls, h4, h5⟩
  · obtain ⟨s2, k1, k2, k3, calls', k4, k5⟩ := zero_step64 (c := c) (env := env) (s := s1)
      (r := r.zeroed (Asked x y false)) hc henv
      (zeroed_on ho (fun ax => (hc.plain.sane.cfg.ppm_pos ax).le)
        (fun ax => by have := (tableSize_le hc.plain.sane ax).1; exact_mod_cast this) _) hg hx h2
      (Asked false false true) (by simp [Asked])
      (d := Coord.new zeroF zeroF (PyNum.neg s1.pos.z) zeroF)
      (fun ax h => by cases ax <;> first | rfl | simp [Asked] at h)
      (fun ax h => by cases ax <;> first | rfl | simp [Asked] at h) (one .z)
    refine ⟨s2, k1, ?_, ?_, calls' ++ calls, by rw [k4, h4, List.append_assoc], fun call h => ?_⟩
    · rw [zeroed_zeroed] at k2
      have : (fun ax => Asked x y false ax ∨ Asked false false true ax) = Asked x y true := by
        funext ax
        cases ax <;> simp [Asked]
      rwa [this] at k2
    · rw [k3, h3]
    · rcases List.mem_append.1 h with h | h
      exacts [k5 call h, h5 call h]

/-- Homing. -/
theorem home64 (hc : FloatMachine c) (henv : ∀ tr, env.move tr = none) {s : MState F64} {r : Ref}
    (hm : Matches64 c s r) (ho : StepsOnTable c r.steps) (hx : ∃ k : ℤ, r.extruded = k / 10 ^ 10)
    (hx2 : |r.extruded| ≤ 3 * 10 ^ 4) {g : GCode} (hg : Is g 'G' "28") (hn : NumbersOk g)
    (hF : g.params.lookup 'F' = none) (hfeed : fl c.minVel ≤ s.vel.1) :
    ∃ s' moves x y z,
      doCommand c env (some g) s = (if env.calibrate s'.trace then .ok none
        else .error (.gmachine "failed to calibrate"), s') ∧
      Matches64 c s' (r.zeroed (Homes g)) ∧
      Calls s s' (.calibrate x y z :: .join :: moves) ∧
      (∀ call ∈ moves, HomeCall c call) ∧
      (x = true ↔ Homes g .x) ∧ (y = true ↔ Homes g .y) ∧ (z = true ↔ Homes g .z) ∧
      s' = { s with pos := s'.pos, trace := s'.trace } := by
  have hgr : Grid r.extruded := by
    obtain ⟨k, hk⟩ := hx
    exact ⟨k, by rw [hk, e10_val]⟩
  obtain ⟨x, y, z, s2, hrun, h1, h2, h3, -⟩ := home_run (c := c) (env := env) g s
  obtain ⟨s1, k1, k2, k3, calls, k4, k5⟩ := safeZero64 hc henv ho hgr hx2 hm x y z
  have hA : Asked x y z = Homes g := by
    funext ax
    cases ax
    · exact propext h1
    · exact propext h2
    · exact propext h3
    · exact propext ⟨fun h => h.elim, fun h => h.1 rfl⟩
  rw [hA] at k2
  have hvel : g.get 'F' s.vel (PyNum.ofRat 1) = .ok s.vel := by
    unfold GCode.get GCode.lookup
    rw [hF]
  have hl : lineCmd g = .g28 := is_lineCmd (cmd := .g28) ⟨_, by simp [Cmd.words]; rfl, hg⟩
  -- the state at the end
  let s3 : MState F64 := { s1 with trace := .calibrate x y z :: .join :: s1.trace }
  have hm3 : Matches64 c s3 (r.zeroed (Homes g)) := by
    refine ⟨k2.pos, ?_, k2.loc, k2.conv, k2.mode, k2.vel⟩
    obtain ⟨evs, e1, e2⟩ := k2.motors
    exact ⟨evs, .other (by simp) (.other (by simp) e1), e2⟩
  have hframe : s3 = { s with pos := s3.pos, trace := s3.trace } := by
    have : s3 = { s1 with trace := s3.trace } := rfl
    rw [this, k3]
  have hv3 : { s3 with vel := s.vel } = s3 := by
    rw [hframe]
  refine ⟨s3, calls, x, y, z, ?_, hm3, ?_, k5, h1, h2, h3, hframe⟩
  · rcases doCommand_cases (c := c) (env := env) g s with ⟨e, m1, m2 | m2 | m2⟩ |
      ⟨d, v, rad, -, m2, -, ⟨m3, -⟩ | ⟨-, m4⟩⟩
    · obtain ⟨_, k, t, m3, m4⟩ := readDelta_error m2
      exact absurd m4 (hn _ (mem_of_lookup m3))
    · rw [hvel] at m2; cases m2
    · obtain ⟨_, k, t, m3, m4⟩ := radius_error m2
      exact absurd m4 (hn _ (mem_of_lookup m3))
    · rw [hvel] at m2; cases m2
      rw [lt64_iff, val_ofRat] at m3
      linarith
    · rw [hvel] at m2; cases m2
      rw [hl] at m4
      simp only [execCmd] at m4
      rcases hrun with ⟨e, n1, -⟩ | ⟨n1, ⟨n2, n3⟩ | ⟨n2, n3⟩⟩
      · rw [k1] at n1; cases n1
      · rw [k1] at n1; cases n1
        rw [M.bind_error n3] at m4
        rcases m4 with ⟨a, s4, m4, -⟩ | ⟨e, s4, m4, m5⟩
        · cases m4
        · cases m4
          rw [m5]
          simp only [s3, n2]
          rfl
      · rw [k1] at n1; cases n1
        rw [M.bind_ok n3] at m4
        rcases m4 with ⟨a, s4, m4, m5⟩ | ⟨e, s4, m4, -⟩
        · cases m4
          rw [m5]
          change (Except.ok none, ({ s3 with vel := s.vel } : MState F64)) = _
          rw [hv3]
          simp only [s3, n2]
          rfl
        · cases m4
  · show s3.trace = _
    simp only [s3, k4]
    rfl

end PyCNC
