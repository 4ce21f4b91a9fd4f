import Verif.Spec.Interp
import Verif.Lemmas.Raises
import Verif.Lemmas.Drive

/-!
# The machine and the reference interpreter
-/

set_option linter.unusedSectionVars false

namespace PyCNC

open Spec

variable [PyRound] {c : Cfg} {env : Env ℝ}

theorem word_iff {g : GCode} {k : Char} {o : Option ℚ} (h : WordIs g k o) :
    (∀ q, HasNum g k q ↔ o = some q) ∧ (g.params.lookup k = none ↔ o = none) := by
  cases o with
  | none =>
    refine ⟨fun q => ⟨fun ⟨t, ht, _⟩ => ?_, fun h => by cases h⟩, ⟨fun _ => rfl, fun _ => h⟩⟩
    rw [WordIs, ht] at h; cases h
  | some q =>
    refine ⟨fun q' => ⟨fun h' => by rw [hasNum_unique h h'], fun h' => by cases h'; exact h⟩,
      ⟨fun hn => ?_, fun h' => by cases h'⟩⟩
    obtain ⟨t, ht, _⟩ := h
    rw [hn] at ht; cases ht

theorem round10_dec (x : ℝ) : PyNum.round10 x = dec x := by
  rw [round10_eq, dec, e10_val]

theorem dec_near (x : ℝ) : |dec x - x| ≤ 1 / 2 / 10 ^ 10 := by
  rw [← round10_dec]
  have := round10_near x
  rwa [e10_val] at this

/-- The displacement of a straight move, before it is made a decimal number. -/
theorem move_dec {s : MState ℝ} {r : Ref} (ht : Tidy s)
    (hm : Matches c s r) {g : GCode} {d : V4 ℝ} (hd : readDelta s g = .ok d) {w : Axis → Option ℚ}
    (hw : Words g w) (ax : Axis) :
    (roundToSteps c d).get ax = dec ((r.go c w ax : ℝ) / c.ppm.get ax) := by
  obtain ⟨w1, w2⟩ := word_iff (hw ax)
  unfold Ref.go
  rcases (readDelta_ok ht hd).2 ax with ⟨q, hq, h⟩ | ⟨hn, h⟩
  · have hq' := (w1 q).1 hq
    rw [get_roundToSteps, div_div_eq_mul_div, div_one, mul_one_div, round10_dec, h, round10_dec, hm.conv,
      hm.loc, hm.pos, hm.mode]
    unfold Ref.target
    rw [hq']
    simp only
    rw [add_sub_cancel_left]
    congr 4
    cases r.relative
    · simp only [Bool.not_false, if_true, Bool.false_eq_true, if_false]
      ring
    · simp only [Bool.not_true, if_true, Bool.false_eq_true, if_false, add_zero]
  · rw [roundToSteps_zero h]
    unfold Ref.target
    rw [w2.1 hn]
    simp [dec, rnd_zero]

/-- The displacement of a straight move, in steps. -/
theorem move_steps (hc : PlainMachine c) {s : MState ℝ} {r : Ref} (ht : Tidy s)
    (hm : Matches c s r) {g : GCode} {d : V4 ℝ} (hd : readDelta s g = .ok d) {w : Axis → Option ℚ}
    (hw : Words g w) (ax : Axis) (hax : ax ≠ .e) :
    (roundToSteps c d).get ax = (r.go c w ax : ℝ) / c.ppm.get ax := by
  rw [move_dec ht hm hd hw, ← round10_dec]
  exact round10_grid ((decimalStep_ppm (hc.step ax hax)).2 _)

/-- Ten decimals are enough to know the steps. -/
theorem dec_steps {P : ℝ} (h0 : 0 < P) (h1 : P ≤ 1000) (n : ℤ) : |dec (n / P) * P - n| < 1 / 2 := by
  have h := dec_near (n / P)
  have e : dec (n / P) * P - n = (dec (n / P) - n / P) * P := by field_simp
  rw [e, abs_mul, abs_of_pos h0]
  have h2 : |dec (n / P) - n / P| * P ≤ 1 / 2 / 10 ^ 10 * 1000 :=
    mul_le_mul h h1 h0.le (by norm_num)
  refine lt_of_le_of_lt h2 (by norm_num)

theorem dec_zero {P : ℝ} (h0 : 0 < P) (h1 : P ≤ 1000) {n : ℤ} (h : dec (n / P) = 0) : n = 0 := by
  have := dec_steps h0 h1 n
  rw [h, zero_mul, zero_sub, abs_neg] at this
  have h2 : (|n| : ℝ) < 1 := by linarith
  have : |n| < 1 := by exact_mod_cast h2
  exact Int.abs_lt_one_iff.1 this

theorem at_steps {r : Ref} {ax : Axis} (h : ax ≠ .e) : r.at c ax = r.steps ax / c.ppm.get ax := by
  cases ax
  exacts [rfl, rfl, rfl, absurd rfl h]

theorem move_on_table (hc : PlainMachine c) {s : MState ℝ} {r : Ref} (ht : Tidy s)
    (hm : Matches c s r) {g : GCode} {d : V4 ℝ} (hd : readDelta s g = .ok d) {w : Axis → Option ℚ}
    (hw : Words g w) :
    checkDelta c s.pos (roundToSteps c d) = .ok () ↔ StepsOnTable c (r.target c w) := by
  obtain ⟨⟨hx0, hx⟩, ⟨hy0, hy⟩, ⟨hz0, hz⟩⟩ := hc.sane.table
  rw [checkDelta_ok (decimalQ_grid hx) (decimalQ_grid hy) (decimalQ_grid hz) ⟨hx0, hy0, hz0⟩ ht.pos
    (gridV_roundToSteps _)]
  have key : ∀ ax, ax ≠ .e → (((0 : ℝ) ≤ s.pos.get ax + (roundToSteps c d).get ax ∧
      s.pos.get ax + (roundToSteps c d).get ax ≤ tableSize c ax) ↔
      (0 ≤ r.target c w ax ∧ (r.target c w ax : ℝ) ≤ tableSize c ax * c.ppm.get ax)) := by
    intro ax hax
    have hP : (0 : ℝ) < c.ppm.get ax := by exact_mod_cast hc.sane.cfg.ppm_pos ax
    rw [move_steps hc ht hm hd hw ax hax, hm.pos, at_steps hax, ← add_div]
    have e : (r.steps ax : ℝ) + (r.go c w ax : ℝ) = r.target c w ax := by
      unfold Ref.go
      push_cast; ring
    rw [e, div_le_iff₀ hP]
    refine and_congr_left fun _ => ⟨fun h => ?_, fun h => ?_⟩
    · have : (0 : ℝ) ≤ r.target c w ax := by
        have := mul_nonneg h hP.le
        rwa [div_mul_cancel₀ _ hP.ne'] at this
      exact_mod_cast this
    · have : (0 : ℝ) ≤ r.target c w ax := by exact_mod_cast h
      positivity
  have kx := key .x (by decide)
  have ky := key .y (by decide)
  have kz := key .z (by decide)
  simp only [V4.get, tableSize] at kx ky kz
  rw [kx, ky, kz]
  constructor
  · rintro ⟨h1, h2, h3⟩ ax hax
    cases ax
    exacts [h1, h2, h3, absurd rfl hax]
  · intro h
    exact ⟨h .x (by decide), h .y (by decide), h .z (by decide)⟩

/-- How far a move can go: over the table, and `m` millimetres of extrusion. -/
def reach (c : Cfg) (m : ℚ) : Axis → ℚ
  | .e => m
  | ax => tableSize c ax

/-- The trace has grown by nothing or by one straight move of ordinary size, which makes no more
steps than there are on the table, or in `m` millimetres of extrusion. -/
def Grown (c : Cfg) (m : ℚ) (tr tr' : List (HalCall ℝ)) : Prop :=
  tr' = tr ∨ ∃ lg d v, tr' = .move (.linear lg) :: tr ∧ OrdinaryMove d v ∧
    LinearGen.new c d v = .ok lg ∧
    ∀ ax, (lg.total.get ax : ℝ) ≤ reach c m ax * c.ppm.get ax

theorem matches_onTable (hc : PlainMachine c) {s : MState ℝ} {r : Ref} (hs : Reachable c env s)
    (hm : Matches c s r) : StepsOnTable c r.steps := by
  have hit := reachable_inTable hc.sane.table hs
  intro ax hax
  have hP : (0 : ℝ) < c.ppm.get ax := by exact_mod_cast hc.sane.cfg.ppm_pos ax
  have hb : (0 : ℝ) ≤ s.pos.get ax ∧ s.pos.get ax ≤ tableSize c ax := by
    cases ax
    exacts [hit.x, hit.y, hit.z, absurd rfl hax]
  rw [hm.pos, at_steps hax, div_le_iff₀ hP] at hb
  refine ⟨?_, hb.2⟩
  have := mul_nonneg hb.1 hP.le
  rw [div_mul_cancel₀ _ hP.ne'] at this
  exact_mod_cast this

/-- A straight move. -/
theorem linear_step (hc : PlainMachine c) (henv : ∀ tr, env.move tr = none) {s : MState ℝ} {r : Ref}
    (hs : Reachable c env s) (hm : Matches c s r) {g : GCode} {d : V4 ℝ}
    (hd : readDelta s g = .ok d) {w : Axis → Option ℚ} (hw : Words g w) {m : ℚ} (hm4 : m ≤ 9999)
    (he : (|r.go c w .e| : ℝ) ≤ m * c.ppm.e) {v : ℝ} (hv : 1 ≤ v) :
    (StepsOnTable c (r.target c w) → ∃ s', moveLinear c env d v s = (.ok (), s') ∧
      Matches c s' { r with
        steps := r.target c w
        extruded := r.extruded + dec (r.go c w .e / c.ppm.e) } ∧ Grown c m s.trace s'.trace) ∧
    (¬ StepsOnTable c (r.target c w) → ∃ e, Reported e ∧ moveLinear c env d v s = (.error e, s)) := by
  have ht := tidy_reachable hs
  have hit := reachable_inTable hc.sane.table hs
  have hck := move_on_table hc ht hm hd hw
  have hst := move_dec ht hm hd hw
  have hP : ∀ ax, (0 : ℝ) < c.ppm.get ax := fun ax => by exact_mod_cast hc.sane.cfg.ppm_pos ax
  have hP' : ∀ ax, (c.ppm.get ax : ℝ) ≤ 1000 := fun ax => by exact_mod_cast hc.sane.cfg.ppm_le ax
  have hE : |(roundToSteps c d).e| ≤ 10 ^ 4 := by
    have h0 := hst .e
    have hPe := hP .e
    simp only [V4.get] at h0 hPe
    rw [h0]
    have h1 := dec_near ((r.go c w .e : ℝ) / c.ppm.e)
    have h2 : |(r.go c w .e : ℝ) / c.ppm.e| ≤ m := by
      rw [abs_div, abs_of_pos hPe, div_le_iff₀ hPe]; exact he
    have h3 : (m : ℝ) ≤ 9999 := by exact_mod_cast hm4
    rw [abs_le] at h1 h2 ⊢
    have : (1 : ℝ) / 2 / 10 ^ 10 ≤ 1 := by norm_num
    constructor <;> linarith [h1.1, h1.2, h2.1, h2.2]
  rcases moveLinear_cases (c := c) (env := env) d v s with ⟨hz, h⟩ | ⟨hz, e, h, hr⟩ |
    ⟨hz, lg, h1, h2, _, ⟨e, h3, _⟩ | ⟨_, h⟩⟩
  · have hg0 : ∀ ax, r.go c w ax = 0 := by
      intro ax
      have h1 := hst ax
      rw [(isZero_iff _).1 hz ax] at h1
      exact dec_zero (hP ax) (hP' ax) h1.symm
    have ht0 : r.target c w = r.steps := by
      funext ax
      have := hg0 ax
      unfold Ref.go at this
      omega
    refine ⟨fun _ => ⟨s, h, ?_, .inl rfl⟩, fun hn => absurd ?_ hn⟩
    · have : dec ((r.go c w .e : ℝ) / c.ppm.e) = 0 := by rw [hg0]; simp [dec, rnd_zero]
      rw [ht0, this, add_zero]; exact hm
    · rw [ht0]; exact matches_onTable hc hs hm
  · refine ⟨fun ho => ?_, fun _ => ⟨e, ?_, h⟩⟩
    · have hk := hck.2 ho
      have hom := ordinary_of_check hc.sane hit hz hk hE hv
      obtain ⟨g', _, _, h1, _⟩ := linear_new hc.sane.cfg hom
      rcases hr with hr | hr | ⟨g, hg, hr⟩
      · rw [hk] at hr; cases hr
      · rw [h1] at hr; cases hr
      · rw [checkVelocity_of_le hc.limits (linear_limit hc.sane.cfg hc.limits hc.auto hom hg)] at hr
        cases hr
    · exact (moveLinear_raises hc.sane henv hE hv s hit).2 _ _ h
  · rw [henv] at h3; cases h3
  · refine ⟨fun ho => ⟨_, h, ?_⟩, fun hn => absurd (hck.1 h1) hn⟩
    have hom := ordinary_of_check hc.sane hit hz h1 hE hv
    have hlf := linear_facts hc.sane.cfg hom h2
    obtain ⟨p, hp, _⟩ := good_emits hlf.good
    have hnear : ∀ ax, |(roundToSteps c d).get ax * c.ppm.get ax - (r.go c w ax : ℝ)| < 1 / 2 := by
      intro ax
      rw [hst]
      exact dec_steps (hP ax) (hP' ax) _
    refine ⟨⟨fun ax => ?_, ?_, hm.loc, hm.conv, hm.mode, hm.vel⟩,
      .inr ⟨lg, _, v, rfl, hom, h2, fun ax => ?_⟩⟩
    rotate_right
    · have e : lg.total.get ax = |r.go c w ax| := by
        rw [hlf.total]
        refine rnd_unique ?_
        have h3 := hnear ax
        have h4 : |(roundToSteps c d).get ax| * c.ppm.get ax =
            |(roundToSteps c d).get ax * c.ppm.get ax| := by
          rw [abs_mul, abs_of_pos (hP ax)]
        rw [h4, Int.cast_abs]
        exact lt_of_le_of_lt (abs_abs_sub_abs_le_abs_sub _ _) h3
      rw [e, Int.cast_abs]
      by_cases hax : ax = .e
      · subst hax
        exact he
      · have b1 := ho ax hax
        have b2 := matches_onTable hc hs hm ax hax
        have b3 : (0 : ℝ) ≤ r.target c w ax := by exact_mod_cast b1.1
        have b4 : (0 : ℝ) ≤ r.steps ax := by exact_mod_cast b2.1
        have b5 : reach c m ax = tableSize c ax := by
          cases ax
          exacts [rfl, rfl, rfl, absurd rfl hax]
        unfold Ref.go
        rw [b5]
        push_cast
        rw [abs_le]
        constructor <;> linarith [b1.2, b2.2]
    · dsimp only
      rw [get_add_grid ht.pos (gridV_roundToSteps _), hm.pos]
      by_cases hax : ax = .e
      · subst hax
        rw [hst]
        rfl
      · rw [move_steps hc ht hm hd hw ax hax, at_steps hax, at_steps hax, ← add_div]
        unfold Ref.go
        push_cast
        congr 1; ring
    · obtain ⟨evs, hev, hn⟩ := hm.motors
      refine ⟨_, .move hp hev, fun ax => ?_⟩
      rw [netSteps_append (emits_announced hp (List.prefix_refl _)), hn]
      have := (linear_train (gridV_roundToSteps _) h2 hp (hc.sane.cfg.ppm_pos ax) (hnear ax)).1
      rw [this]
      unfold Ref.go
      dsimp only
      ring

/-- The feed of a line. -/
noncomputable def lineFeed (r : Ref) (l : Line) : ℝ :=
  match l.feed with
  | none => r.feed
  | some q => (q : ℝ)

theorem step_eq (r : Ref) (l : Line) : r.step c l =
    open Classical in if lineFeed r l < c.minVel then none
      else (r.exec c l.stmt).map fun r' => { r' with feed := lineFeed r l } := rfl

theorem feed_ok {s : MState ℝ} {r : Ref} (hm : Matches c s r) {g : GCode} {l : Line}
    (hf : WordIs g 'F' l.feed) : g.get 'F' s.vel (PyNum.ofRat 1) = .ok (lineFeed r l) := by
  unfold lineFeed
  rw [ofRat_eq, Rat.cast_one, ← hm.vel]
  generalize l.feed = o at hf
  rw [get_wordIs hf s.vel]
  cases o <;> rfl

/-- What a line does, feed aside. -/
theorem exec_matches (hc : PlainMachine c) (henv : ∀ tr, env.move tr = none) {s : MState ℝ}
    {r : Ref} (hs : Reachable c env s) (hm : Matches c s r) {g : GCode} {l : Line} (hg : Says g l)
    {m : ℚ} (hm4 : m ≤ 9999) (he : ∀ w, l.stmt = .move w → (|r.go c w .e| : ℝ) ≤ m * c.ppm.e)
    {d rad : V4 ℝ} (hd : readDelta s g = .ok d) {v : ℝ} (hv : 1 ≤ v) :
    (∀ r', r.exec c l.stmt = some r' → ∃ a s', execCmd c env (lineCmd g) g d rad v s = (.ok a, s') ∧
      Matches c s' r' ∧ Grown c m s.trace s'.trace) ∧
    (r.exec c l.stmt = none →
      ∃ e, Reported e ∧ execCmd c env (lineCmd g) g d rad v s = (.error e, s)) := by
  have ht := tidy_reachable hs
  obtain ⟨hn, hf, hg⟩ := hg
  cases hl : l.stmt <;> rw [hl] at hg <;> simp only at hg
  case move w =>
    obtain ⟨hlin, hw⟩ := hg
    have key : ∀ {v' : ℝ}, 1 ≤ v' → ∀ {act : M ℝ (Option (Answer ℝ))},
        (∀ a s', moveLinear c env d v' s = (.ok a, s') → act s = (.ok none, s')) →
        (∀ e s', moveLinear c env d v' s = (.error e, s') → act s = (.error e, s')) →
        (∀ r', r.exec c (.move w) = some r' → ∃ a s', act s = (.ok a, s') ∧ Matches c s' r' ∧
          Grown c m s.trace s'.trace) ∧
        (r.exec c (.move w) = none → ∃ e, Reported e ∧ act s = (.error e, s)) := by
      intro v' hv' act h1 h2
      obtain ⟨k1, k2⟩ := linear_step hc henv hs hm hd hw hm4 (he w hl) hv'
      unfold Ref.exec
      by_cases ho : StepsOnTable c (r.target c w)
      · simp only [if_pos ho]
        obtain ⟨s', h3, h4⟩ := k1 ho
        refine ⟨fun r' hr' => ?_, fun h => by cases h⟩
        cases hr'
        exact ⟨none, s', h1 _ _ h3, h4⟩
      · simp only [if_neg ho]
        obtain ⟨e, h3, h4⟩ := k2 ho
        exact ⟨fun r' hr' => by simp at hr', fun _ => ⟨e, h3, h2 _ _ h4⟩⟩
    rcases hlin with hlin | hlin
    · rw [is_lineCmd (cmd := .g0) ⟨_, by simp [Cmd.words]; rfl, hlin⟩]
      obtain ⟨w', hw', hw60⟩ := rapidVelocity_ok hc.sane.cfg (readDelta_ok ht hd).1
      refine key (v' := w') (by linarith) (fun a s' h => ?_) fun e s' h => ?_
      · simp only [execCmd, hw', M.bind_lift_ok]
        exact M.bind_ok h
      · simp only [execCmd, hw', M.bind_lift_ok]
        exact M.bind_error h
    · rw [lineCmd_g1.2 hlin]
      exact key hv (fun a s' h => M.bind_ok h) fun e s' h => M.bind_error h
  case absolute =>
    rw [is_lineCmd (cmd := .g90) ⟨_, by simp [Cmd.words]; rfl, hg⟩]
    refine ⟨fun r' hr' => ?_, fun h => by cases h⟩
    cases hr'
    exact ⟨none, _, rfl, ⟨hm.pos, hm.motors, hm.loc, hm.conv, rfl, hm.vel⟩, .inl rfl⟩
  case relative =>
    rw [is_lineCmd (cmd := .g91) ⟨_, by simp [Cmd.words]; rfl, hg⟩]
    refine ⟨fun r' hr' => ?_, fun h => by cases h⟩
    cases hr'
    exact ⟨none, _, rfl, ⟨hm.pos, hm.motors, hm.loc, hm.conv, rfl, hm.vel⟩, .inl rfl⟩
  case inch =>
    rw [is_lineCmd (cmd := .g20) ⟨_, by simp [Cmd.words]; rfl, hg⟩]
    refine ⟨fun r' hr' => ?_, fun h => by cases h⟩
    cases hr'
    refine ⟨none, _, rfl, ⟨hm.pos, hm.motors, hm.loc, ?_, hm.mode, hm.vel⟩, .inl rfl⟩
    simp only [ofRat_eq]; norm_num
  case mm =>
    rw [is_lineCmd (cmd := .g21) ⟨_, by simp [Cmd.words]; rfl, hg⟩]
    refine ⟨fun r' hr' => ?_, fun h => by cases h⟩
    cases hr'
    refine ⟨none, _, rfl, ⟨hm.pos, hm.motors, hm.loc, ?_, hm.mode, hm.vel⟩, .inl rfl⟩
    simp only [ofRat_eq]; norm_num
  case machineOrigin =>
    rw [is_lineCmd (cmd := .g53) ⟨_, by simp [Cmd.words]; rfl, hg⟩]
    refine ⟨fun r' hr' => ?_, fun h => by cases h⟩
    cases hr'
    exact ⟨none, _, rfl, ⟨hm.pos, hm.motors, fun ax => get_zero ax, hm.conv, hm.mode, hm.vel⟩,
      .inl rfl⟩
  case other =>
    have key : ∃ s', execCmd c env (lineCmd g) g d rad v s = (.ok none, s') ∧ Matches c s' r ∧
        Grown c m s.trace s'.trace := by
      rcases hg with ⟨p, hp, hi⟩ | hg
      · simp only [List.mem_cons, List.not_mem_nil, or_false] at hp
        rcases hp with rfl | rfl | rfl
        · rw [is_lineCmd (cmd := .g17) ⟨_, by simp [Cmd.words], hi⟩]
          exact ⟨_, rfl, ⟨hm.pos, hm.motors, hm.loc, hm.conv, hm.mode, hm.vel⟩, .inl rfl⟩
        · rw [is_lineCmd (cmd := .g18) ⟨_, by simp [Cmd.words], hi⟩]
          exact ⟨_, rfl, ⟨hm.pos, hm.motors, hm.loc, hm.conv, hm.mode, hm.vel⟩, .inl rfl⟩
        · rw [is_lineCmd (cmd := .g19) ⟨_, by simp [Cmd.words], hi⟩]
          exact ⟨_, rfl, ⟨hm.pos, hm.motors, hm.loc, hm.conv, hm.mode, hm.vel⟩, .inl rfl⟩
      · rw [lineCmd_nothing.2 hg]
        exact ⟨_, rfl, hm, .inl rfl⟩
    refine ⟨fun r' hr' => ?_, fun h => by cases h⟩
    cases hr'
    obtain ⟨s', h1, h2⟩ := key
    exact ⟨none, s', h1, h2⟩
  case origin w =>
    obtain ⟨hi, hw⟩ := hg
    rw [is_lineCmd (cmd := .g92) ⟨_, by simp [Cmd.words]; rfl, hi⟩]
    refine ⟨fun r' hr' => ?_, fun h => by cases h⟩
    cases hr'
    have hco : g.hasCoordinates = true ↔ ¬ ∀ ax, w ax = none := by
      rw [hasCoordinates_iff]
      constructor
      · rintro ⟨k, hk, h⟩ hall
        simp only [List.mem_cons, List.not_mem_nil, or_false] at hk
        have := fun ax => (word_iff (hw ax)).2.2 (hall ax)
        rcases hk with rfl | rfl | rfl | rfl
        exacts [h (this .x), h (this .y), h (this .z), h (this .e)]
      · intro h
        push Not at h
        obtain ⟨ax, hax⟩ := h
        exact ⟨axisWord ax, by cases ax <;> simp [axisWord], fun h => hax ((word_iff (hw ax)).2.1 h)⟩
    suffices h : ∃ loc, execCmd c env .g92 g d rad v s = (.ok none, { s with loc := loc }) ∧
        ∀ ax, loc.get ax = r.newOrigin c w ax by
      obtain ⟨loc, h1, h2⟩ := h
      exact ⟨none, _, h1, ⟨hm.pos, hm.motors, h2, hm.conv, hm.mode, hm.vel⟩, .inl rfl⟩
    by_cases hall : ∀ ax, w ax = none
    · refine ⟨s.pos, ?_, fun ax => ?_⟩
      · have hcf : g.hasCoordinates = false := by
          rw [← Bool.not_eq_true, hco]
          exact not_not.2 hall
        have h1 : setLocal g s = (.ok (), { s with loc := s.pos }) := by
          unfold setLocal
          rw [M.bind_get]
          simp only [hcf]
          rfl
        exact M.bind_ok h1
      · unfold Ref.newOrigin
        rw [hall ax]
        simp only [if_pos hall]
        exact hm.pos ax
    · have hcf := hco.2 hall
      have hk : ∃ k, g.coordinates (Coord.new (s.pos.x -ₚ s.loc.x) (s.pos.y -ₚ s.loc.y)
          (s.pos.z -ₚ s.loc.z) (s.pos.e -ₚ s.loc.e)) s.conv = .ok k := by
        rcases h : g.coordinates (Coord.new (s.pos.x -ₚ s.loc.x) (s.pos.y -ₚ s.loc.y)
          (s.pos.z -ₚ s.loc.z) (s.pos.e -ₚ s.loc.e)) s.conv with e | k
        · obtain ⟨_, k, t, h1, h2⟩ := coordinates_error h
          exact absurd h2 (hn _ (mem_of_lookup h1))
        · exact ⟨k, rfl⟩
      obtain ⟨k, hk⟩ := hk
      refine ⟨Coord.sub s.pos k, ?_, fun ax => ?_⟩
      · have h1 : setLocal g s = (.ok (), { s with loc := Coord.sub s.pos k }) := by
          unfold setLocal
          rw [M.bind_get]
          simp only [hcf, if_true, hk]
          rfl
        exact M.bind_ok h1
      · have hkg : GridV k := by
          intro ax
          rcases coordinates_ok hk ax with ⟨q, _, h⟩ | ⟨_, h⟩ <;> rw [h] <;> exact grid_round10 _
        rw [get_sub_grid ht.pos hkg]
        unfold Ref.newOrigin
        obtain ⟨w1, w2⟩ := word_iff (hw ax)
        rcases coordinates_ok hk ax with ⟨q, hq, h⟩ | ⟨h0, h⟩
        · have hq' := (w1 q).1 hq
          rw [hq', h, round10_dec, hm.pos, hm.conv]
        · rw [w2.1 h0, h]
          simp only [if_neg hall]
          have e1 : (⟨s.pos.x - s.loc.x, s.pos.y - s.loc.y, s.pos.z - s.loc.z, s.pos.e - s.loc.e⟩ :
            V4 ℝ).get ax = s.pos.get ax - s.loc.get ax := by cases ax <;> rfl
          have h2 := get_new (s.pos.x - s.loc.x) (s.pos.y - s.loc.y) (s.pos.z - s.loc.z)
            (s.pos.e - s.loc.e) ax
          simp only [sub_eq]
          rw [h2, e1, round10_grid (grid_round10 _), round10_grid ((ht.pos ax).sub (ht.loc ax)), hm.loc]
          ring

/-- One line. -/
theorem line_matches (hc : PlainMachine c) (henv : ∀ tr, env.move tr = none) {s : MState ℝ}
    {r : Ref} (hs : Reachable c env s) (hm : Matches c s r) {g : GCode} {l : Line} (hg : Says g l)
    {m : ℚ} (hm4 : m ≤ 9999) (he : ∀ w, l.stmt = .move w → (|r.go c w .e| : ℝ) ≤ m * c.ppm.e) :
    (∀ r', r.step c l = some r' → ∃ a s', doCommand c env (some g) s = (.ok a, s') ∧
      Matches c s' r' ∧ Grown c m s.trace s'.trace) ∧
    (r.step c l = none → ∃ e, Reported e ∧ doCommand c env (some g) s = (.error e, s)) := by
  have hfv := feed_ok hm hg.2.1
  have hn := hg.1
  rw [step_eq]
  rcases doCommand_cases (c := c) (env := env) g s with ⟨e', h1, h2⟩ | ⟨d, v, rad, hd, hv, _, hx⟩
  · exfalso
    rcases h2 with h2 | h2 | h2
    · obtain ⟨_, k, t, h3, h4⟩ := readDelta_error h2
      exact absurd h4 (hn _ (mem_of_lookup h3))
    · rw [hfv] at h2; cases h2
    · obtain ⟨_, k, t, h3, h4⟩ := radius_error h2
      exact absurd h4 (hn _ (mem_of_lookup h3))
  rw [hfv] at hv
  cases hv
  rcases hx with ⟨hlt, h⟩ | ⟨hmin, hx⟩
  · rw [lt_iff, ofRat_eq] at hlt
    rw [if_pos hlt]
    exact ⟨fun r' h' => by simp at h', fun _ => ⟨.gmachine "feed speed too low", trivial, h⟩⟩
  · rw [lt_false_iff, ofRat_eq] at hmin
    rw [if_neg (not_lt.2 hmin)]
    have hv1 : (1 : ℝ) ≤ lineFeed r l := by
      have : (1 : ℝ) ≤ c.minVel := by exact_mod_cast hc.sane.minVel
      linarith
    obtain ⟨k1, k2⟩ := exec_matches hc henv hs hm hg hm4 he hd (rad := rad) hv1
    cases hex : r.exec c l.stmt with
    | none =>
      obtain ⟨e, h3, h4⟩ := k2 hex
      refine ⟨fun r' h' => by simp at h', fun _ => ⟨e, h3, ?_⟩⟩
      rcases hx with ⟨a, s', h5, h6⟩ | ⟨e', s', h5, h6⟩
      · rw [h4] at h5; cases h5
      · rw [h4] at h5; cases h5; exact h6
    | some r1 =>
      obtain ⟨a, s1, h3, h4⟩ := k1 r1 hex
      refine ⟨fun r' h' => ?_, fun h => by cases h⟩
      cases h'
      rcases hx with ⟨a', s', h5, h6⟩ | ⟨e', s', h5, h6⟩
      · rw [h3] at h5; cases h5
        exact ⟨a, _, h6, ⟨h4.1.pos, h4.1.motors, h4.1.loc, h4.1.conv, h4.1.mode, rfl⟩, h4.2⟩
      · rw [h3] at h5; cases h5

theorem matches_init : Matches c (MState.init c) (Ref.init c) := by
  have hz : ∀ ax, (Coord.zero : V4 ℝ).get ax = 0 := get_zero
  refine ⟨fun ax => ?_, ⟨[], .other (fun g h => by cases h) (.other (fun g h => by cases h) .nil),
    fun ax => rfl⟩, fun ax => hz ax, ?_, rfl, ?_⟩
  · change (Coord.zero : V4 ℝ).get ax = _
    rw [hz]; cases ax <;> simp [Ref.init, Ref.at]
  · change (PyNum.ofRat 1 : ℝ) = 1
    simp
  · simp only [MState.init, minMaxVel, Ref.init, pmin_eq, ofRat_eq, min_assoc]

/-- A program. -/
theorem program_matches [PyText] (hc : PlainMachine c) (henv : ∀ tr, env.move tr = none)
    (prog : List (List Char × Line))
    (hp : ∀ p ∈ prog, ∃ g, parseLine p.1 = .ok (some g) ∧ Says g p.2)
    {m : ℚ} (hm4 : m ≤ 9999)
    {Q : List (HalCall ℝ) → Prop} (hQ : ∀ tr tr', Q tr → Grown c m tr tr' → Q tr') :
    ∀ {s : MState ℝ} {r : Ref}, Reachable c env s → Matches c s r → Extrudes c m r (prog.map (·.2)) →
      Q s.trace →
      ∃ s', machineRun c env s (prog.map (·.1)) = some ((r.run c (prog.map (·.2))).1, s') ∧
        Reachable c env s' ∧ Matches c s' (r.run c (prog.map (·.2))).2 ∧ Q s'.trace := by
  induction prog with
  | nil => exact fun hs hm _ hq => ⟨_, rfl, hs, hm, hq⟩
  | cons p ps ih =>
    intro s r hs hm hx hq
    obtain ⟨hx1, hx2⟩ := hx
    obtain ⟨g, hpar, hg⟩ := hp p (by simp)
    obtain ⟨k1, k2⟩ := line_matches hc henv hs hm hg hm4 hx1
    have ih' := @ih (fun q hq => hp q (by simp [hq]))
    have hstep := Reachable.step (.cmd (some g)) hs
    simp only [List.map_cons, machineRun, Ref.run]
    cases hr : r.step c p.2 with
    | none =>
      obtain ⟨e, he, h⟩ := k2 hr
      have hl : doLine c env p.1 s = (.ok (.error e), s) := by
        unfold doLine
        rw [hpar]
        simp only [h]
        unfold Reported at he
        unfold catchLine
        split at he <;> simp_all
      simp only [hl]
      obtain ⟨s', h1, h2⟩ := ih' hs hm (by rw [hr] at hx2; exact hx2) hq
      exact ⟨s', by rw [h1]; rfl, h2⟩
    | some r' =>
      obtain ⟨a, s1, h, h', h''⟩ := k1 r' hr
      have hl : doLine c env p.1 s = (.ok (.ok a), s1) := by
        unfold doLine
        rw [hpar]
        simp only [h]
      simp only [hl]
      have : Reachable c env s1 := by
        have e : (Op.exec c env (.cmd (some g)) s).2 = s1 := by simp [Op.exec, h]
        exact e ▸ hstep
      obtain ⟨s', h1, h2⟩ := ih' this h' (by rw [hr] at hx2; exact hx2) (hQ _ _ hq h'')
      exact ⟨s', by rw [h1]; rfl, h2⟩

end PyCNC
