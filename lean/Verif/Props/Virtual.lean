import Verif.Lemmas.HalVirtual
import Verif.Props.Linear
import Verif.Props.Arc
import Verif.Lemmas.ArcMachine

/-!
# Property C64: the self-test of the virtual machine

`move` of `hal_virtual.py` checks every pulse train with assertions.  `C64_sound` says
what a pulse train that passes satisfies, in any arithmetic; `C64_linear_partial` that straight moves
pass, in exact arithmetic.
-/

set_option linter.unusedSectionVars false

namespace PyCNC.Props

open PyCNC Spec

/-- **C64**, what passes: the generator came to its end without exception, the first event
announces the directions, every axis was sent the net number of steps that rounds to its
distance, its pulses are in different microseconds in increasing order, all pulses of one event
are in the same microsecond, no pulse is later than `total_time_s()`, and a straight move
announces the direction of its distance. -/
theorem C64_sound {F : Type} [PyNum F] [PyOrd F] {c : Cfg} {g : Gen F} {n : Nat}
    (h : HalVirtual.move c g n = some (.ok ())) :
    ∃ evs, g.run c n .init = (evs, .done) ∧ (∃ d r, evs = .dir d :: r) ∧
      (∀ ax, (PyNum.round10 (ofInt (netSteps c ax evs) /ₚ PyNum.ofRat (c.ppm.get ax)) =ₚ
        g.delta.get ax) = true) ∧
      (∀ ax, ((stepTimes ax evs).map fun τ => PyNum.roundI (τ *ₚ PyNum.ofRat 1000000)).Pairwise
        (· < ·)) ∧
      (∀ t, .pulse t ∈ evs → ∀ ax ax' τ τ', t.get ax = some τ → t.get ax' = some τ' →
        PyNum.roundI (τ *ₚ PyNum.ofRat 1000000) = PyNum.roundI (τ' *ₚ PyNum.ofRat 1000000)) ∧
      (∀ ax, ∀ τ ∈ stepTimes ax evs, (τ ≤ₚ g.totalTime) = true) ∧
      ((∃ l, g = .linear l) → ∀ d, .dir d ∈ evs → ∀ ax,
        let dir := if c.inverted.get ax then - d.get ax else d.get ax
        ((g.delta.get ax <ₚ PyNum.ofRat 0) = true → dir < 0) ∧
        ((PyNum.ofRat 0 <ₚ g.delta.get ax) = true → 0 < dir)) := by
  unfold HalVirtual.move at h
  simp only at h
  rcases hr : g.run c n .init with ⟨evs, e⟩
  rw [hr] at h
  simp only at h
  rcases hl : HalVirtual.loop c (HalVirtual.isLinear g) g.delta evs .init with err | s
  · rw [hl] at h; cases h
  rw [hl] at h
  rcases e with _ | err | _
  · simp only [Option.some.injEq] at h
    rw [HalVirtual.finish_iff] at h
    obtain ⟨_, h2, h3⟩ := h
    obtain ⟨d, r, hd⟩ := HalVirtual.run_first c g n hr
    refine ⟨evs, rfl, ⟨d, r, hd⟩, fun ax => ?_, fun ax => (HalVirtual.loop_stamps hl ax).1,
      fun t ht ax ax' τ τ' => HalVirtual.loop_same hl ht, fun ax τ hτ => ?_, ?_⟩
    · have h4 := HalVirtual.loop_count hl ax
      have h5 := h2 ax
      unfold HalVirtual.countFits at h5
      have h6 : ∀ d₀, netFrom c ax d₀ evs = netSteps c ax evs := fun d₀ => by
        rw [hd]; rfl
      have h7 : ((HalVirtual.St.init : HalVirtual.St F).tr.get ax).i = 0 := by cases ax <;> rfl
      rw [h7, zero_add, h6] at h4
      rw [h4] at h5
      exact h5
    · have h4 := (HalVirtual.loop_top hl ax).2 τ (List.mem_cons_of_mem _ hτ)
      rw [PyOrd.le_val] at h3 ⊢
      refine h4.trans (le_trans ?_ h3)
      have hm : ∀ a b : F, PyOrd.val a ≤ PyOrd.val (pmax a b) ∧ PyOrd.val b ≤ PyOrd.val (pmax a b) := by
        intro a b
        unfold pmax
        by_cases hab : (a <ₚ b) = true
        · rw [if_pos hab]
          exact ⟨((PyOrd.lt_val a b).1 hab).le, le_rfl⟩
        · rw [if_neg hab]
          have := mt (PyOrd.lt_val a b).2 hab
          push Not at this
          exact ⟨le_rfl, this⟩
      obtain ⟨a1, b1⟩ := hm s.tr.x.top s.tr.y.top
      obtain ⟨a2, b2⟩ := hm (pmax s.tr.x.top s.tr.y.top) s.tr.z.top
      obtain ⟨a3, b3⟩ := hm (pmax (pmax s.tr.x.top s.tr.y.top) s.tr.z.top) s.tr.e.top
      cases ax
      · exact a1.trans (a2.trans a3)
      · exact b1.trans (a2.trans a3)
      · exact b2.trans a3
      · exact b3
    · rintro ⟨l, rfl⟩ d hd ax
      have h4 := HalVirtual.loop_dirs hl hd ax
      unfold HalVirtual.dirFits at h4
      simp only [Bool.or_eq_true, Bool.and_eq_true, decide_eq_true_eq, PyOrd.lt_val,
        PyOrd.eq_val] at h4
      simp only [PyOrd.lt_val]
      refine ⟨fun h5 => ?_, fun h5 => ?_⟩
      · rcases h4 with (⟨h4, _⟩ | ⟨_, h4⟩) | h4
        · exact h4
        · exact absurd h4 (not_lt.2 h5.le)
        · exact absurd h4 h5.ne
      · rcases h4 with (⟨_, h4⟩ | ⟨h4, _⟩) | h4
        · exact absurd h4 (not_lt.2 h5.le)
        · exact h4
        · exact absurd h4 h5.ne'
  · cases h
  · cases h

variable [PyRound]

/-- **C64**, straight moves: with automatic velocity adjustment and no axis allowed to step a
million times per second, no assertion of the virtual machine fails for a straight move of the
machine.  Missing: arcs (`C64_circular_refuted`). -/
theorem C64_linear_partial {c : Cfg} {delta : V4 ℝ} {v : ℝ} (hc : SaneCfg c) (hd : DecimalLimits c)
    (ha : c.autoVel = true) (hslow : ∀ ax, c.ppm.get ax * (c.maxVel.get ax / 60) < 10 ^ 6)
    (hm : OrdinaryMove (roundToSteps c delta) v) :
    ∃ g, LinearGen.new c (roundToSteps c delta) v = .ok g ∧
      ∃ N, ∀ n, N ≤ n → HalVirtual.move c (.linear g) n = some (.ok ()) := by
  obtain ⟨g, evs, hg, he, ⟨d, r, rfl, hr⟩, hst, hnet⟩ := C28_linear_pulses hc hm
  refine ⟨g, hg, ?_⟩
  obtain ⟨hat, _, hinc, hend⟩ := C29_ordered hc hm hg he
  have hrate := C30_step_rate hc hd ha hm hg he
  obtain ⟨N, hN⟩ := he
  refine ⟨N, fun n hn => ?_⟩
  have hdelta : (Gen.linear g).delta = roundToSteps c delta := by
    obtain ⟨g', _, _, h1, _, h2, _⟩ := linear_new hc hm
    rw [hg] at h1
    cases h1
    exact h2
  -- directions
  have hdir : d = invertDirs c g.dir := by
    have h1 := hN (N + 1) (by omega)
    rcases linear_run_shape c g N with ⟨e, h2⟩ | ⟨r', h2, _, _⟩
    · rw [h1] at h2; cases h2
    · rw [h1] at h2
      cases h2
      rfl
  have hgd : ∀ ax, g.dir.get ax = if (roundToSteps c delta).get ax < 0 then -1 else 1 := by
    obtain ⟨g', _, _, h1, _, _, _, h2, _⟩ := linear_new hc hm
    rw [hg] at h1
    cases h1
    exact h2
  have hb : HalVirtual.body c true (roundToSteps c delta) (.dir d) .init =
      .ok (HalVirtual.St.next c (.dir d) .init) := by
    refine HalVirtual.body_dir fun _ ax => ?_
    have h1 : (if c.inverted.get ax then - d.get ax else d.get ax) = g.dir.get ax := by
      rw [hdir, get_invertDirs]
      split <;> simp
    rw [h1, hgd]
    generalize (roundToSteps c delta).get ax = y
    unfold HalVirtual.dirFits
    simp only [Bool.or_eq_true, Bool.and_eq_true, decide_eq_true_eq, lt_iff, eq_iff, ofRat_eq,
      Rat.cast_zero]
    rcases lt_trichotomy y 0 with h | h | h
    · exact .inl (.inl ⟨by rw [if_pos h]; norm_num, h⟩)
    · exact .inr h
    · exact .inl (.inr ⟨by rw [if_neg (not_lt.2 h.le)]; norm_num, h⟩)
  -- stamps
  have hstamps : ∀ ax, ((stepTimes ax r).map HalVirtual.stamp).Pairwise (· < ·) := by
    intro ax
    have e : stepTimes ax (Event.dir d :: r) = stepTimes ax r := rfl
    have h1 := hinc ax
    have h2 := hrate ax
    rw [e] at h1
    simp only [e] at h2
    have hP : (0 : ℝ) < c.ppm.get ax := by exact_mod_cast hc.ppm_pos ax
    have hV : (1 : ℝ) ≤ (c.maxVel.get ax : ℝ) / 60 := limit_ge hc ax
    have hS : (c.ppm.get ax : ℝ) * ((c.maxVel.get ax : ℝ) / 60) < 10 ^ 6 := by
      exact_mod_cast hslow ax
    have hgap : 1 / 10 ^ 6 < 1 / ((c.ppm.get ax : ℝ) * ((c.maxVel.get ax : ℝ) / 60)) :=
      one_div_lt_one_div_of_lt (by positivity) hS
    rw [List.pairwise_map, List.pairwise_iff_getElem]
    intro i j hi hj hij
    rw [List.pairwise_iff_getElem] at h1
    have h3 := h2 i _ _ (List.getElem?_eq_getElem hi) (List.getElem?_eq_getElem (by omega))
    have h4 : (stepTimes ax r)[i + 1] ≤ (stepTimes ax r)[j] := by
      rcases (show i + 1 ≤ j from hij).eq_or_lt with h | h
      · subst h; exact le_rfl
      · exact (h1 (i + 1) j _ hj h).le
    unfold HalVirtual.stamp
    generalize (stepTimes ax r)[i] = a at *
    generalize (stepTimes ax r)[j] = b at *
    generalize (stepTimes ax r)[i + 1] = a' at *
    simp only [roundI_eq, mul_eq, ofRat_eq]
    have h5 := rnd_le (a * ((1000000 : ℚ) : ℝ))
    have h6 := le_rnd (b * ((1000000 : ℚ) : ℝ))
    push_cast at h5 h6 ⊢
    have h7 : a * 1000000 + 1 < b * 1000000 := by
      have : 1 / 10 ^ 6 < b - a := by linarith
      norm_num at this
      linarith
    have h8 : (PyRound.rnd (a * 1000000) : ℝ) < PyRound.rnd (b * 1000000) := by linarith
    exact_mod_cast h8
  have hpulse : ∀ ev ∈ r, ∃ τ, StepsAt τ ev := fun ev hev =>
    hat ev (List.mem_cons_of_mem _ hev) (hr ev hev)
  obtain ⟨s, hs, hfound⟩ := HalVirtual.loop_pulses (c := c) (linear := true)
    (delta := roundToSteps c delta) (s := HalVirtual.St.next c (.dir d) .init) hpulse hstamps
    (fun ax l hl => by
      exfalso
      have : ((HalVirtual.St.next c (.dir d) (HalVirtual.St.init : HalVirtual.St ℝ)).tr.get ax).last
        = none := by cases ax <;> rfl
      rw [this] at hl
      cases hl)
  have hloop : HalVirtual.loop c true (roundToSteps c delta) (.dir d :: r) .init = .ok s := by
    rw [HalVirtual.loop, hb]
    exact hs
  unfold HalVirtual.move
  simp only
  rw [hN n hn]
  simp only [hdelta, show HalVirtual.isLinear (.linear g) = true from rfl]
  rw [hloop]
  simp only [Option.some.injEq]
  rw [HalVirtual.finish_iff]
  refine ⟨by rw [hfound]; rfl, fun ax => ?_, ?_⟩
  · have h1 := HalVirtual.loop_count hloop ax
    have h2 : ((HalVirtual.St.init : HalVirtual.St ℝ).tr.get ax).i = 0 := by cases ax <;> rfl
    have h3 : netFrom c ax ((HalVirtual.St.init : HalVirtual.St ℝ).tr.get ax).dir
      (.dir d :: r) = netSteps c ax (.dir d :: r) := rfl
    rw [h2, zero_add, h3, hnet ax, hst ax] at h1
    rw [h1, hdelta]
    unfold HalVirtual.countFits
    rw [eq_iff]
    simp only [ofInt_eq, div_eq, ofRat_eq]
    rw [get_roundToSteps]
    have hP : (0 : ℝ) < c.ppm.get ax := by exact_mod_cast hc.ppm_pos ax
    have hP2 : (c.ppm.get ax : ℝ) ≤ 1000 := by exact_mod_cast hc.ppm_le ax
    generalize PyRound.rnd (delta.get ax / (1 / (c.ppm.get ax : ℝ))) = k
    have h4 := round10_near ((k : ℝ) * (1 / (c.ppm.get ax : ℝ)))
    have hE : (1 : ℝ) / 2 / E10 = 1 / 2 / 10 ^ 10 := rfl
    rw [hE] at h4
    have hk : ∀ y : ℝ, |y - (k : ℝ) * (1 / (c.ppm.get ax : ℝ))| ≤ 1 / 2 / 10 ^ 10 →
        (if y < 0 then -PyRound.rnd (|y| * (c.ppm.get ax : ℝ))
          else PyRound.rnd (|y| * (c.ppm.get ax : ℝ))) = k := by
      intro y hy
      generalize (c.ppm.get ax : ℝ) = P at hy hP hP2
      have h5 : |y * P - k| < 1 / 2 := by
        have e : y * P - k = (y - k * (1 / P)) * P := by field_simp
        rw [e, abs_mul, abs_of_pos hP]
        have := mul_le_mul hy hP2 hP.le (by positivity)
        refine this.trans_lt ?_
        norm_num
      split
      · rename_i hneg
        rw [abs_of_neg hneg, rnd_unique (n := -k)]
        · ring
        · push_cast
          rw [show -y * P - -(k : ℝ) = -(y * P - k) by ring, abs_neg]
          exact h5
      · rename_i hneg
        rw [abs_of_nonneg (not_lt.1 hneg), rnd_unique h5]
    rw [hk _ h4, mul_one_div]
  · have h0 : 0 ≤ (Gen.linear g).totalTime := by
      have hlf := linear_facts hc hm hg
      have h1 := hlf.good.accT
      have h2 := hlf.good.linT
      have hT : (Gen.linear g).totalTime = 2 * g.accT + g.linT := by
        simp [Gen.totalTime, Gen.accT, Gen.linT]; ring
      rw [hT]; linarith
    have h1 := HalVirtual.loop_top hloop
    have h2 : ∀ ax, (s.tr.get ax).top ≤ (Gen.linear g).totalTime := by
      intro ax
      rcases List.mem_cons.1 (h1 ax).1 with h | h
      · rw [h]
        have : ((HalVirtual.St.init : HalVirtual.St ℝ).tr.get ax).top = 0 := by
          cases ax <;> simp [HalVirtual.St.init, HalVirtual.Track.init, V4.get]
        rw [this]; exact h0
      · exact (hend ax _ h).2
    rw [le_iff]
    have hx := h2 .x
    have hy := h2 .y
    have hz := h2 .z
    have he := h2 .e
    simp only [V4.get] at hx hy hz he
    unfold pmax
    split_ifs <;> assumption

/-- With the default configuration no axis steps a million times per second. -/
example : (∀ ax, Cfg.default.ppm.get ax * (Cfg.default.maxVel.get ax / 60) < 10 ^ 6) ∧
    SaneCfg Cfg.default ∧ DecimalLimits Cfg.default ∧ Cfg.default.autoVel = true ∧
    OrdinaryMove (roundToSteps Cfg.default ⟨30, 40, 0, 0⟩) 3000 := by
  refine ⟨fun ax => by cases ax <;> norm_num [V4.get, Cfg.default], default_sane true,
    default_limits true, rfl, ?_⟩
  have : roundToSteps Cfg.default (⟨30, 40, 0, 0⟩ : V4 ℝ) = ⟨30, 40, 0, 0⟩ := by
    apply V4.ext_get
    intro ax
    obtain ⟨k, hk⟩ : ∃ k : ℤ, (⟨30, 40, 0, 0⟩ : V4 ℝ).get ax / (1 / (Cfg.default.ppm.get ax : ℝ)) = k := by
      cases ax
      · exact ⟨3000, by norm_num [V4.get, Cfg.default]⟩
      · exact ⟨4000, by norm_num [V4.get, Cfg.default]⟩
      · exact ⟨0, by norm_num [V4.get, Cfg.default]⟩
      · exact ⟨0, by norm_num [V4.get, Cfg.default]⟩
    have hp : (Cfg.default.ppm.get ax : ℝ) ≠ 0 := by
      cases ax <;> norm_num [V4.get, Cfg.default]
    rw [get_roundToSteps, hk, rnd_int, ← hk, div_mul_cancel₀ _ (by simpa using hp)]
    exact round10_grid (diag_ordinary.decimal ax)
  rw [this]
  exact diag_ordinary

/-- **C64** for the machine: run with the virtual machine, a straight move into the table that is
not longer than 10 m never raises an exception.
Missing: arcs. -/
theorem C64_machine_partial {c : Cfg} {env : Env ℝ} {delta : V4 ℝ} {v : ℝ} (hc : SaneCfg c)
    (hd : DecimalLimits c) (ha : c.autoVel = true)
    (hslow : ∀ ax, c.ppm.get ax * (c.maxVel.get ax / 60) < 10 ^ 6)
    (hm : OrdinaryMove (roundToSteps c delta) v) (s : MState ℝ)
    (henv : ∀ g tr, (∃ n, HalVirtual.move c g n = some (.ok ())) →
      env.move (.move g :: tr) = none)
    (hin : checkDelta c s.pos (roundToSteps c delta) = .ok ()) :
    (moveLinear c env delta v s).1 = .ok () := by
  obtain ⟨g, hg, N, hN⟩ := C64_linear_partial hc hd ha hslow hm
  have hv := henv (.linear g) s.trace ⟨N, hN N le_rfl⟩
  have hcv := checkVelocity_of_le hd (linear_limit hc hd ha hm hg)
  rcases moveLinear_cases (c := c) (env := env) delta v s with ⟨_, h⟩ | ⟨_, e, _, h | h | ⟨g', h2, h3⟩⟩ |
    ⟨_, g', _, h2, _, ⟨e, h3, h⟩ | ⟨_, h⟩⟩
  · rw [h]
  · rw [hin] at h; cases h
  · rw [hg] at h; cases h
  · rw [hg] at h2; cases h2
    rw [hcv] at h3; cases h3
  · rw [hg] at h2; cases h2
    rw [hv] at h3; cases h3
  · rw [h]

/-- **C64 is false** for arcs: the virtual machine stops with an `AssertionError` at
`G3 X103 Y104 I-4 J-3` from (104, 103), an arc that the machine accepts. -/
theorem C64_circular_refuted : ∃ (delta radius : V4 ℝ) (g : CircGen ℝ),
    delta = ⟨-1, 1, 0, 0⟩ ∧ radius = ⟨-4, -3, 0, 0⟩ ∧
    CircGen.new Cfg.default delta radius .xy .ccw 600 = .ok g ∧
    ∃ N, ∀ n, N ≤ n → ∃ msg, HalVirtual.move Cfg.default (.circular g) n =
      some (.error (.assertion msg)) := by
  obtain ⟨_, _, g, evs, rfl, rfl, hg, he, hx, _⟩ := C34_refuted
  refine ⟨_, _, g, rfl, rfl, hg, ?_⟩
  obtain ⟨N, hN⟩ := he
  refine ⟨N, fun n hn => ?_⟩
  rcases hm : HalVirtual.move Cfg.default (.circular g) n with _ | e | _
  · exfalso
    unfold HalVirtual.move at hm
    simp only at hm
    rw [hN n hn] at hm
    simp only at hm
    split at hm <;> cases hm
  · unfold HalVirtual.move at hm
    simp only at hm
    rw [hN n hn] at hm
    simp only at hm
    have hat := run_stepsAt Cfg.default (.circular g) n .init
    rw [hN n hn] at hat
    split at hm
    · rename_i hl
      cases hm
      obtain ⟨msg, rfl⟩ := HalVirtual.loop_error hat hl
      exact ⟨msg, rfl⟩
    · have hf := Option.some.inj hm
      obtain ⟨msg, rfl⟩ := HalVirtual.finish_error hf
      exact ⟨msg, rfl⟩
  · exfalso
    obtain ⟨evs', h1, _, h2, _⟩ := C64_sound hm
    rw [hN n hn] at h1
    cases h1
    have h3 := h2 .x
    have h4 : (Gen.circular g).delta = ⟨-1, 1, 0, 0⟩ := by
      obtain ⟨_, _, hf⟩ := new_facts hg
      exact hf.delta_eq
    rw [hx, h4, eq_iff] at h3
    simp [V4.get] at h3

end PyCNC.Props
