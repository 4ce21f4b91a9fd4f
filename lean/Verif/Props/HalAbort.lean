import Verif.Lemmas.HalAbort
import Verif.Props.InterpHuge
import Verif.Props.Lag
import Verif.Props.Pins

/-!
# Property C82: what is left when `hal.move` raises

`move` of the Raspberry Pi back end fills the buffer of the DMA engine.  The operations `.run` (line
305 of `hal.py`) and `.runStream` (line 297) of the trace start the engine.
-/

namespace PyCNC.Props

open PyCNC Spec

/-- **C82.** If `move` ends with an exception, the engine has not been started with any part of the
move, except with `INSTANT_RUN`, and then only if one of the pulses of the move is more than 100 ms
after an earlier one, or after the start of the move.  In any arithmetic and for any end of the
generator.  (That it has never been started is false, see `C82_refuted`.) -/
theorem C82_nothing_partial {F : Type} [PyNum F] (c : Cfg) (p : Pins) (b : Buf) (env : MoveEnv)
    (fuel : Nat) (evs : List (Event F)) (re : RunEnd) (mem : Nat → Word) (s : MoveSt) (ks : List Int)
    (err : PyErr) (hks : Stamps evs ks)
    (h : Hal.move c p b env fuel evs re mem = (s, .raised err)) :
    .run ∉ s.trace ∧ (.runStream ∈ s.trace →
      c.instantRun = true ∧ ∃ k ∈ ks, ∃ k0 ∈ 0 :: ks, k - k0 > 100000) := by
  obtain ⟨h1, h2⟩ := Hal.moveLoop_started (c := c) (p := p) (b := b) (env := env) (fuel := fuel) hks
    (Hal.moveInit c mem) _ rfl
  unfold Hal.move at h
  generalize Hal.moveLoop c p b env fuel evs (Hal.moveInit c mem) = r at h h1 h2
  obtain ⟨s1, e1⟩ := r
  have h1' : ∀ op ∈ s1.trace, op = .enable ∨ Hal.LoopOp op := fun op hop =>
    (h1 op hop).imp_left fun h => by simpa [Hal.moveInit] using h
  have h2' : .runStream ∈ s1.trace → c.instantRun = true ∧ ∃ k ∈ ks, ∃ k0 ∈ 0 :: ks, k - k0 > 100000 := by
    intro hop
    rcases h2 hop with h | ⟨h, k, hk, k0, hk0, hgt⟩
    · simp [Hal.moveInit] at h
    · refine ⟨h, k, hk, k0, ?_, hgt⟩
      rcases hk0 with h | h | h
      · exact List.mem_cons.2 (.inl h)
      · exact List.mem_cons.2 (.inl h)
      · exact List.mem_cons_of_mem _ h
  have hrun : HalOp.run ∉ s1.trace := fun hop => by
    rcases h1' _ hop with h | h | ⟨_, _, h⟩ | h <;> cases h
  have same : s1.trace = s.trace ∨ s.trace = .waitIdle :: s1.trace := by
    cases e1 with
    | running =>
      cases re with
      | done =>
        simp only [Hal.moveFinish] at h
        split at h
        · cases h
        · split at h
          · cases h; exact .inr rfl
          · cases h
      | raised e => cases h; exact .inl rfl
      | unfinished => cases h
    | _ => cases h <;> exact .inl rfl
  rcases same with e | e
  · exact ⟨e ▸ hrun, fun h => h2' (e ▸ h)⟩
  · rw [e]
    refine ⟨fun h => ?_, fun h => ?_⟩
    · rcases List.mem_cons.1 h with h | h
      · cases h
      · exact hrun h
    · rcases List.mem_cons.1 h with h | h
      · cases h
      · exact h2' h

/-- The example of C44 with a generator that raises after the second pulse: the engine has been started
because that pulse is 200 ms after the first one. -/
example [PyRound] : Stamps exEvs [10000, 210000] ∧
    (Hal.move Cfg.default Pins.default exBuf exEnv 1 exEvs (.raised .zeroDiv) (fun _ => 0#32)).2 =
      .raised .zeroDiv ∧
    .runStream ∈ (Hal.move Cfg.default Pins.default exBuf exEnv 1 exEvs (.raised .zeroDiv)
      (fun _ => 0#32)).1.trace := by
  refine ⟨exEvs_stamps, ?_⟩
  simp only [Hal.move, Hal.moveLoop, Hal.moveBody, exMin1, exMin2, exRound1, exRound2]
  constructor
  · rfl
  · exact List.mem_cons_self ..

/-! ### The line `G1E3000` -/

variable [PyRound] [PyText] {env : Env ℝ}

/-- `G1E3000` -/
def spoolLine : GCode := ⟨[('G', ['1']), ('E', "3000".toList)]⟩

/-- The coordinate that it names. -/
def spoolWords : Axis → Option ℚ
  | .e => some 3000
  | _ => none

/-- The move. -/
def spool : V4 ℝ := ⟨0, 0, 0, 3000⟩

omit [PyRound] in
theorem spool_parse : parseLine "G1E3000".toList = .ok (some spoolLine) := by
  refine parse_words (ws := [('G', ['1']), ('E', "3000".toList)]) ⟨by decide, ?_, by decide, by decide⟩
    (by decide)
  · intro w hw
    simp only [List.mem_cons, List.not_mem_nil, or_false] at hw
    rcases hw with rfl | rfl <;> exact ⟨by decide, [], _, rfl, .inl rfl, by decide, by decide⟩

omit [PyRound] [PyText] in
theorem spool_words : Words spoolLine spoolWords := by
  intro ax
  cases ax
  case e => exact ⟨_, rfl, by decide +kernel⟩
  all_goals change List.lookup _ _ = none; decide

omit [PyRound] [PyText] in
theorem spool_says : Says spoolLine ⟨.move spoolWords, none⟩ := by
  refine ⟨?_, ?_, ?_, spool_words⟩
  · unfold NumbersOk; decide +kernel
  · change List.lookup _ _ = none; decide
  · exact .inr (.inl ⟨by decide, by decide⟩)

omit [PyRound] [PyText] in
theorem spool_grid : GridV spool := by
  intro ax
  cases ax
  · simpa [spool, V4.get] using Grid.int 0
  · simpa [spool, V4.get] using Grid.int 0
  · simpa [spool, V4.get] using Grid.int 0
  · exact Grid.int 3000

omit [PyRound] [PyText] in
theorem spool_ordinary : OrdinaryMove spool 600 where
  decimal := spool_grid
  some := ⟨.e, by norm_num [spool, V4.get]⟩
  le := fun ax => by cases ax <;> norm_num [spool, V4.get]
  ge := fun ax h => by cases ax <;> first | exact absurd rfl h | norm_num [spool, V4.get]
  feed := by norm_num

omit [PyText] in
theorem spool_rounds : roundToSteps Cfg.default spool = spool := by
  apply V4.ext_get
  intro ax
  have z : ∀ ax, spool.get ax = 0 → (roundToSteps Cfg.default spool).get ax = spool.get ax := by
    intro ax h
    rw [get_roundToSteps, h, zero_div, rnd_zero, Int.cast_zero, zero_mul, round10_zero]
  cases ax
  · exact z .x rfl
  · exact z .y rfl
  · exact z .z rfl
  · rw [get_roundToSteps]
    have pe : ((Cfg.default.ppm.get .e : ℚ) : ℝ) = 150 := by norm_num [V4.get, Cfg.default]
    rw [pe, rnd_unique (n := 450000) (by norm_num [spool, V4.get])]
    have : (((450000 : ℤ) : ℝ) * (1 / 150)) = spool.get .e := by norm_num [spool, V4.get]
    rw [this]
    exact round10_grid (spool_grid .e)

omit [PyText] in
/-- The machine accepts the line. -/
theorem spool_runs (henv : ∀ tr, env.move tr = none) : ∃ lg s,
    LinearGen.new Cfg.default spool 600 = .ok lg ∧
    doCommand Cfg.default env (some spoolLine) (MState.init Cfg.default) = (.ok none, s) ∧
    s.trace = .move (.linear lg) :: (MState.init Cfg.default : MState ℝ).trace := by
  obtain ⟨lg, _, _, hl, -⟩ := linear_new (c := Cfg.default) sane_cfg spool_ordinary
  have hpi : (MState.init Cfg.default : MState ℝ).pos = Coord.zero := rfl
  obtain ⟨d, hd, hdv⟩ := plain_delta plain_init (g := spoolLine) spool_words (by
    intro ax q hq
    cases ax <;> simp only [spoolWords, Option.some.injEq, reduceCtorEq] at hq
    subst hq
    exact Grid.int 3000)
  have hd' : d = spool := by
    apply V4.ext_get
    intro ax
    rw [hdv, hpi]
    cases ax <;> simp only [get_zero] <;> norm_num [spoolWords, spool, V4.get]
  subst hd'
  obtain ⟨r, hr', -⟩ := plain_radius (g := spoolLine) plain_init (oi := none) (oj := none) (ok := none)
    rfl rfl rfl
  have hz : Coord.isZero spool = false := by
    cases hz : Coord.isZero spool
    · rfl
    · have := (isZero_iff _).1 hz .e
      norm_num [spool, V4.get] at this
  have hcd : checkDelta Cfg.default (MState.init Cfg.default : MState ℝ).pos spool = .ok () := by
    have hz0 : (Coord.zero : V4 ℝ) = ⟨0, 0, 0, 0⟩ := V4.ext_get fun ax => by
      rw [get_zero]; cases ax <;> rfl
    rw [hpi, checkDelta_ok (decimalQ_grid default_tableOk.1.2)
      (decimalQ_grid default_tableOk.2.1.2) (decimalQ_grid default_tableOk.2.2.2)
      ⟨default_tableOk.1.1, default_tableOk.2.1.1, default_tableOk.2.2.1⟩ gridV_zero spool_grid]
    rw [hz0]
    norm_num [Cfg.default, spool]
  have hv : checkVelocity Cfg.default (Gen.linear lg).maxVelocity = .ok () :=
    checkVelocity_of_le (default_limits true)
      (linear_limit sane_cfg (default_limits true) auto_default spool_ordinary hl)
  have hm : ∃ s, moveLinear Cfg.default env spool 600 (MState.init Cfg.default) = (.ok (), s) ∧
      s.trace = .move (.linear lg) :: (MState.init Cfg.default : MState ℝ).trace := by
    rcases moveLinear_cases (c := Cfg.default) (env := env) spool 600 (MState.init Cfg.default) with
      ⟨k1, _⟩ | ⟨_, e, _, k1⟩ | ⟨_, g, _, k1, _, ⟨e, k2, _⟩ | ⟨_, k2⟩⟩
    · rw [spool_rounds, hz] at k1; cases k1
    · rw [spool_rounds] at k1
      rcases k1 with k1 | k1 | ⟨g, k1, k2⟩
      · rw [hcd] at k1; cases k1
      · rw [hl] at k1; cases k1
      · rw [hl] at k1; cases k1
        rw [hv] at k2; cases k2
    · rw [henv] at k2; cases k2
    · rw [spool_rounds, hl] at k1; cases k1
      exact ⟨_, k2, rfl⟩
  obtain ⟨s, k1, k2⟩ := hm
  have hx : execCmd Cfg.default env (lineCmd spoolLine) spoolLine spool r 600
      (MState.init Cfg.default) = (.ok none, s) := M.bind_ok k1
  exact ⟨lg, _, hl, plain_run_line plain_init hd hr' rfl hx, k2⟩

omit [PyText] in
/-- The events of the move: 450000 pulses. -/
theorem spool_stream {lg : LinearGen ℝ} (hl : LinearGen.new Cfg.default spool 600 = .ok lg) :
    ∃ d r ks, Emits Cfg.default (.linear lg) (.dir d :: r) ∧ (∀ ev ∈ r, ∃ t, ev = .pulse t) ∧
      Stamps (.dir d :: r) ks ∧ ShortGaps Cfg.default.pulseLenUs 0 ks ∧
      Spaced Cfg.default.pulseLenUs 0 ks ∧ ks.length = 450000 := by
  obtain ⟨r, ks, h1, h2, h3, h4, -⟩ := linear_stream (c := Cfg.default) sane_cfg spool_ordinary default_ppm10 hl
  have hs : ∀ ax', ax' ≠ .e → spool.get ax' = 0 := by
    intro ax' h; cases ax' <;> first | rfl | exact absurd rfl h
  have h5 := single_spaced (c := Cfg.default) sane_cfg (default_limits true) rfl spool_ordinary (ax := .e) hs
    (by norm_num [Cfg.default, V4.get]) hl h1 h3
  refine ⟨_, r, ks, h1, h2, h3, h4, h5, ?_⟩
  obtain ⟨lg', evs', g1, g2, -, g4, -⟩ := C28_linear_pulses (c := Cfg.default) sane_cfg spool_ordinary
  rw [hl] at g1
  cases g1
  cases emits_unique h1 g2
  have hn : ∀ ax, ((stepTimes ax (Event.dir (invertDirs Cfg.default lg.dir) :: r)).length : ℤ) =
      PyRound.rnd (|spool.get ax| * Cfg.default.ppm.get ax) := g4
  have hz : ∀ ax', ax' ≠ .e → stepTimes ax' (Event.dir (invertDirs Cfg.default lg.dir) :: r) = [] := by
    intro ax' hne
    have := hn ax'
    rw [hs ax' hne, abs_zero, zero_mul, rnd_zero] at this
    exact List.length_eq_zero_iff.1 (by exact_mod_cast this)
  rw [stamps_single h3 hz, List.length_map]
  have h6 := hn .e
  rw [rnd_unique (n := 450000) (by norm_num [spool, Cfg.default, V4.get])] at h6
  exact_mod_cast h6

/-- **C82 is false**, and the default machine shows it: the line `G1E3000` (3 m of filament) is
accepted, and `move` raises `MemoryError` when the 30 MB of the buffer are full.  At that time the
engine has been started (`INSTANT_RUN`), nothing stops it, and the last control block leads it on into
what the memory behind it happens to hold: nobody has written the end mark. -/
theorem C82_refuted (henv : ∀ tr, env.move tr = none) (mem : Nat → Word) (re : RunEnd) (g : GpioHw) :
    ∃ (lg : LinearGen ℝ) (ms : MState ℝ) (evs : List (Event ℝ)) (s : MoveSt) (n : ℕ) (w : World),
      machineRun Cfg.default env (MState.init Cfg.default) ["G1E3000".toList] = some ([true], ms) ∧
      ms.trace = .move (.linear lg) :: (MState.init Cfg.default : MState ℝ).trace ∧
      Emits Cfg.default (.linear lg) evs ∧
      Hal.move Cfg.default Pins.default exBuf exEnv 1 evs re mem = (s, .raised .memory) ∧
      .runStream ∈ s.trace ∧ (∀ a, .finalize a ∉ s.trace) ∧ 0 < s.dma.addr ∧
      Dma.run exBuf n exBuf.base ⟨s.dma.mem, g, [], 0⟩ = (w, exBuf.base + s.dma.addr) := by
  obtain ⟨lg, ms, h1, h2, h3⟩ := spool_runs henv
  obtain ⟨d, r, ks, e1, e2, e3, e4, e5, e6⟩ := spool_stream h1
  obtain ⟨s, ks', l, m1, m2, m3, m4, m5, m6⟩ := Hal.move_full (c := Cfg.default) (p := Pins.default)
    (b := exBuf) (env := exEnv) (fuel := 1) exBuf_ok.top exPins_ok (by decide) (fun _ => rfl)
    (fun _ => rfl) le_rfl rfl (by decide) e3 e2 e4 (by rw [e6]; decide) re mem
  obtain ⟨t1, -⟩ := Hal.moveLoop_started (c := Cfg.default) (p := Pins.default) (b := exBuf)
    (env := exEnv) (fuel := 1) e3 (Hal.moveInit Cfg.default mem) _ rfl
  have hlen : 245758 ≤ ks'.length := by
    change 31457280 < _ at m3
    omega
  have hstart : .runStream ∈ s.trace := by
    apply m6
    obtain ⟨k, hk, hle⟩ := spaced_reaches (spaced_prefix m2 e5) (by
      rintro rfl; simp at hlen)
    refine ⟨k, hk, ?_⟩
    change (0 : Int) + 2 * _ ≤ k at hle
    omega
  have hpart := run_part (bufOk_ok exBuf_ok) m4 l.length 0 ⟨s.dma.mem, g, [], 0⟩ (by omega) rfl
  rw [Nat.mul_zero, Nat.add_zero, Nat.zero_add, ← m4.1] at hpart
  refine ⟨lg, ms, _, s, l.length, _, ?_, h3, e1, m1, hstart, ?_, ?_, hpart⟩
  · have hl : doLine Cfg.default env "G1E3000".toList (MState.init Cfg.default) =
        (.ok (.ok none), ms) := by
      unfold doLine
      rw [spool_parse]
      simp only [h2]
    simp only [machineRun, hl, Option.map_some]
  · intro a ha
    have hs : s = (Hal.moveLoop Cfg.default Pins.default exBuf exEnv 1 (.dir d :: r)
        (Hal.moveInit Cfg.default mem)).1 ∨ ∃ s1, Hal.move Cfg.default Pins.default exBuf exEnv 1
        (.dir d :: r) re mem = Hal.moveFinish s1 := by
      unfold Hal.move at m1 ⊢
      generalize Hal.moveLoop Cfg.default Pins.default exBuf exEnv 1 (.dir d :: r)
        (Hal.moveInit Cfg.default mem) = q at m1 ⊢
      obtain ⟨s1, e1⟩ := q
      cases e1 with
      | running =>
        cases re with
        | done => exact .inr ⟨s1, rfl⟩
        | raised e => cases m1; exact .inl rfl
        | unfinished => cases m1
      | _ => cases m1 <;> exact .inl rfl
    rcases hs with hs | ⟨s1, hs⟩
    · rw [hs] at ha
      rcases t1 _ ha with h | h | ⟨_, _, h⟩ | h
      · simp [Hal.moveInit] at h
      all_goals cases h
    · rw [m1] at hs
      simp only [Hal.moveFinish] at hs
      split at hs
      · cases hs
      · split at hs <;> cases hs
  · have := m4.1
    have := List.length_pos_of_ne_nil m5
    omega

/-- **C66 is false of longer extrusions**: the interpreter and the machine accept `G1E3000`, but no
carrying out of its move exists, whatever the engine does meanwhile and whatever was in the buffer. -/
theorem C66_refuted (henv : ∀ tr, env.move tr = none) : ∃ s : MState ℝ,
    Says spoolLine ⟨.move spoolWords, none⟩ ∧
    machineRun Cfg.default env (MState.init Cfg.default) ["G1E3000".toList] = some ([true], s) ∧
    ((Ref.init Cfg.default).run Cfg.default [⟨.move spoolWords, none⟩]).1 = [true] ∧
    ¬ ∃ es, Played Cfg.default Pins.default exBuf s.trace es := by
  obtain ⟨lg, ms, h1, h2, h3⟩ := spool_runs henv
  have hrun : machineRun Cfg.default env (MState.init Cfg.default) ["G1E3000".toList] =
      some ([true], ms) := by
    have hl : doLine Cfg.default env "G1E3000".toList (MState.init Cfg.default) =
        (.ok (.ok none), ms) := by
      unfold doLine
      rw [spool_parse]
      simp only [h2]
    simp only [machineRun, hl, Option.map_some]
  refine ⟨ms, spool_says, hrun, ?_, ?_⟩
  · obtain ⟨s, k1, -⟩ := C57_program_partial default_plain henv
      [("G1E3000".toList, ⟨.move spoolWords, none⟩)] (by
        intro p hp
        rw [List.mem_singleton] at hp
        subst hp
        exact ⟨_, spool_parse, spool_says⟩) (by
        refine ⟨?_, trivial⟩
        intro w hw
        injection hw with hw
        subst hw
        have d2 : dec (((3000 : ℚ) : ℝ) * 1) = 3000 := by
          rw [dec_eq (k := 3000 * 10 ^ 10) (by norm_num)]; norm_num
        have hpe : ((Cfg.default.ppm.get .e : ℚ) : ℝ) = 150 := by norm_num [Cfg.default, V4.get]
        have hgo : (Ref.init Cfg.default).go Cfg.default spoolWords .e = 450000 := by
          unfold Ref.go Ref.target
          simp only [spoolWords, Ref.init, Ref.at, d2, hpe, Bool.false_eq_true, if_false]
          rw [rnd_unique (n := 450000) (by norm_num)]
          norm_num
        rw [hgo]
        norm_num [Cfg.default])
    simp only [List.map_cons, List.map_nil] at k1
    rw [hrun] at k1
    exact (Prod.mk.inj (Option.some.inj k1)).1.symm
  · rintro ⟨es, hes⟩
    rw [h3] at hes
    obtain ⟨d, r, ks, e1, e2, e3, e4, e5, e6⟩ := spool_stream h1
    cases hes with
    | move he hm _ _ _ _ _ =>
      cases emits_unique he e1
      obtain ⟨q, hh, -⟩ := Hal.move_ok hm
      have h5 := Hal.evsBlks_length (c := Cfg.default) (p := Pins.default) e3 0
      have h6 := hh.1
      have h7 : _ ≤ 31457280 := hh.2.1
      omega
    | other h _ => exact h _ rfl

/-- The environment of a machine without faults. -/
example : ∀ tr, (⟨fun _ => none, fun _ => none, fun _ => true, fun _ => none⟩ : Env ℝ).move tr = none :=
  fun _ => rfl

end PyCNC.Props
