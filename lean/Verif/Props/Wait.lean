import Verif.Props.Pins

/-!
# Property C70: commands that must not disturb a running move wait for its end

`hal.move` returns when the engine has been started (C60); the motors run on.  A call after it acts
at once, unless `hal.join()` comes in between.
-/

namespace PyCNC

namespace Spec

/-- Calls of the HAL that belong after the end of the moves before them: a change of the spindle, a
pause, homing, and switching the motors off. -/
def AfterMoves {F : Type} : HalCall F → Bool
  | .spindle _ => true
  | .sleep _ => true
  | .calibrate _ _ _ => true
  | .disableSteppers => true
  | _ => false

end Spec

namespace Props

open PyCNC Spec

/-- The call is not one of these, or it comes right after `hal.join()`, or it is the one of `M84`. -/
private def Q {F : Type} (call : HalCall F) (earlier : List (HalCall F)) : Prop :=
  AfterMoves call = true → call ≠ .disableSteppers → earlier.head? = some .join

private theorem Q.not {F : Type} {call : HalCall F} (h : AfterMoves call = false)
    (tr : List (HalCall F)) : Q call tr := fun h' => by rw [h] at h'; cases h'

private theorem Q.off {F : Type} (tr : List (HalCall F)) : Q .disableSteppers tr :=
  fun _ h' => absurd rfl h'

/-- **C70 (partial).** In every history the spindle is set, a pause made and the machine homed right
after `hal.join()`.  Missing: switching the motors off, see `C70_m84_refuted`. -/
theorem C70_waits_partial {F : Type} [PyNum F] {c : Cfg} {env : Env F} (s : MState F)
    (hs : Reachable c env s) :
    Always (fun call earlier => AfterMoves call = true → call ≠ .disableSteppers →
      earlier.head? = some .join) s.trace := by
  have hc : ∀ call : HalCall F, AfterMoves call = false →
      ClosedCall (fun s : MState F => Always Q s.trace) call := fun call h s hs => ⟨Q.not h _, hs⟩
  have hf : ∀ b, M.Pres (fun s : MState F => Always Q s.trace) (fan b) := fun b s h =>
    ⟨Q.not rfl _, h⟩
  have hsp : ∀ v, M.Pres (fun s : MState F => Always Q s.trace) (spindle c v) := fun v s h =>
    ⟨fun _ _ => rfl, Q.not rfl _, h⟩
  have hj := hc .join rfl
  have hm : ∀ g, ClosedCall _ (.move g) := fun g => hc (.move g) rfl
  refine reachable_inv (P := fun s : MState F => Always Q s.trace) ?_ ?_ ?_ ?_ ?_ ?_ hs
  · exact ⟨Q.not rfl _, Q.not rfl _, trivial⟩
  · intro g
    refine doCommand_pres (fun _ _ h => h) fun d r v => ?_
    cases lineCmd g with
    | g4 =>
      have h1 : ∀ pause, M.Pres (fun s : MState F => Always Q s.trace)
          (do M.emit .join; M.emit (.sleep pause); return none : M F (Option (Answer F))) :=
        fun pause s hs => ⟨fun _ _ => rfl, Q.not rfl _, hs⟩
      simp only [execCmd]
      split
      · exact M.Pres.throw _
      · refine M.Pres.bind (M.Pres.lift _) fun p => ?_
        split
        · exact M.Pres.throw _
        · exact h1 p
    | g28 =>
      unfold execCmd home
      dsimp only
      refine M.Pres.bind (M.Pres.bind (safeZero_pres (fun _ _ h => h) hm) fun _ s hs => ?_)
        fun _ => M.Pres.pure _
      have h1 : ∀ x y z, Always Q (.calibrate x y z :: .join :: s.trace) := fun x y z =>
        ⟨fun _ _ => rfl, Q.not rfl _, hs⟩
      simp only [M.bind_emit, M.bind_get]
      split <;> split <;> exact h1 _ _ _
    | heat h w =>
      unfold execCmd heatCommand
      pres
      exact heat_pres (hc _ rfl) (hc _ rfl) (hc _ rfl) (hc _ rfl)
        (fun s t h => by cases ‹HeaterId› <;> exact h) (fun s h => ⟨Q.not rfl _, h⟩)
    | _ =>
      unfold execCmd
      pres
      all_goals first
        | exact moveLinear_pres (fun _ _ h => h) hm
        | exact moveCircular_pres (fun _ _ h => h) hm
        | exact setLocal_pres (fun _ _ h => h)
        | exact hf _
        | exact measure_pres (hc _ rfl)
        | exact hsp _
        | exact M.Pres.modify fun _ h => h
        | exact M.Pres.emit (hc _ rfl)
        | exact M.Pres.emit (fun s h => ⟨Q.off _, h⟩)
  · exact fun _ h => h
  · exact fun _ _ _ => safeZero_pres (fun _ _ h => h) hm
  · exact position_pres hj
  · exact release_pres (hsp _) (fun _ => hc _ rfl)
      (fun s h => ⟨Q.not rfl _, h⟩) (hc _ rfl)

variable [PyRound] {env : Env ℝ}

omit [PyRound] in
/-- From zero to `n` in steps of at most one: all numbers in between occur. -/
private theorem prefix_steps {sp dp : Nat} {es : List Edge} {d : Driver} {n : Nat}
    (h : (es.foldl (Driver.edge sp dp) d).pos = d.pos - n) (k : Nat) (hk : k ≤ n) :
    ∃ es', es' <+: es ∧ (es'.foldl (Driver.edge sp dp) d).pos = d.pos - k := by
  induction es using List.reverseRecOn generalizing n with
  | nil => 
    simp only [List.foldl_nil] at h
    exact ⟨[], List.prefix_refl _, by simp only [List.foldl_nil]; omega⟩
  | append_singleton es e ih =>
    rcases Nat.lt_or_ge k n with h1 | h1
    · rw [List.foldl_append] at h
      simp only [List.foldl_cons, List.foldl_nil] at h
      have hcase : (es.foldl (Driver.edge sp dp) d).pos ≤ d.pos - k := by
        generalize es.foldl (Driver.edge sp dp) d = d' at h ⊢
        simp only [Driver.edge] at h
        split at h
        · split at h <;> omega
        · omega
      obtain ⟨es', h2, h3⟩ := ih (n := (d.pos - (es.foldl (Driver.edge sp dp) d).pos).toNat)
        (by omega) (by omega)
      exact ⟨es', h2.trans (List.prefix_append _ _), h3⟩
    · exact ⟨es ++ [e], List.prefix_refl _, by rw [h]; omega⟩

omit [PyRound] in
theorem parse_m84 [PyText] : parseLine "M84".toList = .ok (some ⟨[('M', "84".toList)]⟩) := by
  refine parse_words (ws := [('M', "84".toList)]) ⟨by decide, ?_, by decide, by decide⟩ (by decide)
  intro w hw
  simp only [List.mem_cons, List.not_mem_nil, or_false] at hw
  subst hw
  exact ⟨by decide, [], _, rfl, .inl rfl, by decide, by decide⟩

/-- `M84` in any state. -/
theorem m84_run (s : MState ℝ) (hv : 1 ≤ s.vel) :
    doCommand Cfg.default env (some ⟨[('M', "84".toList)]⟩) s =
      (.ok none, { s with trace := .disableSteppers :: s.trace }) := by
  have hn : NumbersOk ⟨[('M', "84".toList)]⟩ := by unfold NumbersOk; decide +kernel
  have hf : (⟨[('M', "84".toList)]⟩ : GCode).get 'F' s.vel (PyNum.ofRat 1) = .ok s.vel := rfl
  rcases doCommand_cases (c := Cfg.default) (env := env) ⟨[('M', "84".toList)]⟩ s with
    ⟨e', h1, h2⟩ | ⟨d, v, rad, hd, hv', _, hx⟩
  · exfalso
    rcases h2 with h2 | h2 | h2
    · obtain ⟨_, k, t, h3, h4⟩ := readDelta_error h2
      exact absurd h4 (hn _ (mem_of_lookup h3))
    · rw [hf] at h2; cases h2
    · obtain ⟨_, k, t, h3, h4⟩ := radius_error h2
      exact absurd h4 (hn _ (mem_of_lookup h3))
  rw [hf] at hv'
  cases hv'
  have hl : lineCmd ⟨[('M', "84".toList)]⟩ = .m84 := rfl
  rw [hl] at hx
  rcases hx with ⟨hlt, h⟩ | ⟨hmin, ⟨a, s', h5, h6⟩ | ⟨e', s', h5, h6⟩⟩
  · rw [lt_iff, ofRat_eq] at hlt
    norm_num [Cfg.default] at hlt
    linarith
  · cases h5
    exact h6
  · cases h5

/-- A history with such a call: `release()`. -/
example : ∃ (s : MState ℝ) (v : ℝ), Reachable Cfg.default env s ∧ .spindle v ∈ s.trace := by
  obtain ⟨stops, h, -⟩ := release_run (c := Cfg.default) (MState.init (F := ℝ) Cfg.default)
  refine ⟨(Op.exec Cfg.default env .release (MState.init Cfg.default)).2,
    PyNum.ofRat 100 *ₚ zeroF /ₚ PyNum.ofRat Cfg.default.spindleMax, .step .release .init, ?_⟩
  simp only [Op.exec, h]
  simp only [List.mem_cons, List.mem_append, true_or, or_true]

/-- **C70 is false of `M84`.** The program `G1X10F600`, `M84`, with the default configuration: the
motors are switched off with no `hal.join()` after the move, the machine takes the head to be at
10 mm, and the driver, which ignores the pins from the moment it is switched off, has made any number
of steps from none to 1000, depending on that moment. -/
theorem C70_m84_refuted [PyText] (henv : ∀ tr, env.move tr = none) : ∃ s lg es,
    machineRun Cfg.default env (MState.init Cfg.default) ["G1X10F600".toList, "M84".toList] =
      some ([true, true], s) ∧
    s.trace = [.disableSteppers, .move (.linear lg), .watchdog, .init] ∧ s.pos.x = 10 ∧
    Played Cfg.default Pins.default exBuf s.trace es ∧
    ∀ k : Nat, k ≤ 1000 → ∃ es', es' <+: es ∧
      along Cfg.default .x ((Driver.mk false false 0).sees Pins.default .x es').pos = k := by
  obtain ⟨g, hg1, hg2⟩ := refProgram_says _ (List.mem_cons_self (l := refProgram.tail))
  have hr := ref_move (r := Ref.init Cfg.default) (n := 0) (ne := 0) (q := 10)
    (w := fun | .x => some 10 | _ => none) (f := some 600) (v := 600) (k := 1000) (ke := 0) rfl rfl rfl
    (by funext ax; cases ax <;> rfl) (by norm_num [lineFeed]) (by norm_num)
    (by
      have : dec (((10 : ℚ) : ℝ) * 1) = 10 := by
        rw [dec_eq (k := 10 ^ 11) (by norm_num)]; norm_num
      simp only [Ref.init, this]; norm_num) rfl
  rw [if_pos (by norm_num)] at hr
  obtain ⟨a, s1, h1, h2, h3⟩ := (line_matches default_plain henv .init matches_init hg2
    (m := 780) (by norm_num) refProgram_780.1).1 _ hr
  obtain ⟨evs, he, hn⟩ := h2.motors
  have hmv : ∃ lg, s1.trace = [.move (.linear lg), .watchdog, .init] ∧ Doable Cfg.default 780 (.linear lg) := by
    rcases h3 with h3 | ⟨lg, d, v, h3, h4, h5, h6⟩
    · exfalso
      rw [h3] at he
      have := hn .x
      cases he with
      | other _ he =>
        cases he with
        | other _ he =>
          cases he
          cases this
    · exact ⟨lg, h3, lg, d, v, rfl, h4, h5, h6⟩
  obtain ⟨lg, htr, hdo⟩ := hmv
  have hv : s1.vel = 600 := h2.vel
  have h84 := m84_run (env := env) s1 (by rw [hv]; norm_num)
  have ht := default_plain.sane.table
  obtain ⟨es, hes⟩ := played_exists (p := Pins.default) (b := exBuf) default_plain.sane.cfg
    ⟨ht.1.1, ht.2.1.1, ht.2.2.1⟩ default_ppm10 exBuf_ok exPins_ok (by decide) (by norm_num) default_fits
    (tr := s1.trace) (by
      intro g' hg'
      rw [htr] at hg'
      simp only [List.mem_cons, HalCall.move.injEq, reduceCtorEq, List.not_mem_nil, or_false] at hg'
      rw [hg']; exact hdo)
  have hreach : Reachable Cfg.default env s1 := by
    have e : (Op.exec Cfg.default env (.cmd (some g)) (MState.init Cfg.default)).2 = s1 := by
      simp [Op.exec, h1]
    exact e ▸ Reachable.step (.cmd (some g)) .init
  have hst := (played_steps exBuf_ok exPins_ok exPins_apart (by decide) (reachable_unitDirs hreach) hes .x
    (d := ⟨false, false, 0⟩) rfl he).2
  rw [hn] at hst
  refine ⟨{ s1 with trace := .disableSteppers :: s1.trace }, lg, es, ?_, by simp only [htr], ?_,
    .other (fun g h => by cases h) hes, fun k hk => ?_⟩
  · have l1 : doLine Cfg.default env "G1X10F600".toList (MState.init Cfg.default) = (.ok (.ok a), s1) := by
      unfold doLine
      rw [hg1]
      simp only [h1]
    have l2 : doLine Cfg.default env "M84".toList s1 =
        (.ok (.ok none), { s1 with trace := .disableSteppers :: s1.trace }) := by
      unfold doLine
      rw [parse_m84]
      simp only [h84]
    simp only [machineRun, l1, l2]
    rfl
  · have := h2.pos .x
    rw [at_steps (by decide)] at this
    simp only [V4.get] at this
    rw [this]
    norm_num [Cfg.default]
  · have hinv : Cfg.default.inverted.get .x = true := rfl
    simp only [along, hinv, if_true] at hst ⊢
    obtain ⟨es', h4, h5⟩ := prefix_steps (sp := Pins.default.step.get .x)
      (dp := Pins.default.dir.get .x) (es := es) (d := ⟨false, false, 0⟩) (n := 1000) (by
        change ((Driver.mk false false 0).sees Pins.default .x es).pos = 0 - 1000
        omega) k hk
    refine ⟨es', h4, ?_⟩
    change (((Driver.mk false false 0).sees Pins.default .x es').pos) = 0 - (k : Int) at h5
    omega

end Props

end PyCNC
