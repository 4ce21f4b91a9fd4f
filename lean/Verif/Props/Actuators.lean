import Verif.Lemmas.Exec
import Verif.Spec.Numbers
import Verif.Lemmas.Exact

/-!
# Properties C21–C24, C26: spindle, heaters and fan
-/

namespace PyCNC.Props

open PyCNC Spec

set_option linter.unusedSectionVars false
set_option linter.unusedTactic false
set_option linter.unreachableTactic false

section any

variable {F : Type} [PyNum F] (c : Cfg) (env : Env F)

/-! ## C26 -/

/-- **C26.** In every history the fan state is the value last sent to the hardware. -/
theorem C26_fan_state_is_last_command (s : MState F) (hs : Reachable c env s) :
    s.fan = lastFan s.trace := by
  refine reachable_inv (P := fun s => s.fan = lastFan s.trace) rfl ?_ ?_ ?_ ?_ ?_ hs
  · intro g
    refine doCommand_pres (fun _ _ h => h) fun d r v => ?_
    have hf : ∀ b, M.Pres (fun s : MState F => s.fan = lastFan s.trace) (fan b) := fun b s _ => rfl
    have hm : ∀ h, M.Pres (fun s : MState F => s.fan = lastFan s.trace) (measure env h) :=
      fun _ s h => h
    have hsp : ∀ v, M.Pres (fun s : MState F => s.fan = lastFan s.trace) (spindle c v) :=
      fun _ s h => h
    cases lineCmd g <;> unfold execCmd <;> pres
    all_goals first
      | exact moveLinear_pres (fun _ _ h => h) (fun _ _ h => h)
      | exact moveCircular_pres (fun _ _ h => h) (fun _ _ h => h)
      | exact home_pres (fun _ _ h => h) (fun _ _ h => h) (fun _ h => h) (fun _ _ _ _ h => h)
      | exact setLocal_pres (fun _ _ h => h)
      | exact hf _
      | exact hm _
      | exact hsp _
      | exact M.Pres.modify fun _ h => h
      | exact M.Pres.emit fun _ h => h
      | exact fun _ h => h
      | skip
    all_goals
      unfold heatCommand
      pres
      exact heat_pres (fun _ h => h) (fun _ h => h) (fun _ h => h) (fun _ h => h)
        (fun s t h => by cases ‹HeaterId› <;> exact h) (fun _ _ => rfl)
  · exact fun _ h => h
  · exact fun _ _ _ => safeZero_pres (fun _ _ h => h) (fun _ _ h => h)
  · exact position_pres fun _ h => h
  · exact release_pres (fun _ h => h) (fun _ _ h => h) (fun _ _ => rfl) (fun _ h => h)

/-- **C26.** With `AUTO_FAN_ON` the call right before the start of an extruder heater turns
the fan on. -/
theorem C26_fan_before_heater (s : MState F) (hs : Reachable c env s) (hauto : c.autoFan = true) :
    Always (fun call earlier => ∀ t, call = .heaterStart .extruder t →
      earlier.head? = some (.fan true)) s.trace := by
  refine reachable_always ?_ ?_ ?_ hs
  · intro call tr _ h t ht; exact absurd ht (h _ _)
  · intro v _ tr t ht; cases ht
  · intro h t _ _ tr hx t' ht
    cases ht
    exact hx (by simp [hauto])

/-! ## C18: lower bound of the stored feed -/

/-- **C18.** In every reachable state the stored feed is at least the minimum feed, if the
minimum is not above one of the maximum velocities. -/
theorem C18_feed_at_least_minimum [PyOrd F] (s : MState F) (hs : Reachable c env s)
    (hc : ∀ ax, PyOrd.val (PyNum.ofRat c.minVel : F) ≤
      PyOrd.val (PyNum.ofRat (c.maxVel.get ax) : F)) :
    PyOrd.val (PyNum.ofRat c.minVel : F) ≤ PyOrd.val s.vel := by
  have hmin : ∀ a b : F, pmin a b = a ∨ pmin a b = b := by
    intro a b; unfold pmin; split
    · exact .inr rfl
    · exact .inl rfl
  have hmm : PyOrd.val (PyNum.ofRat c.minVel : F) ≤ PyOrd.val (minMaxVel c : F) := by
    unfold minMaxVel
    rcases hmin (pmin (pmin (PyNum.ofRat c.maxVel.x) (PyNum.ofRat c.maxVel.y))
      (PyNum.ofRat c.maxVel.z)) (PyNum.ofRat c.maxVel.e : F) with h | h <;> rw [h]
    · rcases hmin (pmin (PyNum.ofRat c.maxVel.x) (PyNum.ofRat c.maxVel.y))
        (PyNum.ofRat c.maxVel.z : F) with h | h <;> rw [h]
      · rcases hmin (PyNum.ofRat c.maxVel.x) (PyNum.ofRat c.maxVel.y : F) with h | h <;> rw [h]
        · exact hc .x
        · exact hc .y
      · exact hc .z
    · exact hc .e
  refine reachable_inv (P := fun s : MState F =>
    PyOrd.val (PyNum.ofRat c.minVel : F) ≤ PyOrd.val s.vel) hmm ?_ ?_ ?_ ?_ ?_ hs
  · intro g s hs
    have hx : ∀ d r v, M.Pres (fun s : MState F =>
        PyOrd.val (PyNum.ofRat c.minVel : F) ≤ PyOrd.val s.vel)
        (execCmd c env (lineCmd g) g d r v) := fun d r v =>
      execCmd_pres (fun _ _ _ h => h) (fun _ _ h => h) (fun _ _ _ h => h)
          (fun h _ _ _ _ hs => by cases h <;> exact hs) (fun _ _ _ h => h) (fun _ _ _ h => h)
          (fun _ _ _ h => h) (fun _ _ _ h => h) (fun _ _ _ h => h) (fun _ _ _ => hmm)
    rcases doCommand_cases (c := c) (env := env) g s with ⟨e, h1, _⟩ |
      ⟨d, v, r, _, hv, _, ⟨_, h1⟩ | ⟨hl, ⟨a, s2, hx', h1⟩ | ⟨e, s2, hx', h1⟩⟩⟩ <;> rw [h1]
    · exact hs
    · exact hs
    · have : ¬ ((v <ₚ PyNum.ofRat c.minVel) = true) := by rw [hl]; simp
      rw [PyOrd.lt_val] at this
      exact not_lt.1 this
    · have := hx d r v s hs
      rw [hx'] at this
      exact this
  · exact fun _ _ => hmm
  · exact fun _ _ _ => safeZero_pres (fun _ _ h => h) (fun _ _ h => h)
  · exact position_pres fun _ h => h
  · exact release_pres (fun _ h => h) (fun _ _ h => h) (fun _ h => h) (fun _ h => h)

/-! ## C21 -/

/-- **C21.** A successful `M3` waits for the motors, sends `100 * rpm / SPINDLE_MAX_RPM` and
remembers `rpm`, the S word of the line or else the last accepted speed. -/
theorem C21_start (g : GCode) (s s' : MState F) (a : Option (Answer F)) (hg : Is g 'M' "3")
    (h : doCommand c env (some g) s = (.ok a, s')) :
    ∃ rpm : F, ((∃ q, HasNum g 'S' q ∧ rpm = PyNum.ofRat q *ₚ PyNum.ofRat 1) ∨
        (g.params.lookup 'S' = none ∧ rpm = s.spindle)) ∧
      s' = { s with
        vel := s'.vel
        spindle := rpm
        trace := .spindle (PyNum.ofRat 100 *ₚ rpm /ₚ PyNum.ofRat c.spindleMax) :: .join ::
          s.trace } := by
  obtain ⟨d, r, v, s2, hx, rfl⟩ := ok_exec (cmd := .m3) ⟨_, List.mem_singleton_self _, hg⟩ h
  simp only [execCmd, M.bind_get] at hx
  obtain ⟨rpm, hr, hx⟩ := lift_ok hx
  refine ⟨rpm, get_ok hr, ?_⟩
  split at hx
  · simp at hx
  · rw [bind_spindle, M.bind_modify] at hx
    cases hx
    rfl

/-- **C21.** A successful `M5` waits for the motors and sends `100 * 0 / SPINDLE_MAX_RPM`. -/
theorem C21_stop (g : GCode) (s s' : MState F) (a : Option (Answer F)) (hg : Is g 'M' "5")
    (h : doCommand c env (some g) s = (.ok a, s')) :
    s' = { s with
      vel := s'.vel
      trace := .spindle (PyNum.ofRat 100 *ₚ PyNum.ofRat 0 /ₚ PyNum.ofRat c.spindleMax) :: .join ::
        s.trace } := by
  obtain ⟨d, r, v, s2, hx, rfl⟩ := ok_exec (cmd := .m5) ⟨_, List.mem_singleton_self _, hg⟩ h
  cases hx
  rfl

/-- **C21.** An S word outside the range is rejected without effect. -/
theorem C21_bad_speed_rejected [PyOrd F] (g : GCode) (s : MState F) (q : Rat) (hg : Is g 'M' "3")
    (hq : HasNum g 'S' q)
    (hbad : PyOrd.val (PyNum.ofRat q *ₚ PyNum.ofRat 1 : F) < PyOrd.val (PyNum.ofRat 0 : F) ∨
      PyOrd.val (PyNum.ofRat c.spindleMax : F) < PyOrd.val (PyNum.ofRat q *ₚ PyNum.ofRat 1 : F)) :
    ∃ e, doCommand c env (some g) s = (.error e, s) := by
  have hb : (PyNum.ofRat q *ₚ PyNum.ofRat 1 <ₚ (zeroF : F) ||
      PyNum.ofRat c.spindleMax <ₚ (PyNum.ofRat q *ₚ PyNum.ofRat 1 : F)) = true := by
    rw [Bool.or_eq_true, PyOrd.lt_val, PyOrd.lt_val]
    exact hbad
  have hcmd : lineCmd g = .m3 := is_lineCmd ⟨_, List.mem_singleton_self _, hg⟩
  rcases hr : doCommand c env (some g) s with ⟨e | a, s'⟩
  · rcases fail_exec hr with rfl | ⟨d, r, v, hx⟩
    · exact ⟨e, rfl⟩
    · rw [hcmd] at hx
      simp only [execCmd, M.bind_get, get_word hq, M.bind_lift_ok, hb, if_true, M.bind_throw,
        Prod.mk.injEq] at hx
      exact ⟨e, by rw [hx.2]⟩
  · obtain ⟨d, r, v, s2, hx, rfl⟩ := ok_exec (cmd := .m3) ⟨_, List.mem_singleton_self _, hg⟩ hr
    simp only [execCmd, M.bind_get, get_word hq, M.bind_lift_ok, hb, if_true, M.bind_throw,
      Prod.mk.injEq, reduceCtorEq, false_and] at hx

/-! ## C22 -/

/-- **C22.** In every history every heater is started with a target between the minimum
temperature and the maximum of that heater. -/
theorem C22_targets_in_range [PyOrd F] (s : MState F) (hs : Reachable c env s) :
    Always (fun call _ => ∀ h t, call = .heaterStart h t →
      PyOrd.val (PyNum.ofRat c.minT : F) ≤ PyOrd.val t ∧
      PyOrd.val t ≤ PyOrd.val (PyNum.ofRat (maxTemp c h) : F)) s.trace := by
  refine reachable_always ?_ ?_ ?_ hs
  · intro call tr _ h h' t ht; exact absurd ht (h _ _)
  · intro v _ tr h t ht; cases ht
  · intro h t hr _ tr _ h' t' ht
    cases ht
    rw [Bool.or_eq_false_iff] at hr
    have h1 : ¬ ((PyNum.ofRat (heaterMax c h) <ₚ t) = true) := by rw [hr.1]; simp
    have h2 : ¬ ((t <ₚ PyNum.ofRat c.minT) = true) := by rw [hr.2]; simp
    rw [PyOrd.lt_val] at h1 h2
    refine ⟨not_lt.1 h2, ?_⟩
    have : heaterMax c h = maxTemp c h := by cases h <;> rfl
    rw [← this]
    exact not_lt.1 h1

/-- **C22.** A heater command without S or with an S that is neither 0 nor in the range is
rejected without effect (the sensor is not even read). -/
theorem C22_bad_temperature_rejected [PyOrd F] (g : GCode) (s : MState F) (h : HeaterId)
    (hg : IsOneOf g (heatWords h))
    (hbad : ∀ q, HasNum g 'S' q → ∀ t : F, t = PyNum.ofRat q *ₚ PyNum.ofRat 1 →
      PyOrd.val t ≠ PyOrd.val (PyNum.ofRat 0 : F) ∧
      (PyOrd.val t < PyOrd.val (PyNum.ofRat c.minT : F) ∨
       PyOrd.val (PyNum.ofRat (maxTemp c h) : F) < PyOrd.val t)) :
    ∃ e, doCommand c env (some g) s = (.error e, s) := by
  obtain ⟨w, hcmd⟩ := heatLine_ok hg
  have hrun : ∀ d r v, ∃ e, execCmd c env (.heat h w) g d r v s = (.error e, s) := by
    intro d r v
    simp only [execCmd, heatCommand]
    cases hS : g.has 'S'
    · exact ⟨_, rfl⟩
    · simp only [Bool.not_true, Bool.false_eq_true, if_false]
      rcases ht : g.get 'S' (zeroF : F) (PyNum.ofRat 1) with e | t
      · exact ⟨e, rfl⟩
      · rcases get_ok ht with ⟨q, hq, rfl⟩ | ⟨hn, _⟩
        · obtain ⟨h1, h2⟩ := hbad q hq _ rfl
          have hb : ((PyNum.ofRat (heaterMax c h) <ₚ (PyNum.ofRat q *ₚ PyNum.ofRat 1 : F) ||
              (PyNum.ofRat q *ₚ PyNum.ofRat 1 : F) <ₚ PyNum.ofRat c.minT) &&
              !((PyNum.ofRat q *ₚ PyNum.ofRat 1 : F) =ₚ zeroF)) = true := by
            have he : heaterMax c h = maxTemp c h := by cases h <;> rfl
            rw [Bool.and_eq_true, Bool.or_eq_true, PyOrd.lt_val, PyOrd.lt_val, he,
              Bool.not_eq_true', Bool.eq_false_iff, Ne, PyOrd.eq_val]
            exact ⟨h2.symm, h1⟩
          refine ⟨.gmachine "bad temperature", ?_⟩
          rw [M.bind_run, M.bind_lift_ok, if_pos hb]
          rfl
        · rw [GCode.has, GCode.lookup, hn] at hS
          cases hS
  rcases hr : doCommand c env (some g) s with ⟨e | a, s'⟩
  · rcases fail_exec hr with rfl | ⟨d, r, v, hx⟩
    · exact ⟨e, rfl⟩
    · rw [hcmd] at hx
      obtain ⟨e', he⟩ := hrun d r v
      rw [he, Prod.mk.injEq] at hx
      exact ⟨e, by rw [hx.2]⟩
  · rcases doCommand_cases (c := c) (env := env) g s with ⟨e, h1, _⟩ |
      ⟨d, v, r, _, hv, _, ⟨_, h1⟩ | ⟨hl, ⟨a, s2, hx', h1⟩ | ⟨e, s2, hx', h1⟩⟩⟩ <;>
      try (rw [hr] at h1; simp at h1; done)
    rw [hcmd] at hx'
    obtain ⟨e', he⟩ := hrun d r v
    rw [he] at hx'
    simp at hx'

/-- **C22.** `S0` stops the controller of the heater, if there is one, starts none, and nothing
else is changed. -/
theorem C22_zero_switches_off (g : GCode) (s s' : MState F) (h : HeaterId)
    (a : Option (Answer F)) (hg : IsOneOf g (heatWords h)) (q : Rat) (hq : HasNum g 'S' q)
    (hz : (PyNum.ofRat q *ₚ PyNum.ofRat 1 =ₚ (PyNum.ofRat 0 : F)) = true)
    (hr : doCommand c env (some g) s = (.ok a, s')) :
    s'.heater h = none ∧
    Calls s s' ((if (s.heater h).isSome then [.heaterStop h] else []) ++ [.measure h]) ∧
    s' = { s with vel := s'.vel, trace := s'.trace, heatE := s'.heatE, heatB := s'.heatB } ∧
    ∀ h', h' ≠ h → s'.heater h' = s.heater h' := by
  obtain ⟨w, hcmd⟩ := heatLine_ok hg
  rcases doCommand_cases (c := c) (env := env) g s with ⟨e, h1, _⟩ |
      ⟨d, v, r, _, hv, _, ⟨_, h1⟩ | ⟨hl, ⟨a, s2, hx, h1⟩ | ⟨e, s2, hx, h1⟩⟩⟩ <;> rw [hr] at h1 <;>
      simp only [Prod.mk.injEq, reduceCtorEq, false_and] at h1
  obtain ⟨_, rfl⟩ := h1
  rw [hcmd] at hx
  have hz' : (PyNum.ofRat q *ₚ PyNum.ofRat 1 =ₚ (zeroF : F)) = true := hz
  obtain ⟨⟨_, hx⟩, _⟩ := ret_ok hx
  simp only [heatCommand, has_word hq, Bool.not_true, Bool.false_eq_true, if_false,
    get_word hq, M.bind_lift_ok, hz', Bool.and_false] at hx
  rcases heat_cases (c := c) (env := env) h (PyNum.ofRat q *ₚ PyNum.ofRat 1) w s with ⟨_, h'⟩ |
    ⟨_, _, h'⟩ | ⟨_, h0, _⟩
  · rw [h'] at hx; simp at hx
  · rw [h'] at hx
    simp only [Prod.mk.injEq, true_and] at hx
    subst hx
    unfold heatStopped Calls
    cases hh : (s.heater h).isSome
    · have : s.heater h = none := by simpa using hh
      simp only [Bool.false_eq_true, if_false]
      cases h <;> exact ⟨this, by first | trivial | rfl, by first | trivial | rfl,
        fun h' _ => by cases h' <;> rfl⟩
    · simp only [if_true]
      cases h <;> refine ⟨rfl, rfl, rfl, fun h' hne => ?_⟩ <;> cases h' <;>
        first | rfl | exact absurd rfl hne
  · rw [hz'] at h0; cases h0

/-! ## C23, C24 -/

/-- The sensor answers when a controller has just been started (`Heater.__init__` reads it
after the start of the thread). -/
def AnswersAfterStart (env : Env F) : Prop :=
  ∀ h t tr, env.measure (.measure h :: .heaterStart h t :: tr) ≠ none

private theorem running_le_registered (s : MState F) (hs : Reachable c env s)
    (ha : AnswersAfterStart env) (h : HeaterId) :
    running h s.trace ≤ if (s.heater h).isSome then 1 else 0 := by
  have hj : ∀ (call : HalCall F), (∀ h t, call ≠ .heaterStart h t) →
      (∀ h, call ≠ .heaterStop h) → ∀ tr, running h (call :: tr) = running h tr := by
    intro call h1 h2 tr
    cases call <;> first | rfl | exact absurd rfl (h1 _ _) | exact absurd rfl (h2 _)
  have hc : ∀ call : HalCall F, (∀ h t, call ≠ .heaterStart h t) → (∀ h, call ≠ .heaterStop h) →
      ClosedCall (fun s => running h s.trace ≤ if (s.heater h).isSome then 1 else 0) call := by
    intro call h1 h2 s hs
    have := hj call h1 h2 s.trace
    dsimp only at hs ⊢
    rw [this]
    cases h <;> exact hs
  have hm : ∀ g, ClosedCall (fun s => running h s.trace ≤ if (s.heater h).isSome then 1 else 0)
      (.move g) := fun _ => hc _ (by simp) (by simp)
  have hf : ∀ b, M.Pres (fun s => running h s.trace ≤ if (s.heater h).isSome then 1 else 0)
      (fan b) := fun b => fan_pres fun s h' => by
    have := hc (.fan b) (by simp) (by simp) s h'
    cases h <;> exact this
  have hsp : ∀ v, M.Pres (fun s => running h s.trace ≤ if (s.heater h).isSome then 1 else 0)
      (spindle c v) := fun v => spindle_pres (hc _ (by simp) (by simp)) (hc _ (by simp) (by simp))
  refine reachable_inv (P := fun s => running h s.trace ≤ if (s.heater h).isSome then 1 else 0)
    ?_ ?_ ?_ ?_ ?_ ?_ hs
  · exact Nat.zero_le _
  · intro g
    refine doCommand_pres (fun _ _ h' => by cases h <;> exact h') fun d r v => ?_
    cases hcmd : lineCmd g with
    | heat h' w =>
      unfold execCmd heatCommand
      pres
      rename_i t ht
      intro s hs
      change running h (heat c env h' t w s).2.trace ≤
        if ((heat c env h' t w s).2.heater h).isSome then 1 else 0
      replace hs : running h s.trace ≤ if (s.heater h).isSome then 1 else 0 := hs
      -- after the stop
      have h1 : (heatStopped h' s).heater h = if h' = h then none else s.heater h := by
        unfold heatStopped
        by_cases hh : h' = h
        · subst hh
          cases hi : (s.heater h').isSome
          · have : s.heater h' = none := by simpa using hi
            cases h' <;> simpa [MState.heater] using this
          · cases h' <;> simp [MState.heater, MState.setHeater]
        · split <;> cases h <;> cases h' <;>
            simp [MState.heater, MState.setHeater] at hh ⊢
      have h2 : running h (heatStopped h' s).trace ≤
          if ((heatStopped h' s).heater h).isSome then 1 else 0 := by
        rw [heatStopped_trace, h1]
        by_cases hh : h' = h
        · subst hh
          cases hi : (s.heater h').isSome <;> rw [hi] at hs <;> simp at hs <;>
            simp [running] <;> omega
        · simp only [hh, if_false]
          split <;> simp [running, hh] <;> exact hs
      have h3 : (heatFan c h' (heatStopped h' s)).heater h = (heatStopped h' s).heater h := by
        unfold heatFan
        split <;> cases h <;> rfl
      have h4 : running h (heatFan c h' (heatStopped h' s)).trace =
          running h (heatStopped h' s).trace := by
        rw [heatFan_trace]; split <;> rfl
      have h5 : running h (((heatFan c h' (heatStopped h' s)).call (.heaterStart h' t)).call
          (.measure h')).trace ≤ if h' = h then 1 else if (s.heater h).isSome then 1 else 0 := by
        simp only [running]
        rw [h4]
        rw [h1] at h2
        by_cases hh : h' = h <;> simp [hh] at h2 ⊢ <;> omega
      have h6 : ∀ (s2 : MState F) (o : F), ((s2.setHeater h' (some o)).heater h) =
          if h' = h then some o else s2.heater h := by
        intro s2 o
        cases h' <;> cases h <;> simp [MState.heater, MState.setHeater]
      have h7 : ∀ (s2 : MState F) (call : HalCall F), (s2.call call).heater h = s2.heater h := by
        intro s2 call; cases h <;> rfl
      have h8 : ((((heatFan c h' (heatStopped h' s)).call (.heaterStart h' t)).call
          (.measure h')).setHeater h' (some t)).heater h = if h' = h then some t else s.heater h := by
        rw [h6, h7, h7, h3, h1]
        split <;> simp_all
      rcases heat_cases (c := c) (env := env) h' t w s with ⟨_, h'⟩ | ⟨_, _, h'⟩ |
        ⟨_, hz, s2, hs2, ⟨he, h'⟩ | ⟨_, ⟨_, h'⟩ | ⟨_, ⟨e', he, h'⟩ | ⟨_, h'⟩⟩⟩⟩ <;> rw [h']
      · exact hc _ (by simp) (by simp) s hs
      · exact h2
      · rw [hs2] at he
        exact absurd he (ha _ _ _)
      · subst hs2
        dsimp only
        rw [setHeater_trace, h8]
        refine h5.trans ?_
        split <;> simp
      · subst hs2
        dsimp only [running]
        rw [setHeater_trace, h7, h8]
        refine h5.trans ?_
        split <;> simp
      · subst hs2
        dsimp only [running]
        rw [setHeater_trace, h7, h8]
        refine h5.trans ?_
        split <;> simp
    | _ =>
      unfold execCmd
      pres
      all_goals first
        | exact moveLinear_pres (fun _ _ h' => by cases h <;> exact h') hm
        | exact moveCircular_pres (fun _ _ h' => by cases h <;> exact h') hm
        | exact home_pres (fun _ _ h' => by cases h <;> exact h') hm (hc _ (by simp) (by simp))
            (fun _ _ _ => hc _ (by simp) (by simp))
        | exact setLocal_pres (fun _ _ h' => by cases h <;> exact h')
        | exact hf _
        | exact measure_pres (hc _ (by simp) (by simp))
        | exact hsp _
        | exact M.Pres.modify fun _ h' => by cases h <;> exact h'
        | exact M.Pres.emit (hc _ (by simp) (by simp))
  · exact fun s h' => by cases h <;> exact h'
  · exact fun _ _ _ => safeZero_pres (fun _ _ h' => by cases h <;> exact h') hm
  · exact position_pres (hc _ (by simp) (by simp))
  · refine release_pres (hsp _) ?_ (fun s h' => ?_) (hc _ (by simp) (by simp))
    · intro h' s hs
      dsimp only at hs ⊢
      have : running h (.heaterStop h' :: s.trace) ≤ running h s.trace := by
        simp only [running]
        split <;> omega
      refine this.trans ?_
      cases h <;> exact hs
    · have := hc (.fan false) (by simp) (by simp) s h'
      cases h <;> exact this

/-- **C23 (partial).** If the sensor answers right after each start of a controller, there is
in every history at most one running controller per heater, and a controller is running only
if it is registered in the machine.  Missing: without the hypothesis the property is false, see
`C23_refuted`. -/
theorem C23_one_controller_partial (s : MState F) (hs : Reachable c env s)
    (ha : AnswersAfterStart env) (h : HeaterId) :
    running h s.trace ≤ 1 ∧ (s.heater h = none → running h s.trace = 0) := by
  have := running_le_registered c env s hs ha h
  constructor
  · refine this.trans ?_
    split <;> simp
  · intro hn
    rw [hn] at this
    simpa using this

private theorem running_stops (h : HeaterId) (stops : List HeaterId) (tr : List (HalCall F))
    (hn : stops.Nodup) : running h (stops.map HalCall.heaterStop ++ tr) =
      if h ∈ stops then running h tr - 1 else running h tr := by
  induction stops with
  | nil => simp
  | cons h' l ih =>
    rw [List.nodup_cons] at hn
    simp only [List.map_cons, List.cons_append, running, ih hn.2, List.mem_cons]
    by_cases hh : h' = h
    · subst hh
      simp [hn.1]
    · simp [hh, Ne.symm hh]

/-- **C24 (partial).** `release()` never fails; afterwards the last spindle value is
`100 * 0 / SPINDLE_MAX_RPM`, the fan is off, the last call is `hal.deinit()` and, if the sensor
answered right after each start of a controller, no controller of a heater is running.
Missing: without the last hypothesis a controller can survive, see `C24_refuted`. -/
theorem C24_release_partial (s : MState F) (hs : Reachable c env s) :
    ∃ s', release c s = (.ok (), s') ∧ s'.trace.head? = some .deinit ∧
      lastSpindle s'.trace =
        some (PyNum.ofRat 100 *ₚ PyNum.ofRat 0 /ₚ PyNum.ofRat c.spindleMax) ∧
      lastFan s'.trace = false ∧ s'.fan = false ∧
      (AnswersAfterStart env → ∀ h, running h s'.trace = 0) := by
  obtain ⟨stops, hr, hnd, hst⟩ := release_run (c := c) s
  refine ⟨_, hr, rfl, ?_, rfl, rfl, ?_⟩
  · have : ∀ l : List HeaterId, ∀ p tr, lastSpindle (l.map HalCall.heaterStop ++
        HalCall.spindle p :: tr) = some (p : F) := by
      intro l p tr
      induction l with
      | nil => rfl
      | cons h l ih => exact ih
    exact this _ _ _
  · intro ha h
    have := running_le_registered c env s hs ha h
    change running h (stops.map HalCall.heaterStop ++ _) = 0
    rw [running_stops h stops _ hnd]
    have hr' : running h (.spindle (PyNum.ofRat 100 *ₚ zeroF /ₚ PyNum.ofRat c.spindleMax) ::
      .join :: s.trace) = running h s.trace := rfl
    rw [hr']
    cases hi : (s.heater h).isSome <;> rw [hi] at this <;> simp at this <;>
      simp [hst, hi] <;> omega

end any

section exact

variable [PyRound] (c : Cfg) (env : Env ℝ)

/-- **C21.** Every value ever passed to `hal.spindle_control` is between 0 and 100 and the
call right before it waited for the motors. -/
theorem C21_power_in_range (hmax : 0 < c.spindleMax) (s : MState ℝ) (hs : Reachable c env s) :
    Always (fun call earlier => ∀ p, call = .spindle p →
      0 ≤ p ∧ p ≤ 100 ∧ earlier.head? = some .join) s.trace := by
  have hm : (0 : ℝ) < c.spindleMax := by exact_mod_cast hmax
  refine reachable_always ?_ ?_ ?_ hs
  · intro call tr h _ p hp; exact absurd hp (h _)
  · intro v hv tr p hp
    cases hp
    have hv' : 0 ≤ v ∧ v ≤ c.spindleMax := by
      rcases hv with rfl | hv
      · simp only [zeroF, ofRat_eq, Rat.cast_zero, le_refl, true_and]
        exact hm.le
      · simpa [zeroF] using hv
    simp only [ofRat_eq, mul_eq, div_eq]
    refine ⟨by push_cast; positivity [hv'.1], ?_, rfl⟩
    rw [div_le_iff₀ hm]
    push_cast
    linarith [hv'.2]
  · intro h t _ _ tr _ p hp; cases hp

/-- The line `M104 S100`. -/
def heatLine : GCode := ⟨[('M', "104".toList), ('S', "100".toList)]⟩

/-- A sensor that fails once, at its second reading. -/
def flaky : Env ℝ where
  measure tr := if tr.length = 6 then none else some 20
  move _ := none
  calibrate _ := true
  wait _ := none

private theorem heatLine_run (s : MState ℝ) (hv : s.vel = 600) :
    (doCommand Cfg.default env (some heatLine) s).2 =
      { (heat Cfg.default env .extruder (100 : ℝ) false s).2 with vel := 600 } := by
  obtain ⟨d, r, h⟩ := plain_run (c := Cfg.default) (env := env) (g := heatLine) (s := s)
    (by decide) (by rw [hv]; simp [Cfg.default])
  have hcmd : lineCmd heatLine = .heat .extruder false := rfl
  have hS : HasNum heatLine 'S' 100 := ⟨_, rfl, by decide +kernel⟩
  have hx : execCmd Cfg.default env (.heat .extruder false) heatLine d r s.vel s =
      (do heat Cfg.default env .extruder (100 : ℝ) false; return none) s := by
    simp only [execCmd, heatCommand, has_word hS, Bool.not_true, Bool.false_eq_true, if_false,
      get_word hS]
    have : ((PyNum.ofRat (heaterMax Cfg.default .extruder) <ₚ
        (PyNum.ofRat 100 *ₚ PyNum.ofRat 1 : ℝ) ||
        (PyNum.ofRat 100 *ₚ PyNum.ofRat 1 : ℝ) <ₚ PyNum.ofRat Cfg.default.minT)) = false := by
      simp [heaterMax, Cfg.default]; norm_num
    rw [M.bind_run, M.bind_lift_ok, this]
    simp only [Bool.false_and, Bool.false_eq_true, if_false, ofRat_eq, mul_eq]
    norm_num
    rfl
  rw [h, hcmd]
  rcases hr : heat Cfg.default env .extruder (100 : ℝ) false s with ⟨e | _, s'⟩
  · have hve : s'.vel = 600 := by
      have := heat_pres (P := fun t : MState ℝ => t.vel = 600) (c := Cfg.default) (env := env)
        (h := .extruder) (t := 100) (w := false) (fun _ h => h) (fun _ h => h) (fun _ h => h)
        (fun _ h => h) (fun _ _ h => h) (fun _ h => h) s hv
      rw [hr] at this
      exact this
    rw [M.bind_error (by rw [hx]; exact M.bind_error hr)]
    dsimp only
    rw [← hve]
  · rw [M.bind_ok (by rw [hx]; exact M.bind_ok hr)]
    simp [hv]

/-- State after the first `M104 S100` with the flaky sensor: the thread runs, but the machine
does not know it. -/
private theorem flaky_first :
    ∃ s : MState ℝ, Reachable Cfg.default flaky s ∧ s.vel = 600 ∧ s.heatE = none ∧
      s.trace = [.measure .extruder, .heaterStart .extruder 100, .fan true, .measure .extruder,
        .watchdog, .init] := by
  refine ⟨_, .step (.cmd (some heatLine)) .init, ?_⟩
  have hv : (MState.init Cfg.default : MState ℝ).vel = 600 := by
    simp only [MState.init, minMaxVel, Cfg.default, pmin_eq, ofRat_eq]
    norm_num
  change (doCommand Cfg.default flaky (some heatLine) (MState.init Cfg.default)).2.vel = _ ∧
    (doCommand Cfg.default flaky (some heatLine) (MState.init Cfg.default)).2.heatE = _ ∧
    (doCommand Cfg.default flaky (some heatLine) (MState.init Cfg.default)).2.trace = _
  rw [heatLine_run _ _ hv]
  rcases heat_cases (c := Cfg.default) (env := flaky) .extruder (100 : ℝ) false
    (MState.init Cfg.default) with ⟨h1, _⟩ | ⟨_, h1, _⟩ | ⟨_, _, s2, rfl, ⟨_, h'⟩ | ⟨h1, _⟩⟩
  · simp [flaky, MState.init] at h1
  · simp [zeroF] at h1
  · rw [h']
    exact ⟨rfl, rfl, rfl⟩
  · exact absurd rfl h1

/-- **C23 is false of the code.** When the temperature sensor fails right after the start of the
controller thread, the next `M104` starts a second controller for the same heater. -/
theorem C23_refuted : ∃ (env : Env ℝ) (s : MState ℝ), Reachable Cfg.default env s ∧
    running .extruder s.trace = 2 := by
  obtain ⟨s, hs, hv, hh, ht⟩ := flaky_first
  refine ⟨flaky, _, .step (.cmd (some heatLine)) hs, ?_⟩
  change running .extruder (doCommand Cfg.default flaky (some heatLine) s).2.trace = _
  rw [heatLine_run _ _ hv]
  have hst : heatStopped .extruder s = s.call (.measure .extruder) := by
    unfold heatStopped MState.heater
    rw [hh]; rfl
  rcases heat_cases (c := Cfg.default) (env := flaky) .extruder (100 : ℝ) false s with ⟨h1, _⟩ |
    ⟨_, h1, _⟩ | ⟨_, _, s2, rfl, ⟨h1, _⟩ | ⟨_, ⟨_, h'⟩ | ⟨h1, _⟩⟩⟩
  · simp [flaky, ht] at h1
  · simp [zeroF] at h1
  · rw [hst] at h1
    simp [flaky, ht, heatFan_trace, Cfg.default] at h1
  · rw [h', hst]
    simp only [setHeater_trace, running, heatFan_trace, ht]
    simp [Cfg.default, running]
  · cases h1

/-- **C24 is false of the code.** When the temperature sensor fails right after the start of the
controller thread, `release()` leaves that controller running. -/
theorem C24_refuted : ∃ (env : Env ℝ) (s s' : MState ℝ), Reachable Cfg.default env s ∧
    release Cfg.default s = (.ok (), s') ∧ running .extruder s'.trace = 1 := by
  obtain ⟨s, hs, hv, hh, ht⟩ := flaky_first
  obtain ⟨stops, hr, hnd, hst⟩ := release_run (c := Cfg.default) s
  refine ⟨flaky, s, _, hs, hr, ?_⟩
  change running .extruder (stops.map HalCall.heaterStop ++ _) = 1
  rw [running_stops _ stops _ hnd]
  have : HeaterId.extruder ∉ stops := by
    rw [hst]; simp [MState.heater, hh]
  rw [if_neg this]
  simp [running, ht]

/-! ## Examples -/

/-- The default configuration meets the hypotheses of C18 and C21. -/
example : (∀ ax, PyOrd.val (PyNum.ofRat Cfg.default.minVel : ℝ) ≤
      PyOrd.val (PyNum.ofRat (Cfg.default.maxVel.get ax) : ℝ)) ∧ 0 < Cfg.default.spindleMax := by
  constructor
  · intro ax
    change ((Cfg.default.minVel : ℚ) : ℝ) ≤ ((Cfg.default.maxVel.get ax : ℚ) : ℝ)
    cases ax <;> simp only [Cfg.default, V4.get] <;> norm_num
  · simp only [Cfg.default]; norm_num

/-- A working sensor meets the hypothesis of C23 and C24. -/
example : AnswersAfterStart (F := ℝ) ⟨fun _ => some 20, fun _ => none, fun _ => true, fun _ => none⟩ :=
  fun _ _ _ => by simp

/-- A reachable state with a running extruder heater, started after the fan (C22, C23, C26). -/
example : ∃ (env : Env ℝ) (s : MState ℝ), Reachable Cfg.default env s ∧
    running .extruder s.trace = 1 ∧ lastFan s.trace = true := by
  obtain ⟨s, hs, _, _, ht⟩ := flaky_first
  exact ⟨flaky, s, hs, by simp [ht, running], by simp [ht, lastFan]⟩

/-- `M3 S20000` is rejected by the default configuration (C21). -/
example : Is ⟨[('M', "3".toList), ('S', "20000".toList)]⟩ 'M' "3" ∧
    HasNum ⟨[('M', "3".toList), ('S', "20000".toList)]⟩ 'S' 20000 ∧
    PyOrd.val (PyNum.ofRat Cfg.default.spindleMax : ℝ) <
      PyOrd.val (PyNum.ofRat 20000 *ₚ PyNum.ofRat 1 : ℝ) := by
  refine ⟨by unfold Is; decide, ⟨_, rfl, by decide +kernel⟩, ?_⟩
  change ((Cfg.default.spindleMax : ℚ) : ℝ) < (20000 : ℚ) * (1 : ℚ)
  simp only [Cfg.default]; norm_num

/-- `M104 S30` and `M104` are rejected by the default configuration (C22). -/
example : ∀ q, HasNum ⟨[('M', "104".toList), ('S', "30".toList)]⟩ 'S' q →
    ∀ t : ℝ, t = PyNum.ofRat q *ₚ PyNum.ofRat 1 →
      PyOrd.val t ≠ PyOrd.val (PyNum.ofRat 0 : ℝ) ∧
      (PyOrd.val t < PyOrd.val (PyNum.ofRat Cfg.default.minT : ℝ) ∨
       PyOrd.val (PyNum.ofRat (maxTemp Cfg.default .extruder) : ℝ) < PyOrd.val t) := by
  intro q hq t ht
  have h30 : HasNum ⟨[('M', "104".toList), ('S', "30".toList)]⟩ 'S' 30 :=
    ⟨_, rfl, by decide +kernel⟩
  rw [hasNum_unique hq h30] at ht
  subst ht
  change ((30 : ℚ) : ℝ) * (1 : ℚ) ≠ ((0 : ℚ) : ℝ) ∧ (((30 : ℚ) : ℝ) * (1 : ℚ) <
    ((Cfg.default.minT : ℚ) : ℝ) ∨ _)
  simp only [Cfg.default]
  norm_num

end exact

end PyCNC.Props
