import Verif.Lemmas.Heater
import Verif.Lemmas.Rounding

/-!
# The PID controller and the heater thread
-/

namespace PyCNC.Props

open PyCNC Spec

section Exact

variable [PyRound]

/-- **C38.** Whatever the coefficients, the measurements and the time stamps are (also when the
clock goes backwards): every output of the controller is in 0..1, and with a positive integral
coefficient the integral never exceeds `1 / I`.  Exact arithmetic. -/
theorem C38_exact {target start : ℝ} {k : PidCoef} {pid : Pid ℝ}
    (hnew : Pid.new target k start = .ok pid) (us : List (ℝ × ℝ)) :
    (∀ r ∈ (pid.updates us).1, 0 ≤ r ∧ r ≤ 1) ∧
      (0 < k.i → |(pid.updates us).2.integral| ≤ 1 / (k.i : ℝ)) := by
  refine ⟨updates_out pid us, fun hk => ?_⟩
  obtain ⟨-, -, -, h4, h5⟩ := new_fresh hnew
  have hk' : (0 : ℝ) < (k.i : ℝ) := by exact_mod_cast hk
  have e : pid.windup = 1 / (k.i : ℝ) := by
    rw [h5]; simp only [ofRat_eq, Rat.cast_one]; rfl
  rw [← e]
  refine updates_integral pid us (by rw [e]; positivity) ?_
  rw [h4, e]
  simp only [ofRat_eq, Rat.cast_zero, abs_zero]
  positivity

/-- The same controller in binary64. -/
theorem C38_binary64 {target start : F64} {k : PidCoef} {pid : Pid F64}
    (hnew : Pid.new target k start = .ok pid) (us : List (F64 × F64)) :
    (∀ r ∈ (pid.updates us).1, 0 ≤ r.1 ∧ r.1 ≤ 1) ∧
      (0 < k.i → |(pid.updates us).2.integral.1| ≤ fl (1 / fl (k.i : ℝ))) := by
  refine ⟨updates_out_binary64 pid us, fun hk => ?_⟩
  obtain ⟨-, -, -, h4, h5⟩ := new_fresh hnew
  have hk' : (0 : ℝ) < (k.i : ℝ) := by exact_mod_cast hk
  have e : pid.windup.1 = fl (1 / fl (k.i : ℝ)) := by
    rw [h5]
    change fl (fl ((1 : ℚ) : ℝ) / fl (k.i : ℝ)) = _
    rw [Rat.cast_one]
    have : fl (1 : ℝ) = 1 := by simpa using fl_int 1 (by norm_num)
    rw [this]
  have h0 : 0 ≤ fl (1 / fl (k.i : ℝ)) := by
    refine le_fl_of_le fl_zero (div_nonneg zero_le_one (le_fl_of_le fl_zero hk'.le))
  rw [← e]
  refine updates_integral_binary64 pid us (by rw [e]; exact h0) ?_
  rw [h4, e]
  change |fl ((0 : ℚ) : ℝ)| ≤ _
  rw [Rat.cast_zero, fl_zero, abs_zero]
  exact h0

/-- The coefficients of the extruder in `config.py`. -/
example : ∃ pid, Pid.new (230 : ℝ) ⟨0.1, 0.0274, 0.2055⟩ 0 = .ok pid := by
  unfold Pid.new pdiv
  rw [if_neg (by simp only [eq_iff, ofRat_eq]; norm_num)]
  exact ⟨_, rfl⟩

omit [PyRound] in
/-- **C39.** `is_fixed()` becomes true only when there has been a period longer than 2.5 s of
updates which were all within one percent of the target and below full power; once true it stays
true.  Any arithmetic, any clock. -/
theorem C39_fixed {F : Type} [PyNum F] {target start : F} {k : PidCoef} {pid : Pid F}
    (hnew : Pid.new target k start = .ok pid) (us vs : List (F × F)) :
    ((pid.updates us).2.fixed = true → HeldTarget target (history pid us)) ∧
      ((pid.updates us).2.fixed = true → (pid.updates (us ++ vs)).2.fixed = true) := by
  obtain ⟨h1, h2, h3, -, -⟩ := new_fresh hnew
  refine ⟨fun h => ?_, fun h => ?_⟩
  · rw [← h3]; exact (fixed_inv pid h1 h2 us).1 h
  · rw [updates_append]; exact fixed_stays _ vs h

/-- In exact arithmetic with a clock that does not go backwards this is an equivalence: the
controller also does notice every such period. -/
theorem C39_fixed_iff {target start : ℝ} {k : PidCoef} {pid : Pid ℝ}
    (hnew : Pid.new target k start = .ok pid) (us : List (ℝ × ℝ))
    (hclock : us.Pairwise fun a b => a.2 ≤ b.2) :
    (pid.updates us).2.fixed = true ↔ HeldTarget target (history pid us) := by
  refine ⟨(C39_fixed hnew us []).1, fun h => ?_⟩
  obtain ⟨-, h2, h3, -, -⟩ := new_fresh hnew
  refine fixed_complete pid h2 us hclock ?_
  rw [h3]; exact h

/-- A controller on target for three seconds. -/
def onTargetPid : Pid ℝ :=
  { lastTime := 0, target := 100, p := 0, i := 1, d := 0, windup := 1, integral := 0,
    lastError := 0, fixed := false, timer := none }

theorem onTargetPid_new : Pid.new (100 : ℝ) ⟨0, 1, 0⟩ 0 = .ok onTargetPid := by
  unfold Pid.new pdiv
  rw [if_neg (by simp only [eq_iff, ofRat_eq]; norm_num)]
  simp only [ofRat_eq, Rat.cast_one, Rat.cast_zero]
  change Except.ok _ = Except.ok _
  congr 1
  simp only [onTargetPid, Pid.mk.injEq, true_and, and_true]
  change (1 : ℝ) / 1 = 1
  norm_num

theorem onTargetPid_fixed : (onTargetPid.updates [(100, 0), (100, 3)]).2.fixed = true := by
  simp [onTargetPid, Pid.updates, Pid.update, Pid.fix, clampOutput, clampIntegral, fixAccuracy,
    fixTime, lt_iff, ofRat_eq, sub_eq, mul_eq, add_eq, abs_eq]
  norm_num

example : ∃ pid : Pid ℝ, Pid.new 100 ⟨0, 1, 0⟩ 0 = .ok pid ∧
    (pid.updates [(100, 0), (100, 3)]).2.fixed = true ∧
    [((100 : ℝ), (0 : ℝ)), (100, 3)].Pairwise fun a b => a.2 ≤ b.2 :=
  ⟨_, onTargetPid_new, onTargetPid_fixed, by simp⟩

end Exact

/-! ### The threads -/

section Threads

variable {F : Type} [PyNum F] {pid : Pid F}

/-- **C40.** After `stop()` has returned (its return is in the log, `newer` are the events since):
the worker never calls the control method or the sensor again; nobody does unless `stop()` is called
again, and then only with 0; and the newest call before the return was `control(0)`.  Every schedule,
every sensor, every clock, any arithmetic. -/
theorem C40_off_after_stop {s : HeaterState F} (h : HeaterReach pid s)
    {newer older : List (HeaterEvent F)} (hlog : s.log = newer ++ .stopReturned :: older) :
    (∀ p, .workerControl p ∉ newer) ∧ (∀ t, .measured t ∉ newer) ∧
      (.stopCalled ∉ newer → ∀ ev ∈ newer, ¬ AnyControl ev) ∧
      (∀ ev ∈ newer, ∀ p, IsControl p ev → p = PyNum.ofRat 0) ∧
      ∃ l₁ l₂ ev, older = l₁ ++ ev :: l₂ ∧ IsControl (PyNum.ofRat 0) ev ∧
        ∀ e ∈ l₁, ¬ AnyControl e := by
  obtain ⟨-, h2, h3, h4, h5, h6⟩ := (stopInv_reach h).log newer older hlog
  exact ⟨h2, h3, fun hn => (h4 hn).1, h5, h6⟩

/-- The state after a cycle of the worker with temperature `t` at time `now`, up to its `sleep`. -/
def cycleState (pid : Pid F) (t now : F) : HeaterState F :=
  { locked := false, isRun := true, pid := (pid.update t now).2,
    power := (pid.update t now).1 *ₚ PyNum.ofRat 100, lastError := none,
    worker := .sleep, caller := .idle,
    log := [.workerControl ((pid.update t now).1 *ₚ PyNum.ofRat 100), .measured (some t)] }

theorem cycle_reach (pid : Pid F) (t now : F) : HeaterReach pid (cycleState pid t now) :=
  HeaterReach.init
    |>.step (.inl (.acquire rfl rfl)) |>.step (.inl (.checkRun rfl rfl))
    |>.step (.inl (.measured t rfl)) |>.step (.inl (.update t now rfl))
    |>.step (.inl (.control rfl)) |>.step (.inl (.release rfl))

/-- The state when after that cycle `stop()` has been called and has returned. -/
def stoppedState (pid : Pid F) (t now : F) : HeaterState F :=
  { cycleState pid t now with
    isRun := false,
    log := .stopReturned :: .callerControl (PyNum.ofRat 0) :: .stopCalled ::
      (cycleState pid t now).log }

theorem stopped_reach (pid : Pid F) (t now : F) : HeaterReach pid (stoppedState pid t now) :=
  (cycle_reach pid t now)
    |>.step (.inr (.stop rfl)) |>.step (.inr (.stopAcquire rfl rfl)) |>.step (.inr (.stopFlag rfl))
    |>.step (.inr (.stopRelease rfl)) |>.step (.inr (.stopControl rfl))
    |>.step (.inr (.stopReturn rfl))

/-- A heater that has heated and has been stopped. -/
example (pid : Pid F) (t now : F) : ∃ s, HeaterReach pid s ∧
    s.log = [] ++ .stopReturned :: .callerControl (PyNum.ofRat 0) :: .stopCalled ::
      (cycleState pid t now).log :=
  ⟨_, stopped_reach pid t now, rfl⟩

/-- **C41**, what is true: if the sensor never fails and threads keep running (`Fair`), the first
`stop()` returns.  Missing: sensor faults, and calls of `stop()` after the first. -/
theorem C41_stop_returns_partial {σ : ℕ → HeaterState F} (hrun : HeaterRun pid σ) (hfair : Fair σ)
    (hsensor : ∀ n, .measured none ∉ (σ n).log) {n : ℕ} (hcalled : (σ n).caller = .stopAcquire)
    (_hfirst : .stopReturned ∉ (σ n).log) : ∃ m ≥ n, .stopReturned ∈ (σ m).log :=
  stop_returns hrun hfair hsensor hcalled

/-- A short run: `stop()` is called at once, then the worker leaves its loop. -/
def quickStop (pid : Pid F) : ℕ → HeaterState F
  | 0 => .init pid
  | 1 => { HeaterState.init pid with caller := .stopAcquire, log := [.stopCalled] }
  | 2 => { HeaterState.init pid with caller := .stopFlag, log := [.stopCalled], locked := true }
  | 3 => { HeaterState.init pid with
            caller := .stopRelease, log := [.stopCalled], locked := true, isRun := false }
  | 4 => { HeaterState.init pid with caller := .stopControl, log := [.stopCalled], isRun := false }
  | 5 => { HeaterState.init pid with
            caller := .stopReturn, isRun := false,
            log := [.callerControl (PyNum.ofRat 0), .stopCalled] }
  | 6 => { HeaterState.init pid with
            isRun := false, log := [.stopReturned, .callerControl (PyNum.ofRat 0), .stopCalled] }
  | 7 => { HeaterState.init pid with
            isRun := false, locked := true, worker := .check,
            log := [.stopReturned, .callerControl (PyNum.ofRat 0), .stopCalled] }
  | _ => { HeaterState.init pid with
            isRun := false, locked := true, worker := .exited,
            log := [.stopReturned, .callerControl (PyNum.ofRat 0), .stopCalled] }

example (pid : Pid F) : HeaterRun pid (quickStop pid) ∧ Fair (quickStop pid) ∧
    (∀ n, .measured none ∉ (quickStop pid n).log) ∧
    (quickStop pid 1).caller = .stopAcquire ∧ .stopReturned ∉ (quickStop pid 1).log := by
  have hend : ∀ n, 8 ≤ n → quickStop pid n = quickStop pid 8 := by
    intro n hn
    obtain ⟨k, rfl⟩ := Nat.exists_eq_add_of_le' hn
    rfl
  refine ⟨⟨rfl, fun n => ?_⟩, ⟨fun n => ⟨n + 8, by omega, .inr ?_⟩, fun h => ?_⟩, fun n => ?_, rfl, ?_⟩
  · match n with
    | 0 => exact .inl (.inr (.stop rfl))
    | 1 => exact .inl (.inr (.stopAcquire rfl rfl))
    | 2 => exact .inl (.inr (.stopFlag rfl))
    | 3 => exact .inl (.inr (.stopRelease rfl))
    | 4 => exact .inl (.inr (.stopControl rfl))
    | 5 => exact .inl (.inr (.stopReturn rfl))
    | 6 => exact .inl (.inl (.acquire rfl rfl))
    | 7 => exact .inl (.inl (.checkStop rfl rfl))
    | n + 8 => exact .inr rfl
  · rintro ⟨s', hs⟩
    rw [hend _ (by omega)] at hs
    cases hs <;> simp_all [quickStop]
  · obtain ⟨m, hm, hin, -⟩ := h 8
    rw [hend m hm] at hin
    exact absurd rfl hin.1
  · match n with
    | 0 | 1 | 2 | 3 | 4 | 5 | 6 | 7 | n + 8 => simp [quickStop, HeaterState.init]
  · simp [quickStop]

/-- The state when the first measurement has failed at time `now` and `stop()` has been called. -/
def faultState (pid : Pid F) (now : F) : HeaterState F :=
  { locked := true, isRun := true, pid := pid, power := PyNum.ofRat 0, lastError := some now,
    worker := .acquire, caller := .stopAcquire,
    log := [.stopCalled, .workerControl (PyNum.ofRat 0), .measured none] }

theorem fault_reach (pid : Pid F) (now : F) : HeaterReach pid (faultState pid now) :=
  HeaterReach.init
    |>.step (.inl (.acquire rfl rfl)) |>.step (.inl (.checkRun rfl rfl))
    |>.step (.inl (.measureFailed rfl)) |>.step (.inl (.failedControl rfl))
    |>.step (.inl (.failedFirst now rfl rfl)) |>.step (.inr (.stop rfl))

/-- **C41**, refuted: after one failed measurement the worker has gone back to `acquire` without
releasing the lock; no thread can make a step, `stop()` never returns. -/
theorem C41_refuted (pid : Pid F) (now : F) :
    ∃ s, HeaterReach pid s ∧ s.caller = .stopAcquire ∧
      ∀ s', Relation.ReflTransGen HeaterStep s s' → s' = s ∧ .stopReturned ∉ s'.log :=
  ⟨_, fault_reach pid now, rfl, fun s' h => by
    have := stuck_forever (s₀ := faultState pid now) rfl rfl (.inl rfl) h
    exact ⟨this, by rw [this]; simp [faultState]⟩⟩

/-- **C41**, refuted also without sensor faults: the worker leaves its loop with the lock held, so
that a second `stop()` (as in `GMachine.release()` called twice) never returns. -/
theorem C41_second_stop_refuted (pid : Pid F) (t now : F) :
    ∃ s, HeaterReach pid s ∧ .measured none ∉ s.log ∧ s.caller = .stopAcquire ∧
      ∀ s', Relation.ReflTransGen HeaterStep s s' → s' = s := by
  refine ⟨_, (stopped_reach pid t now) |>.step (.inl (.sleep rfl)) |>.step (.inl (.acquire rfl rfl))
    |>.step (.inl (.checkStop rfl rfl)) |>.step (.inr (.stop rfl)), ?_, rfl, fun s' h => ?_⟩
  · simp [stoppedState, cycleState]
  · exact stuck_forever rfl rfl (.inr rfl) h

/-- **C42**, first half: when a measurement has failed (`newer` are the events since), every later
call of the control method is `control(0)`, and if the worker has not made that call yet, it is what
it does next.  Heating in fact never resumes: the sensor is never asked again.  The second half, the
critical log entry and the end of the thread after the timeout, is false. -/
theorem C42_off_partial {s : HeaterState F} (h : HeaterReach pid s)
    {newer older : List (HeaterEvent F)} (hlog : s.log = newer ++ .measured none :: older) :
    (∀ ev ∈ newer, ∀ p, IsControl p ev → p = PyNum.ofRat 0) ∧ (∀ t, .measured t ∉ newer) ∧
      (.workerControl (PyNum.ofRat 0) ∈ newer ∨ ∀ s', WorkerStep s s' →
        s'.log = .workerControl (PyNum.ofRat 0) :: s.log) := by
  obtain ⟨h1, h2, h3⟩ := (faultInv_reach h).since newer older hlog
  refine ⟨h1, h2, ?_⟩
  rcases h3 with ⟨h3, -⟩ | ⟨-, h3⟩
  · right
    intro s' hs
    cases hs <;> simp_all
  · exact .inl h3

example (pid : Pid F) (now : F) : ∃ s, HeaterReach pid s ∧
    s.log = [.stopCalled, .workerControl (PyNum.ofRat 0)] ++ .measured none :: [] :=
  ⟨_, fault_reach pid now, rfl⟩

/-- **C42**, second half refuted: the critical log entry is never written, however long the sensor
has been silent, and after a fault the worker is still waiting for its own lock. -/
theorem C42_refuted {s : HeaterState F} (h : HeaterReach pid s) :
    .critical ∉ s.log ∧ (.measured none ∈ s.log →
      ∀ s', Relation.ReflTransGen HeaterStep s s' → s'.worker ≠ .exited) := by
  refine ⟨(faultInv_reach h).critical, fun hm s' hs => ?_⟩
  have key : HeaterReach pid s' ∧ .measured none ∈ s'.log := by
    induction hs with
    | refl => exact ⟨h, hm⟩
    | tail _ hs ih =>
      refine ⟨.step ih.1 hs, ?_⟩
      rcases hs with hs | hs
      · obtain ⟨-, -, e | ⟨-, t, e⟩ | ⟨-, e⟩ | ⟨-, e⟩ | ⟨-, e⟩⟩ := worker_log hs <;> rw [e]
        · exact ih.2
        all_goals exact List.mem_cons_of_mem _ ih.2
      · obtain ⟨-, -, -, -, e | e | ⟨-, e⟩ | ⟨-, e⟩ | ⟨-, e⟩⟩ := caller_log hs <;> rw [e]
        · exact ih.2
        all_goals exact List.mem_cons_of_mem _ ih.2
  intro he
  rcases (faultInv_reach key.1).faulted key.2 with h | h | ⟨h, -⟩ <;> rw [he] at h <;> cases h

/-- **C59.** `wait()` returns only when the worker has held the target: there are updates of the
controller with the measured temperatures, in the order of the measurements, that contain a period
longer than 2.5 s on target. -/
theorem C59_wait {target start : F} {k : PidCoef} (hnew : Pid.new target k start = .ok pid)
    {s : HeaterState F} (h : HeaterReach pid s) (hret : .waitReturned ∈ s.log) :
    ∃ us, HeldTarget target (history pid us) ∧ us.map (·.1) <+: temperatures s.log := by
  obtain ⟨us, hi⟩ := pidInv_reach h
  refine ⟨us, (C39_fixed hnew us []).1 ?_, ?_⟩
  · rw [← hi.state]; exact hi.waited hret
  · by_cases hw : ∃ t, s.worker = .update t
    · obtain ⟨t, hw⟩ := hw
      rw [hi.pending t hw]; exact List.prefix_append _ _
    · push Not at hw
      rw [hi.temps hw]

end Threads

/-- The worker has measured 100 degrees twice, and `wait()` has returned. -/
example [PyRound] : ∃ s, Pid.new (100 : ℝ) ⟨0, 1, 0⟩ 0 = .ok onTargetPid ∧
    HeaterReach onTargetPid s ∧ .waitReturned ∈ s.log := by
  refine ⟨_, onTargetPid_new, (cycle_reach onTargetPid 100 0) |>.step (.inl (.sleep rfl))
    |>.step (.inl (.acquire rfl rfl)) |>.step (.inl (.checkRun rfl rfl))
    |>.step (.inl (.measured 100 rfl)) |>.step (.inl (.update 100 3 rfl))
    |>.step (.inr (.wait rfl)) |>.step (.inr (.waitReturn rfl onTargetPid_fixed)), ?_⟩
  simp

section Power

variable [PyRound]

/-- **C43.** Every value that the control method receives is a percentage.  Exact arithmetic. -/
theorem C43_exact {pid : Pid ℝ} {s : HeaterState ℝ} (h : HeaterReach pid s) {ev : HeaterEvent ℝ}
    (hev : ev ∈ s.log) {p : ℝ} (hp : IsControl p ev) : 0 ≤ p ∧ p ≤ 100 := by
  obtain ⟨us, hi⟩ := pidInv_reach h
  cases ev with
  | workerControl q =>
    cases hp
    rcases hi.powers _ hev with h | ⟨r, hr, h⟩
    · rw [h]; simp only [ofRat_eq, Rat.cast_zero]; norm_num
    · obtain ⟨h1, h2⟩ := updates_out pid us r hr
      rw [h]; simp only [mul_eq, ofRat_eq]; push_cast
      constructor <;> linarith
  | callerControl q =>
    cases hp
    rw [callerControl_zero h hev]
    simp only [ofRat_eq, Rat.cast_zero]; norm_num
  | _ => exact hp.elim

/-- **C43** in binary64: the product of the output with 100 does not round above 100. -/
theorem C43_binary64 {pid : Pid F64} {s : HeaterState F64} (h : HeaterReach pid s)
    {ev : HeaterEvent F64} (hev : ev ∈ s.log) {p : F64} (hp : IsControl p ev) :
    0 ≤ p.1 ∧ p.1 ≤ 100 := by
  have hz : (PyNum.ofRat 0 : F64).1 = 0 := by
    change fl ((0 : ℚ) : ℝ) = 0; rw [Rat.cast_zero, fl_zero]
  have h100 : fl (100 : ℝ) = 100 := by simpa using fl_int 100 (by norm_num)
  obtain ⟨us, hi⟩ := pidInv_reach h
  cases ev with
  | workerControl q =>
    cases hp
    rcases hi.powers _ hev with h | ⟨r, hr, h⟩
    · rw [h, hz]; norm_num
    · obtain ⟨h1, h2⟩ := updates_out_binary64 pid us r hr
      rw [h]
      change 0 ≤ fl (r.1 * fl ((100 : ℚ) : ℝ)) ∧ fl (r.1 * fl ((100 : ℚ) : ℝ)) ≤ 100
      have e : ((100 : ℚ) : ℝ) = 100 := by norm_num
      rw [e, h100]
      exact ⟨le_fl_of_le fl_zero (by linarith), fl_le_of_le h100 (by linarith)⟩
  | callerControl q =>
    cases hp
    rw [callerControl_zero h hev, hz]; norm_num
  | _ => exact hp.elim

/-- A heater at 20 degrees with target 230 gets full power. -/
example (pid : Pid ℝ) (hp : pid.p = 1 / 10) (hi : pid.i = 0) (hd : pid.d = 0)
    (ht : pid.target = 230) :
    ∃ s, HeaterReach pid s ∧ .workerControl 100 ∈ s.log := by
  refine ⟨_, cycle_reach pid 20 0, ?_⟩
  have e : (pid.update 20 0).1 = 1 := by
    simp only [Pid.update, clampOutput, hp, hi, hd, ht, lt_iff, ofRat_eq, sub_eq, mul_eq, add_eq]
    norm_num
  simp [cycleState, e]

end Power

end PyCNC.Props
