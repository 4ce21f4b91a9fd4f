import Verif.Lemmas.Pid

/-!
# Invariants of the heater threads
-/

set_option linter.unusedSectionVars false

namespace PyCNC

open Spec

section Any

variable {F : Type} [PyNum F] {pid : Pid F} {s s' : HeaterState F}

/-- The worker is between `acquire` and `release`. -/
def WorkerPc.holds : WorkerPc F → Bool
  | .acquire => false
  | .sleep => false
  | _ => true

/-- The worker is in or after the failure branch. -/
def WorkerPc.failing : WorkerPc F → Bool
  | .failed => true
  | .failedTime => true
  | _ => false

/-- The invariant of the threads. -/
structure HeaterInv (s : HeaterState F) : Prop where
  worker_locked : s.worker.holds = true → s.locked = true
  caller_locked : s.caller = .stopFlag ∨ s.caller = .stopRelease →
    s.locked = true ∧ s.worker.holds = false ∧ s.lastError = none
  /-- after a failure the lock is never released again -/
  stuck : s.lastError ≠ none → s.worker = .acquire ∧ s.locked = true
  /-- once told to stop the worker controls nothing -/
  stopped : s.isRun = false → s.worker = .acquire ∨ s.worker = .check ∨ s.worker = .sleep ∨
    s.worker = .exited
  stopping : s.caller = .stopRelease ∨ s.caller = .stopControl ∨ s.caller = .stopReturn →
    s.isRun = false
  running : s.isRun = true → s.worker ≠ .exited ∧ .stopReturned ∉ s.log
  again : s.isRun = false → s.caller = .stopAcquire ∨ s.caller = .stopFlag ∨ s.caller = .idle ∨
    s.caller = .waiting → .stopReturned ∈ s.log
  free : s.locked = true → s.worker.holds = true ∨ s.lastError ≠ none ∨ s.caller = .stopFlag ∨
    s.caller = .stopRelease

theorem heaterInv_init : HeaterInv (.init pid) := by
  constructor <;> simp [HeaterState.init, WorkerPc.holds]

theorem heaterInv_worker (h : HeaterInv s) (hs : WorkerStep s s') : HeaterInv s' := by
  obtain ⟨h1, h2, h3, h4, h5, h6, h7, h8⟩ := h
  cases hs with
  | acquire hw hl =>
    rw [hw] at h1 h2 h3 h4 h6 h8
    constructor <;> simp_all [WorkerPc.holds]
  | checkStop hw hl =>
    rw [hw] at h1 h2 h3 h4 h6 h8
    constructor <;> simp_all [WorkerPc.holds]
  | checkRun hw hl =>
    rw [hw] at h1 h2 h3 h4 h6 h8
    constructor <;> simp_all [WorkerPc.holds]
  | measured t hw =>
    rw [hw] at h1 h2 h3 h4 h6 h8
    constructor <;> simp_all [WorkerPc.holds]
  | measureFailed hw =>
    rw [hw] at h1 h2 h3 h4 h6 h8
    constructor <;> simp_all [WorkerPc.holds]
  | failedControl hw =>
    rw [hw] at h1 h2 h3 h4 h6 h8
    constructor <;> simp_all [WorkerPc.holds]
  | failedFirst now hw hl =>
    rw [hw] at h1 h2 h3 h4 h6 h8
    constructor <;> simp_all [WorkerPc.holds]
  | failedTimeout now t hw hl ht =>
    rw [hw] at h1 h2 h3 h4 h6 h8
    constructor <;> simp_all [WorkerPc.holds]
  | failedAgain now t hw hl ht =>
    rw [hw] at h1 h2 h3 h4 h6 h8
    constructor <;> simp_all [WorkerPc.holds]
  | update t now hw =>
    rw [hw] at h1 h2 h3 h4 h6 h8
    constructor <;> simp_all [WorkerPc.holds]
  | control hw =>
    rw [hw] at h1 h2 h3 h4 h6 h8
    constructor <;> simp_all [WorkerPc.holds]
  | release hw =>
    rw [hw] at h1 h2 h3 h4 h6 h8
    constructor <;> simp_all [WorkerPc.holds]
  | sleep hw =>
    rw [hw] at h1 h2 h3 h4 h6 h8
    constructor <;> simp_all [WorkerPc.holds]

theorem heaterInv_caller (h : HeaterInv s) (hs : CallerStep s s') : HeaterInv s' := by
  obtain ⟨h1, h2, h3, h4, h5, h6, h7, h8⟩ := h
  have hold : ∀ w : WorkerPc F, w.holds = false → w = .acquire ∨ w = .sleep := by
    intro w hw; cases w <;> simp [WorkerPc.holds] at hw ⊢
  cases hs with
  | stop hc => rw [hc] at h2 h5 h7 h8; constructor <;> simp_all
  | stopAcquire hc hl =>
    rw [hc] at h2 h5 h7 h8
    constructor <;> simp_all
  | stopFlag hc =>
    rw [hc] at h2 h5 h7 h8
    have hw : s.worker = .acquire ∨ s.worker = .check ∨ s.worker = .sleep ∨
        s.worker = .exited := by
      rcases hold s.worker (h2 (by simp)).2.1 with h | h <;> simp [h]
    constructor <;> first | exact fun _ => hw | simp_all
  | stopRelease hc =>
    rw [hc] at h2 h5 h7 h8
    constructor <;> simp_all
  | stopControl hc => rw [hc] at h2 h5 h7 h8; constructor <;> simp_all
  | stopReturn hc => rw [hc] at h2 h5 h7 h8; constructor <;> simp_all
  | wait hc => rw [hc] at h2 h5 h7 h8; constructor <;> simp_all
  | waitReturn hc hl => rw [hc] at h2 h5 h7 h8; constructor <;> simp_all

theorem heaterInv_step (h : HeaterInv s) (hs : HeaterStep s s') : HeaterInv s' :=
  hs.elim (heaterInv_worker h) (heaterInv_caller h)

theorem heaterInv_reach (h : HeaterReach pid s) : HeaterInv s := by
  induction h with
  | init => exact heaterInv_init
  | step _ hs ih => exact heaterInv_step ih hs

/-! ### Events -/

theorem cons_split {α : Type} {ev x : α} {l newer older : List α}
    (h : ev :: l = newer ++ x :: older) :
    (newer = [] ∧ ev = x ∧ l = older) ∨ ∃ n, newer = ev :: n ∧ l = n ++ x :: older := by
  rcases List.cons_eq_append_iff.1 h with ⟨h1, h2⟩ | ⟨n, h1, h2⟩
  · left; cases h2; exact ⟨h1, rfl, rfl⟩
  · exact .inr ⟨n, h1, h2⟩

/-- The worker has seen a sensor fault. -/
def Faulted (s : HeaterState F) : Prop :=
  s.worker = .failed ∨ s.worker = .failedTime ∨ (s.worker = .acquire ∧ s.lastError ≠ none)

/-- What is in the log since a sensor fault. -/
structure FaultLog (s : HeaterState F) (newer : List (HeaterEvent F)) : Prop where
  zero : ∀ ev ∈ newer, ∀ p, IsControl p ev → p = PyNum.ofRat 0
  last : ∀ t, .measured t ∉ newer
  off : (s.worker = .failed ∧ ∀ p, .workerControl p ∉ newer) ∨
    (s.worker ≠ .failed ∧ .workerControl (PyNum.ofRat 0) ∈ newer)

structure FaultInv (s : HeaterState F) : Prop where
  faulted : .measured none ∈ s.log → Faulted s
  since : ∀ newer older, s.log = newer ++ .measured none :: older → FaultLog s newer
  critical : .critical ∉ s.log

/-- A step that adds one harmless event or none, outside the failure branch. -/
theorem faultInv_quiet (hn : ¬ Faulted s) (h : FaultInv s)
    (hl : s'.log = s.log ∨ ∃ ev, s'.log = ev :: s.log ∧ ev ≠ .measured none ∧ ev ≠ .critical) :
    FaultInv s' := by
  have h0 : .measured none ∉ s.log := fun hm => hn (h.faulted hm)
  have h1 : .measured none ∉ s'.log := by
    rcases hl with e | ⟨ev, e, he, _⟩
    · rw [e]; exact h0
    · rw [e, List.mem_cons]; rintro (rfl | hm)
      · exact he rfl
      · exact h0 hm
  refine ⟨fun hm => absurd hm h1, fun newer older e => absurd (by simp [e]) h1, ?_⟩
  rcases hl with e | ⟨ev, e, _, he⟩
  · rw [e]; exact h.critical
  · rw [e, List.mem_cons]; rintro (rfl | hm)
    · exact he rfl
    · exact h.critical hm

theorem faultInv_worker (hi : HeaterInv s) (h : FaultInv s) (hs : WorkerStep s s') :
    FaultInv s' := by
  have quiet : ∀ w : WorkerPc F, s.worker = w → w ≠ .failed → w ≠ .failedTime → w ≠ .acquire →
      ¬ Faulted s := by
    rintro w rfl h1 h2 h3 (h | h | h)
    · exact h1 h
    · exact h2 h
    · exact h3 h.1
  cases hs with
  | acquire hw hl =>
    refine faultInv_quiet ?_ h (.inl rfl)
    rintro (h | h | h)
    · rw [hw] at h; cases h
    · rw [hw] at h; cases h
    · have := (hi.stuck h.2).2; rw [hl] at this; cases this
  | checkStop hw hl => exact faultInv_quiet (quiet _ hw (by simp) (by simp) (by simp)) h (.inl rfl)
  | checkRun hw hl => exact faultInv_quiet (quiet _ hw (by simp) (by simp) (by simp)) h (.inl rfl)
  | measured t hw =>
    exact faultInv_quiet (quiet _ hw (by simp) (by simp) (by simp)) h
      (.inr ⟨_, rfl, by simp, by simp⟩)
  | measureFailed hw =>
    have hq := quiet _ hw (by simp) (by simp) (by simp)
    refine ⟨fun _ => .inl rfl, ?_, ?_⟩
    · intro newer older e
      rcases cons_split e with ⟨rfl, -, -⟩ | ⟨n, rfl, e'⟩
      · exact ⟨by simp, by simp, .inl ⟨rfl, by simp⟩⟩
      · exact absurd (h.faulted (by rw [e']; simp)) hq
    · simpa using h.critical
  | failedControl hw =>
    refine ⟨fun _ => .inr (.inl rfl), ?_, by simpa using h.critical⟩
    intro newer older e
    rcases cons_split e with ⟨rfl, e, -⟩ | ⟨n, rfl, e'⟩
    · cases e
    · obtain ⟨h1, h2, h3⟩ := h.since n older e'
      refine ⟨?_, ?_, .inr ⟨by simp, by simp⟩⟩
      · intro ev hev p hp
        rcases List.mem_cons.1 hev with rfl | hev
        · exact hp.symm
        · exact h1 ev hev p hp
      · intro t ht
        rcases List.mem_cons.1 ht with e | ht
        · cases e
        · exact h2 t ht
  | failedFirst now hw hl =>
    refine ⟨fun _ => .inr (.inr ⟨rfl, by simp⟩), ?_, h.critical⟩
    intro newer older e
    obtain ⟨h1, h2, h3⟩ := h.since newer older e
    refine ⟨h1, h2, .inr ⟨by simp, ?_⟩⟩
    rcases h3 with h3 | h3
    · rw [hw] at h3; cases h3.1
    · exact h3.2
  | failedTimeout now t hw hl ht =>
    have := (hi.stuck (by rw [hl]; simp)).1; rw [hw] at this; cases this
  | failedAgain now t hw hl ht =>
    have := (hi.stuck (by rw [hl]; simp)).1; rw [hw] at this; cases this
  | update t now hw => exact faultInv_quiet (quiet _ hw (by simp) (by simp) (by simp)) h (.inl rfl)
  | control hw =>
    exact faultInv_quiet (quiet _ hw (by simp) (by simp) (by simp)) h
      (.inr ⟨_, rfl, by simp, by simp⟩)
  | release hw => exact faultInv_quiet (quiet _ hw (by simp) (by simp) (by simp)) h (.inl rfl)
  | sleep hw => exact faultInv_quiet (quiet _ hw (by simp) (by simp) (by simp)) h (.inl rfl)

/-- What an action of the caller does to the log. -/
theorem caller_log (hs : CallerStep s s') :
    s'.worker = s.worker ∧ s'.lastError = s.lastError ∧ s'.pid = s.pid ∧ s'.power = s.power ∧
    (s'.log = s.log ∨ s'.log = .stopCalled :: s.log ∨
      (s.caller = .stopControl ∧ s'.log = .callerControl (PyNum.ofRat 0) :: s.log) ∨
      (s.caller = .stopReturn ∧ s'.log = .stopReturned :: s.log) ∨
      (s.pid.fixed = true ∧ s'.log = .waitReturned :: s.log)) := by
  cases hs <;> simp [*]

theorem faultInv_caller (h : FaultInv s) (hs : CallerStep s s') : FaultInv s' := by
  obtain ⟨e1, e2, -, -, hl⟩ := caller_log hs
  have hF : Faulted s' ↔ Faulted s := by unfold Faulted; rw [e1, e2]
  have key : s'.log = s.log ∨ ∃ ev, s'.log = ev :: s.log ∧ ev ≠ .critical ∧
      (∀ t, ev ≠ .measured t) ∧ (∀ p, ev ≠ .workerControl p) ∧
      (∀ p, IsControl p ev → p = PyNum.ofRat 0) := by
    rcases hl with e | e | ⟨-, e⟩ | ⟨-, e⟩ | ⟨-, e⟩
    · exact .inl e
    all_goals refine .inr ⟨_, e, by simp, by simp, by simp, ?_⟩
    all_goals intro p hp
    all_goals first | exact hp.symm | exact hp.elim
  rcases key with e | ⟨ev, e, hc, hm, hw, hz⟩
  · refine ⟨fun hm => hF.2 (h.faulted (e ▸ hm)), fun newer older e2 => ?_, e ▸ h.critical⟩
    obtain ⟨h1, h2, h3⟩ := h.since newer older (e ▸ e2)
    exact ⟨h1, h2, by rw [e1]; exact h3⟩
  · refine ⟨fun hmem => ?_, fun newer older e2 => ?_, ?_⟩
    · rw [e, List.mem_cons] at hmem
      rcases hmem with e | hmem
      · exact absurd e.symm (hm _)
      · exact hF.2 (h.faulted hmem)
    · rw [e] at e2
      rcases cons_split e2 with ⟨-, e, -⟩ | ⟨n, rfl, e'⟩
      · exact absurd e (hm _)
      · obtain ⟨h1, h2, h3⟩ := h.since n older e'
        refine ⟨?_, ?_, ?_⟩
        · intro ev' hev p hp
          rcases List.mem_cons.1 hev with rfl | hev
          · exact hz p hp
          · exact h1 ev' hev p hp
        · intro t ht
          rcases List.mem_cons.1 ht with e | ht
          · exact hm _ e.symm
          · exact h2 t ht
        · rw [e1]
          rcases h3 with ⟨a, b⟩ | ⟨a, b⟩
          · refine .inl ⟨a, fun p hp => ?_⟩
            rcases List.mem_cons.1 hp with e | hp
            · exact hw p e.symm
            · exact b p hp
          · exact .inr ⟨a, List.mem_cons_of_mem _ b⟩
    · rw [e, List.mem_cons]; rintro (e | hm)
      · exact hc e.symm
      · exact h.critical hm

theorem faultInv_reach (h : HeaterReach pid s) : FaultInv s := by
  induction h with
  | init => constructor <;> simp [HeaterState.init]
  | step hr hs ih =>
    rcases hs with hs | hs
    · exact faultInv_worker (heaterInv_reach hr) ih hs
    · exact faultInv_caller ih hs

/-- What an action of the worker does to the log. -/
theorem worker_log (hs : WorkerStep s s') :
    s'.caller = s.caller ∧ s'.isRun = s.isRun ∧
    (s'.log = s.log ∨ (s.worker = .measure ∧ ∃ t, s'.log = .measured t :: s.log) ∨
      (s.worker = .failed ∧ s'.log = .workerControl (PyNum.ofRat 0) :: s.log) ∨
      (s.worker = .control ∧ s'.log = .workerControl s.power :: s.log) ∨
      (s.worker = .failedTime ∧ s'.log = .critical :: s.log)) := by
  cases hs <;> simp [*]

/-- Once told to stop the worker causes no events. -/
theorem worker_quiet (hi : HeaterInv s) (hr : s.isRun = false) (hs : WorkerStep s s') :
    s'.log = s.log := by
  obtain ⟨-, -, h⟩ := worker_log hs
  have hw := hi.stopped hr
  rcases h with h | ⟨h, -⟩ | ⟨h, -⟩ | ⟨h, -⟩ | ⟨h, -⟩
  · exact h
  all_goals rw [h] at hw; simp at hw

/-- The newest call of the control method was `control(0)`. -/
def LastZero (l : List (HeaterEvent F)) : Prop :=
  ∃ l₁ l₂ ev, l = l₁ ++ ev :: l₂ ∧ IsControl (PyNum.ofRat 0) ev ∧ ∀ e ∈ l₁, ¬ AnyControl e

structure StopInv (s : HeaterState F) : Prop where
  about : s.caller = .stopReturn → LastZero s.log
  log : ∀ newer older, s.log = newer ++ .stopReturned :: older →
    s.isRun = false ∧ (∀ p, .workerControl p ∉ newer) ∧ (∀ t, .measured t ∉ newer) ∧
    (.stopCalled ∉ newer → (∀ e ∈ newer, ¬ AnyControl e) ∧
      (s.caller = .idle ∨ s.caller = .waiting)) ∧
    (∀ e ∈ newer, ∀ p, IsControl p e → p = PyNum.ofRat 0) ∧ LastZero older

theorem stopInv_worker (hi : HeaterInv s) (h : StopInv s) (hs : WorkerStep s s') : StopInv s' := by
  obtain ⟨e1, e2, hl⟩ := worker_log hs
  by_cases hr : s.isRun = false
  · have e := worker_quiet hi hr hs
    refine ⟨?_, ?_⟩
    · rw [e1, e]; exact h.about
    · rw [e1, e2, e]; exact h.log
  · have hr' : s.isRun = true := by simpa using hr
    have h0 := (hi.running hr').2
    have hi' := heaterInv_worker hi hs
    have h1 := (hi'.running (by rw [e2]; exact hr')).2
    refine ⟨fun hc => ?_, fun newer older e => absurd (by simp [e]) h1⟩
    rw [e1] at hc
    exact absurd (hi.stopping (.inr (.inr hc))) hr

theorem stopInv_caller (hi : HeaterInv s) (h : StopInv s) (hs : CallerStep s s') : StopInv s' := by
  cases hs with
  | stop hc =>
    refine ⟨by simp, fun newer older e => ?_⟩
    rcases cons_split e with ⟨-, e, -⟩ | ⟨n, rfl, e'⟩
    · cases e
    · obtain ⟨h1, h2, h3, h4, h5, h6⟩ := h.log n older e'
      refine ⟨h1, by simpa using h2, by simpa using h3, by simp, ?_, h6⟩
      intro ev hev p hp
      rcases List.mem_cons.1 hev with rfl | hev
      · exact hp.elim
      · exact h5 ev hev p hp
  | stopAcquire hc hl =>
    refine ⟨by simp, fun newer older e => ?_⟩
    obtain ⟨h1, h2, h3, h4, h5, h6⟩ := h.log newer older e
    refine ⟨h1, h2, h3, fun hn => ?_, h5, h6⟩
    have := (h4 hn).2; rw [hc] at this; simp at this
  | stopFlag hc =>
    refine ⟨by simp, fun newer older e => ?_⟩
    obtain ⟨h1, h2, h3, h4, h5, h6⟩ := h.log newer older e
    refine ⟨rfl, h2, h3, fun hn => ?_, h5, h6⟩
    have := (h4 hn).2; rw [hc] at this; simp at this
  | stopRelease hc =>
    refine ⟨by simp, fun newer older e => ?_⟩
    obtain ⟨h1, h2, h3, h4, h5, h6⟩ := h.log newer older e
    refine ⟨h1, h2, h3, fun hn => ?_, h5, h6⟩
    have := (h4 hn).2; rw [hc] at this; simp at this
  | stopControl hc =>
    refine ⟨fun _ => ⟨[], s.log, _, rfl, rfl, by simp⟩, fun newer older e => ?_⟩
    rcases cons_split e with ⟨-, e, -⟩ | ⟨n, rfl, e'⟩
    · cases e
    · obtain ⟨h1, h2, h3, h4, h5, h6⟩ := h.log n older e'
      refine ⟨h1, by simpa using h2, by simpa using h3, fun hn => ?_, ?_, h6⟩
      · have := (h4 (fun hm => hn (List.mem_cons_of_mem _ hm))).2
        rw [hc] at this; simp at this
      · intro ev hev p hp
        rcases List.mem_cons.1 hev with rfl | hev
        · exact hp.symm
        · exact h5 ev hev p hp
  | stopReturn hc =>
    refine ⟨by simp, fun newer older e => ?_⟩
    rcases cons_split e with ⟨rfl, -, rfl⟩ | ⟨n, rfl, e'⟩
    · exact ⟨hi.stopping (.inr (.inr hc)), by simp, by simp, fun _ => ⟨by simp, .inl rfl⟩, by simp,
        h.about hc⟩
    · obtain ⟨h1, h2, h3, h4, h5, h6⟩ := h.log n older e'
      refine ⟨h1, by simpa using h2, by simpa using h3, fun hn => ?_, ?_, h6⟩
      · have := (h4 (fun hm => hn (List.mem_cons_of_mem _ hm))).2
        rw [hc] at this; simp at this
      · intro ev hev p hp
        rcases List.mem_cons.1 hev with rfl | hev
        · exact hp.elim
        · exact h5 ev hev p hp
  | wait hc =>
    refine ⟨by simp, fun newer older e => ?_⟩
    obtain ⟨h1, h2, h3, h4, h5, h6⟩ := h.log newer older e
    exact ⟨h1, h2, h3, fun hn => ⟨(h4 hn).1, .inr rfl⟩, h5, h6⟩
  | waitReturn hc hl =>
    refine ⟨by simp, fun newer older e => ?_⟩
    rcases cons_split e with ⟨-, e, -⟩ | ⟨n, rfl, e'⟩
    · cases e
    · obtain ⟨h1, h2, h3, h4, h5, h6⟩ := h.log n older e'
      refine ⟨h1, by simpa using h2, by simpa using h3, fun hn => ⟨?_, .inl rfl⟩, ?_, h6⟩
      · intro ev hev
        rcases List.mem_cons.1 hev with rfl | hev
        · rintro ⟨p, hp⟩; exact hp
        · exact (h4 (fun hm => hn (List.mem_cons_of_mem _ hm))).1 ev hev
      · intro ev hev p hp
        rcases List.mem_cons.1 hev with rfl | hev
        · exact hp.elim
        · exact h5 ev hev p hp

theorem stopInv_reach (h : HeaterReach pid s) : StopInv s := by
  induction h with
  | init => constructor <;> simp [HeaterState.init]
  | step hr hs ih =>
    rcases hs with hs | hs
    · exact stopInv_worker (heaterInv_reach hr) ih hs
    · exact stopInv_caller (heaterInv_reach hr) ih hs

/-! ### The controller behind the worker -/

/-- The temperatures in a log, oldest first. -/
def temperatures (l : List (HeaterEvent F)) : List F :=
  (l.filterMap fun | .measured t => t | _ => none).reverse

/-- The controller has been updated with the measured temperatures; the newest one may still be
on its way. -/
structure PidInv (pid : Pid F) (s : HeaterState F) (us : List (F × F)) : Prop where
  state : s.pid = (pid.updates us).2
  temps : (∀ t, s.worker ≠ .update t) → temperatures s.log = us.map (·.1)
  pending : ∀ t, s.worker = .update t → temperatures s.log = us.map (·.1) ++ [t]
  power : s.worker = .control → ∃ r ∈ (pid.updates us).1, s.power = r *ₚ PyNum.ofRat 100
  powers : ∀ p, .workerControl p ∈ s.log → p = PyNum.ofRat 0 ∨
    ∃ r ∈ (pid.updates us).1, p = r *ₚ PyNum.ofRat 100
  waited : .waitReturned ∈ s.log → s.pid.fixed = true

theorem temperatures_cons_some (t : F) (l : List (HeaterEvent F)) :
    temperatures (.measured (some t) :: l) = temperatures l ++ [t] := by
  simp [temperatures]

theorem temperatures_cons_none (ev : HeaterEvent F) (l : List (HeaterEvent F))
    (h : ∀ t, ev ≠ .measured (some t)) : temperatures (ev :: l) = temperatures l := by
  unfold temperatures
  rw [List.filterMap_cons_none]
  cases ev with
  | measured t => cases t with
    | none => rfl
    | some t => exact absurd rfl (h t)
  | _ => rfl

theorem pidInv_reach (h : HeaterReach pid s) : ∃ us, PidInv pid s us := by
  induction h with
  | init => exact ⟨[], rfl, fun _ => rfl, by simp [HeaterState.init], by simp [HeaterState.init],
      by simp [HeaterState.init], by simp [HeaterState.init]⟩
  | @step s s' hr hs ih =>
    obtain ⟨us, h1, h2, h2', h3, h4, h5⟩ := ih
    have nu : ∀ w : WorkerPc F, s.worker = w → (∀ t, w ≠ .update t) →
        temperatures s.log = us.map (·.1) := by
      rintro w rfl hw; exact h2 hw
    rcases hs with hs | hs
    · cases hs with
      | acquire hw hl => exact ⟨us, h1, fun _ => nu _ hw (by simp), by simp, by simp, h4, h5⟩
      | checkStop hw hl => exact ⟨us, h1, fun _ => nu _ hw (by simp), by simp, by simp, h4, h5⟩
      | checkRun hw hl => exact ⟨us, h1, fun _ => nu _ hw (by simp), by simp, by simp, h4, h5⟩
      | measured t hw =>
        refine ⟨us, h1, by simp, ?_, by simp, by simpa using h4, by simpa using h5⟩
        intro t' ht
        cases ht
        rw [temperatures_cons_some, nu _ hw (by simp)]
      | measureFailed hw =>
        refine ⟨us, h1, fun _ => ?_, by simp, by simp, by simpa using h4, by simpa using h5⟩
        rw [temperatures_cons_none _ _ (by simp), nu _ hw (by simp)]
      | failedControl hw =>
        refine ⟨us, h1, fun _ => ?_, by simp, by simp, ?_, by simpa using h5⟩
        · rw [temperatures_cons_none _ _ (by simp), nu _ hw (by simp)]
        · intro p hp
          rcases List.mem_cons.1 hp with e | hp
          · cases e; exact .inl rfl
          · exact h4 p hp
      | failedFirst now hw hl =>
        exact ⟨us, h1, fun _ => nu _ hw (by simp), by simp, by simp, h4, h5⟩
      | failedTimeout now t hw hl ht =>
        refine ⟨us, h1, fun _ => ?_, by simp, by simp, by simpa using h4, by simpa using h5⟩
        rw [temperatures_cons_none _ _ (by simp), nu _ hw (by simp)]
      | failedAgain now t hw hl ht =>
        exact ⟨us, h1, fun _ => nu _ hw (by simp), by simp, by simp, h4, h5⟩
      | update t now hw =>
        refine ⟨us ++ [(t, now)], ?_, fun _ => ?_, by simp, fun _ => ?_, ?_, ?_⟩
        · rw [updates_snoc, ← h1]
        · rw [List.map_append]; exact h2' t hw
        · refine ⟨(s.pid.update t now).1, ?_, rfl⟩
          rw [updates_append, ← h1]
          exact List.mem_append_right _ (by simp [Pid.updates])
        · intro p hp
          rcases h4 p hp with h | ⟨r, hr, h⟩
          · exact .inl h
          · refine .inr ⟨r, ?_, h⟩
            rw [updates_append]; exact List.mem_append_left _ hr
        · intro hm
          exact fixed_stays s.pid [(t, now)] (h5 hm)
      | control hw =>
        refine ⟨us, h1, fun _ => ?_, by simp, by simp, ?_, by simpa using h5⟩
        · rw [temperatures_cons_none _ _ (by simp), nu _ hw (by simp)]
        · intro p hp
          rcases List.mem_cons.1 hp with e | hp
          · cases e; exact .inr (h3 hw)
          · exact h4 p hp
      | release hw => exact ⟨us, h1, fun _ => nu _ hw (by simp), by simp, by simp, h4, h5⟩
      | sleep hw => exact ⟨us, h1, fun _ => nu _ hw (by simp), by simp, by simp, h4, h5⟩
    · obtain ⟨e1, -, e3, e4, hl⟩ := caller_log hs
      have ht : temperatures s'.log = temperatures s.log := by
        rcases hl with e | e | ⟨-, e⟩ | ⟨-, e⟩ | ⟨-, e⟩ <;> rw [e]
        all_goals rw [temperatures_cons_none _ _ (by simp)]
      refine ⟨us, by rw [e3, h1], by rw [e1, ht]; exact h2, by rw [e1, ht]; exact h2',
        by rw [e1, e4]; exact h3, ?_, ?_⟩
      · rcases hl with e | e | ⟨-, e⟩ | ⟨-, e⟩ | ⟨-, e⟩ <;> rw [e] <;> simpa using h4
      · rw [e3]
        rcases hl with e | e | ⟨-, e⟩ | ⟨-, e⟩ | ⟨hf, e⟩ <;> rw [e]
        · exact h5
        · simpa using h5
        · simpa using h5
        · simpa using h5
        · exact fun _ => hf

theorem callerControl_zero (h : HeaterReach pid s) {p : F} (hm : .callerControl p ∈ s.log) :
    p = PyNum.ofRat 0 := by
  induction h with
  | init => simp [HeaterState.init] at hm
  | @step s s' hr hs ih =>
    rcases hs with hs | hs
    · obtain ⟨-, -, e | ⟨-, t, e⟩ | ⟨-, e⟩ | ⟨-, e⟩ | ⟨-, e⟩⟩ := worker_log hs <;> rw [e] at hm
      · exact ih hm
      all_goals simp at hm; exact ih hm
    · obtain ⟨-, -, -, -, e | e | ⟨-, e⟩ | ⟨-, e⟩ | ⟨-, e⟩⟩ := caller_log hs <;> rw [e] at hm
      · exact ih hm
      · simp at hm; exact ih hm
      · rcases List.mem_cons.1 hm with e | hm
        · cases e; rfl
        · exact ih hm
      · simp at hm; exact ih hm
      · simp at hm; exact ih hm

/-! ### Liveness -/

/-- After a sensor fault the threads never get out of `acquire`. -/
theorem stuck_forever {s₀ : HeaterState F} (h : s₀.caller = .stopAcquire)
    (hl : s₀.locked = true) (hw : s₀.worker = .acquire ∨ s₀.worker = .exited)
    (hr : Relation.ReflTransGen HeaterStep s₀ s) : s = s₀ := by
  induction hr with
  | refl => rfl
  | tail _ hs ih =>
    subst ih
    rcases hs with hs | hs
    · cases hs <;> simp_all
    · cases hs <;> simp_all

/-- Signs of a fault are preceded by a failed measurement. -/
theorem fault_logged (h : HeaterReach pid s)
    (hf : s.worker = .failed ∨ s.worker = .failedTime ∨ s.lastError ≠ none) :
    .measured none ∈ s.log := by
  induction h with
  | init => simp [HeaterState.init] at hf
  | @step s s' hr hs ih =>
    rcases hs with hs | hs
    · cases hs <;> simp_all
    · obtain ⟨e1, e2, -, -, hl⟩ := caller_log hs
      rw [e1, e2] at hf
      have := ih hf
      rcases hl with e | e | ⟨-, e⟩ | ⟨-, e⟩ | ⟨-, e⟩ <;> rw [e]
      · exact this
      all_goals exact List.mem_cons_of_mem _ this

/-- Distance of the worker from releasing the lock. -/
def WorkerPc.rank : WorkerPc F → ℕ
  | .check => 5
  | .measure => 4
  | .update _ => 3
  | .control => 2
  | .release => 1
  | _ => 0

section Live

variable {σ : ℕ → HeaterState F}

theorem run_reach (h : HeaterRun pid σ) (n : ℕ) : HeaterReach pid (σ n) := by
  induction n with
  | zero => rw [h.start]; exact .init
  | succ n ih =>
    rcases h.step n with hs | e
    · exact .step ih hs
    · rw [e]; exact ih

theorem worker_step_caller (hs : WorkerStep s s') : s'.caller = s.caller := (worker_log hs).1

/-- As long as the caller takes no step its place does not change. -/
theorem caller_const (h : HeaterRun pid σ) {n m : ℕ} (hnm : n ≤ m)
    (hno : ∀ j, n ≤ j → j < m → ¬ CallerStep (σ j) (σ (j + 1))) :
    (σ m).caller = (σ n).caller := by
  induction m, hnm using Nat.le_induction with
  | base => rfl
  | succ m hm ih =>
    have ih := ih fun j h1 h2 => hno j h1 (by omega)
    rcases h.step m with (hs | hs) | e
    · rw [worker_step_caller hs, ih]
    · exact absurd hs (hno m hm (by omega))
    · rw [e, ih]

/-- A caller inside `stop` that is able to go on again and again does go on. -/
theorem caller_moves (h : HeaterRun pid σ) (hf : Fair σ) {n : ℕ}
    (hin : InStop (σ n))
    (hen : (∀ m, n ≤ m → (σ m).caller = (σ n).caller) →
      ∀ N, n ≤ N → ∃ m ≥ N, ∃ s', CallerStep (σ m) s') :
    ∃ m ≥ n, (σ m).caller = (σ n).caller ∧ CallerStep (σ m) (σ (m + 1)) := by
  classical
  have hex : ∃ m, n ≤ m ∧ CallerStep (σ m) (σ (m + 1)) := by
    by_contra hno
    push Not at hno
    have hc : ∀ m, n ≤ m → (σ m).caller = (σ n).caller := fun m hm =>
      caller_const h hm fun j h1 _ => hno j h1
    obtain ⟨m, hm, hs⟩ := hf.caller (fun N => by
      obtain ⟨m, hm, hs⟩ := hen hc (max n N) (le_max_left _ _)
      have hnm : n ≤ m := (le_max_left _ _).trans hm
      refine ⟨m, (le_max_right _ _).trans hm, ?_, hs⟩
      unfold InStop at hin ⊢
      rw [hc m hnm]; exact hin) n
    exact hno m hm hs
  refine ⟨Nat.find hex, (Nat.find_spec hex).1, ?_, (Nat.find_spec hex).2⟩
  exact caller_const h (Nat.find_spec hex).1 fun j h1 h2 hs => Nat.find_min hex h2 ⟨h1, hs⟩

/-- While the first `stop()` waits for the lock, without sensor faults, the lock becomes free again
and again. -/
theorem unlocked_again (h : HeaterRun pid σ) (hf : Fair σ)
    (hok : ∀ n, .measured none ∉ (σ n).log) {n : ℕ}
    (hc : ∀ m, n ≤ m → (σ m).caller = .stopAcquire)
    (hret : ∀ m, n ≤ m → .stopReturned ∉ (σ m).log) (k N : ℕ) (hN : n ≤ N)
    (hk : (σ N).worker.rank ≤ k) : ∃ m ≥ N, (σ m).locked = false := by
  classical
  induction k generalizing N with
  | zero =>
    refine ⟨N, le_refl _, ?_⟩
    by_contra hl
    have hi := heaterInv_reach (run_reach h N)
    have hnf := mt (fault_logged (run_reach h N)) (hok N)
    push Not at hnf
    have hrun : (σ N).isRun = true := by
      by_contra hr
      exact hret N hN (hi.again (by simpa using hr) (.inl (hc N hN)))
    have hex := (hi.running hrun).1
    have hh := hi.free (by simpa using hl)
    rw [hc N hN] at hh
    have hh : (σ N).worker.holds = true := by simpa [hnf.2.2] using hh
    generalize (σ N).worker = w at *
    cases w <;> simp_all [WorkerPc.holds, WorkerPc.rank]
  | succ k ih =>
    by_cases hl : (σ N).locked = false
    · exact ⟨N, le_refl _, hl⟩
    have hi := heaterInv_reach (run_reach h N)
    have hnf := mt (fault_logged (run_reach h N)) (hok N)
    push Not at hnf
    have hrun : (σ N).isRun = true := by
      by_contra hr
      exact hret N hN (hi.again (by simpa using hr) (.inl (hc N hN)))
    have hex := (hi.running hrun).1
    have hh := hi.free (by simpa using hl)
    rw [hc N hN] at hh
    have hh : (σ N).worker.holds = true := by simpa [hnf.2.2] using hh
    -- the worker can go on
    have hen : ∃ s', WorkerStep (σ N) s' := by
      rcases hw : (σ N).worker with _ | _ | _ | _ | _ | t | _ | _ | _ | _
      · rw [hw] at hh; simp [WorkerPc.holds] at hh
      · exact ⟨_, .checkRun hw hrun⟩
      · exact ⟨_, .measureFailed hw⟩
      · exact absurd hw hnf.1
      · exact absurd hw hnf.2.1
      · exact ⟨_, .update t t hw⟩
      · exact ⟨_, .control hw⟩
      · exact ⟨_, .release hw⟩
      · rw [hw] at hh; simp [WorkerPc.holds] at hh
      · exact absurd hw hex
    have noCaller : ∀ j, n ≤ j → ¬ CallerStep (σ j) (σ (j + 1)) := by
      intro j hj hs
      have h1 := hc j hj
      have h2 := hc (j + 1) (by omega)
      generalize σ (j + 1) = s' at *
      cases hs <;> simp_all
    have const : ∀ m, N ≤ m → (∀ j, N ≤ j → j < m → ¬ WorkerStep (σ j) (σ (j + 1))) →
        σ m = σ N := by
      intro m hm
      induction m, hm using Nat.le_induction with
      | base => intro _; rfl
      | succ m hm ih2 =>
        intro hno
        rcases h.step m with (hs | hs) | e
        · exact absurd hs (hno m hm (by omega))
        · exact absurd hs (noCaller m (by omega))
        · rw [e, ih2 fun j h1 h2 => hno j h1 (by omega)]
    have hex2 : ∃ m, N ≤ m ∧ WorkerStep (σ m) (σ (m + 1)) := by
      by_contra hno
      push Not at hno
      obtain ⟨m, hm, hs | hs⟩ := hf.worker N
      · exact hno m hm hs
      · rw [const m hm fun j h1 _ => hno j h1] at hs
        exact hs hen
    obtain ⟨m, hm, hs, hmin⟩ : ∃ m, N ≤ m ∧ WorkerStep (σ m) (σ (m + 1)) ∧ σ m = σ N :=
      ⟨Nat.find hex2, (Nat.find_spec hex2).1, (Nat.find_spec hex2).2,
        const _ (Nat.find_spec hex2).1 fun j h1 h2 hs => Nat.find_min hex2 h2 ⟨h1, hs⟩⟩
    have hrank : (σ (m + 1)).worker.rank ≤ k := by
      have hnf2 := mt (fault_logged (run_reach h (m + 1))) (hok (m + 1))
      push Not at hnf2
      rw [hmin] at hs
      generalize σ (m + 1) = s' at *
      cases hs <;> simp_all [WorkerPc.rank, WorkerPc.holds]
    obtain ⟨m', hm', hl'⟩ := ih (m + 1) (by omega) hrank
    exact ⟨m', by omega, hl'⟩

theorem stop_next (hs : CallerStep s s') :
    (s.caller = .stopAcquire → s'.caller = .stopFlag) ∧
    (s.caller = .stopFlag → s'.caller = .stopRelease) ∧
    (s.caller = .stopRelease → s'.caller = .stopControl) ∧
    (s.caller = .stopControl → s'.caller = .stopReturn) ∧
    (s.caller = .stopReturn → .stopReturned ∈ s'.log) := by
  cases hs <;> simp [*]

/-- Without sensor faults the first `stop()` returns. -/
theorem stop_returns (h : HeaterRun pid σ) (hf : Fair σ)
    (hok : ∀ n, .measured none ∉ (σ n).log) {n : ℕ} (hc : (σ n).caller = .stopAcquire) :
    ∃ m ≥ n, .stopReturned ∈ (σ m).log := by
  by_contra hret
  push Not at hret
  have next : ∀ (k : ℕ) (pc : CallerPc), n ≤ k → (σ k).caller = pc → pc ≠ .idle → pc ≠ .waiting →
      (∀ s : HeaterState F, s.caller = pc → pc ≠ .stopAcquire → ∃ s', CallerStep s s') →
      ∃ m ≥ k, (σ m).caller = pc ∧ CallerStep (σ m) (σ (m + 1)) := by
    rintro k pc hk rfl h1 h2 hen
    refine caller_moves h hf ⟨h1, h2⟩ fun hconst N hN => ?_
    by_cases ha : (σ k).caller = .stopAcquire
    · obtain ⟨m, hm, hl⟩ := unlocked_again h hf hok
        (fun m hm => (hconst m hm).trans ha) (fun m hm => hret m (hk.trans hm)) _ N hN (le_refl _)
      exact ⟨m, hm, _, .stopAcquire ((hconst m (by omega)).trans ha) hl⟩
    · exact ⟨N, le_refl _, hen _ (hconst N hN) ha⟩
  obtain ⟨m1, g1, c1, s1⟩ := next n _ (le_refl _) hc (by simp) (by simp) (by simp)
  have c1' : (σ (m1 + 1)).caller = .stopFlag := (stop_next s1).1 c1
  obtain ⟨m2, g2, c2, s2⟩ := next (m1 + 1) _ (by omega) c1' (by simp) (by simp)
    (fun s hs _ => ⟨_, .stopFlag hs⟩)
  have c2' : (σ (m2 + 1)).caller = .stopRelease := (stop_next s2).2.1 c2
  obtain ⟨m3, g3, c3, s3⟩ := next (m2 + 1) _ (by omega) c2' (by simp) (by simp)
    (fun s hs _ => ⟨_, .stopRelease hs⟩)
  have c3' : (σ (m3 + 1)).caller = .stopControl := (stop_next s3).2.2.1 c3
  obtain ⟨m4, g4, c4, s4⟩ := next (m3 + 1) _ (by omega) c3' (by simp) (by simp)
    (fun s hs _ => ⟨_, .stopControl hs⟩)
  have c4' : (σ (m4 + 1)).caller = .stopReturn := (stop_next s4).2.2.2.1 c4
  obtain ⟨m5, g5, c5, s5⟩ := next (m4 + 1) _ (by omega) c4' (by simp) (by simp)
    (fun s hs _ => ⟨_, .stopReturn hs⟩)
  exact hret (m5 + 1) (by omega) ((stop_next s5).2.2.2.2 c5)

end Live

end Any

end PyCNC
