import Verif.Spec.Numbers
import Verif.Model.Heater

/-!
# Vocabulary for statements about the PID controller and the heater thread
-/

namespace PyCNC.Spec

/-- One update of the controller as seen from outside: measured value, time, output. -/
structure Update (F : Type) where
  value : F
  time : F
  output : F

/-- What a controller did in a history of updates, oldest first. -/
def history {F : Type} [PyNum F] (s : Pid F) (us : List (F × F)) : List (Update F) :=
  (us.zip (s.updates us).1).map fun p => ⟨p.1.1, p.1.2, p.2⟩

/-- The measured value is within one percent of the target and the power is not full. -/
def OnTarget {F : Type} [PyNum F] (target : F) (u : Update F) : Prop :=
  (PyNum.abs (target -ₚ u.value) <ₚ target *ₚ PyNum.ofRat (1 / 100)) = true ∧
    (u.output <ₚ PyNum.ofRat 1) = true

/-- Somewhere in the history all updates of a period longer than 2.5 seconds were on target. -/
def HeldTarget {F : Type} [PyNum F] (target : F) (h : List (Update F)) : Prop :=
  ∃ pre mid post first last, h = pre ++ mid ++ post ∧ (∀ u ∈ mid, OnTarget target u) ∧
    mid.head? = some first ∧ mid.getLast? = some last ∧
    (PyNum.ofRat (5 / 2) <ₚ last.time -ₚ first.time) = true

/-- A call of the heater's control method, by whichever thread. -/
def IsControl {F : Type} (power : F) : HeaterEvent F → Prop
  | .workerControl p => p = power
  | .callerControl p => p = power
  | _ => False

/-- Any call of the heater's control method. -/
def AnyControl {F : Type} (ev : HeaterEvent F) : Prop := ∃ p, IsControl p ev

/-- A run of the two threads: an infinite sequence of states from the start, in which each step is
an action of one thread or nothing. -/
structure HeaterRun {F : Type} [PyNum F] (pid : Pid F) (σ : ℕ → HeaterState F) : Prop where
  start : σ 0 = .init pid
  step : ∀ n, HeaterStep (σ n) (σ (n + 1)) ∨ σ (n + 1) = σ n

/-- The caller is inside `stop()`. -/
def InStop {F : Type} (s : HeaterState F) : Prop := s.caller ≠ .idle ∧ s.caller ≠ .waiting

/-- Threads keep running.  The worker acts again unless it is blocked; the caller of `stop()` acts
again if it is able to go on infinitely often (the lock does not starve it). -/
structure Fair {F : Type} [PyNum F] (σ : ℕ → HeaterState F) : Prop where
  worker : ∀ n, ∃ m ≥ n, WorkerStep (σ m) (σ (m + 1)) ∨ ¬ ∃ s', WorkerStep (σ m) s'
  caller : (∀ n, ∃ m ≥ n, InStop (σ m) ∧ ∃ s', CallerStep (σ m) s') →
    ∀ n, ∃ m ≥ n, CallerStep (σ m) (σ (m + 1))

end PyCNC.Spec
