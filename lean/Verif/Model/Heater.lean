import Verif.Model.Pid

/-!
# `cnc/heater.py`: the heater controller

Two threads share the object: the worker (`run`) and the caller of `stop()`, `wait()`.  A step of
the transition system is one action of one thread: a lock operation, a read or write of a shared
attribute, a call of `measure` or `control`.  The clock and the sensor are arbitrary.
Simplification: exceptions of `measure` other than `IOError`/`OSError` and exceptions of `control`
are not represented.
-/

namespace PyCNC

/-- Where the worker is in `run`, `heater.py:48-72`. -/
inductive WorkerPc (F : Type) where
  /-- before `self._mutex.acquire()`, line 53 -/
  | acquire
  /-- before `if not self._is_run`, line 54 -/
  | check
  /-- before `self._measure()`, line 57 -/
  | measure
  /-- in the `except` branch, before `self._control(0)`, line 59 -/
  | failed
  /-- in the `except` branch, before the test of `last_error`, lines 60-66 -/
  | failedTime
  /-- before the update of the controller, lines 68-69, with the measured temperature -/
  | update (temperature : F)
  /-- before `self._control(self._current_power)`, line 70 -/
  | control
  /-- before `self._mutex.release()`, line 71 -/
  | release
  /-- before `time.sleep`, line 72 -/
  | sleep
  /-- after a `break` or after an exception that is not caught -/
  | exited

/-- Where the caller is. -/
inductive CallerPc where
  /-- not inside a method of the heater -/
  | idle
  /-- in `stop`, before `self._mutex.acquire()`, line 78 -/
  | stopAcquire
  /-- in `stop`, before `self._is_run = False`, line 79 -/
  | stopFlag
  /-- in `stop`, before `self._mutex.release()`, line 80 -/
  | stopRelease
  /-- in `stop`, before `self._control(0)`, line 81 -/
  | stopControl
  /-- in `stop`, about to return -/
  | stopReturn
  /-- in `wait`, lines 84-94 -/
  | waiting
  deriving DecidableEq

/-- Observable events. -/
inductive HeaterEvent (F : Type) where
  /-- the worker calls `control(power)` -/
  | workerControl (power : F)
  /-- the caller calls `control(0)` in `stop` -/
  | callerControl (power : F)
  /-- a measurement of the worker: temperature, or `none` for `IOError`/`OSError` -/
  | measured (t : Option F)
  /-- `logging.critical("No data from temperature sensor...")` -/
  | critical
  /-- `stop()` is called -/
  | stopCalled
  /-- `stop()` returns -/
  | stopReturned
  /-- `wait()` returns -/
  | waitReturned

/-- The shared state and the local variables of the threads. -/
structure HeaterState (F : Type) where
  /-- state of `_mutex`; a `threading.Lock` has no owner and is not re-entrant -/
  locked : Bool
  /-- `_is_run` -/
  isRun : Bool
  /-- `_pid` -/
  pid : Pid F
  /-- `_current_power` -/
  power : F
  /-- `last_error` of `run` -/
  lastError : Option F
  worker : WorkerPc F
  caller : CallerPc
  /-- events so far, newest first -/
  log : List (HeaterEvent F)

variable {F : Type} [PyNum F]

/-- `SENSOR_TIMEOUT_S`, `heater.py:10`. -/
def sensorTimeout : F := PyNum.ofRat 1

/-- The state when the worker thread has been started, `heater.py:12-32`. -/
def HeaterState.init (pid : Pid F) : HeaterState F :=
  { locked := false, isRun := true, pid := pid, power := PyNum.ofRat 0, lastError := none,
    worker := .acquire, caller := .idle, log := [] }

/-- One action of the worker thread, `run`, `heater.py:48-72`. -/
inductive WorkerStep : HeaterState F → HeaterState F → Prop
  /-- `self._mutex.acquire()`: only possible when the lock is free -/
  | acquire {s : HeaterState F} : s.worker = .acquire → s.locked = false →
      WorkerStep s { s with locked := true, worker := .check }
  /-- `if not self._is_run: break` -/
  | checkStop {s : HeaterState F} : s.worker = .check → s.isRun = false →
      WorkerStep s { s with worker := .exited }
  | checkRun {s : HeaterState F} : s.worker = .check → s.isRun = true →
      WorkerStep s { s with worker := .measure }
  /-- `self._measure()` returns -/
  | measured {s : HeaterState F} (t : F) : s.worker = .measure →
      WorkerStep s { s with worker := .update t, log := .measured (some t) :: s.log }
  /-- `self._measure()` raises `IOError` or `OSError` -/
  | measureFailed {s : HeaterState F} : s.worker = .measure →
      WorkerStep s { s with worker := .failed, log := .measured none :: s.log }
  /-- `self._control(0)` in the `except` branch -/
  | failedControl {s : HeaterState F} : s.worker = .failed →
      WorkerStep s { s with worker := .failedTime,
                            log := .workerControl (PyNum.ofRat 0) :: s.log }
  /-- `last_error = time.time()` and `continue`, which does not release the lock -/
  | failedFirst {s : HeaterState F} (now : F) : s.worker = .failedTime → s.lastError = none →
      WorkerStep s { s with worker := .acquire, lastError := some now }
  /-- the timeout has expired: critical log entry and `break` -/
  | failedTimeout {s : HeaterState F} (now t : F) : s.worker = .failedTime →
      s.lastError = some t → (sensorTimeout <ₚ now -ₚ t) = true →
      WorkerStep s { s with worker := .exited, log := .critical :: s.log }
  /-- the timeout has not expired: `continue` -/
  | failedAgain {s : HeaterState F} (now t : F) : s.worker = .failedTime →
      s.lastError = some t → (sensorTimeout <ₚ now -ₚ t) = false →
      WorkerStep s { s with worker := .acquire }
  /-- `last_error = None` and the update of the controller -/
  | update {s : HeaterState F} (t now : F) : s.worker = .update t →
      WorkerStep s { s with worker := .control, lastError := none, pid := (s.pid.update t now).2,
                            power := (s.pid.update t now).1 *ₚ PyNum.ofRat 100 }
  /-- `self._control(self._current_power)` -/
  | control {s : HeaterState F} : s.worker = .control →
      WorkerStep s { s with worker := .release, log := .workerControl s.power :: s.log }
  /-- `self._mutex.release()` -/
  | release {s : HeaterState F} : s.worker = .release →
      WorkerStep s { s with worker := .sleep, locked := false }
  /-- end of `time.sleep` -/
  | sleep {s : HeaterState F} : s.worker = .sleep →
      WorkerStep s { s with worker := .acquire }

/-- One action of the caller, `stop` and `wait`, `heater.py:74-94`.  The calls of `measure` in
`wait`, which are only logged, are left out. -/
inductive CallerStep : HeaterState F → HeaterState F → Prop
  /-- `stop()` is called -/
  | stop {s : HeaterState F} : s.caller = .idle →
      CallerStep s { s with caller := .stopAcquire, log := .stopCalled :: s.log }
  /-- `self._mutex.acquire()` -/
  | stopAcquire {s : HeaterState F} : s.caller = .stopAcquire → s.locked = false →
      CallerStep s { s with locked := true, caller := .stopFlag }
  /-- `self._is_run = False` -/
  | stopFlag {s : HeaterState F} : s.caller = .stopFlag →
      CallerStep s { s with isRun := false, caller := .stopRelease }
  /-- `self._mutex.release()` -/
  | stopRelease {s : HeaterState F} : s.caller = .stopRelease →
      CallerStep s { s with locked := false, caller := .stopControl }
  /-- `self._control(0)` -/
  | stopControl {s : HeaterState F} : s.caller = .stopControl →
      CallerStep s { s with caller := .stopReturn,
                            log := .callerControl (PyNum.ofRat 0) :: s.log }
  /-- `stop()` returns -/
  | stopReturn {s : HeaterState F} : s.caller = .stopReturn →
      CallerStep s { s with caller := .idle, log := .stopReturned :: s.log }
  /-- `wait()` is called -/
  | wait {s : HeaterState F} : s.caller = .idle → CallerStep s { s with caller := .waiting }
  /-- `wait()` leaves its loop: `self._pid.is_fixed()` -/
  | waitReturn {s : HeaterState F} : s.caller = .waiting → s.pid.fixed = true →
      CallerStep s { s with caller := .idle, log := .waitReturned :: s.log }

/-- One action of either thread. -/
def HeaterStep (s s' : HeaterState F) : Prop := WorkerStep s s' ∨ CallerStep s s'

/-- The states that some schedule of the two threads, some sensor and some clock lead to. -/
inductive HeaterReach (pid : Pid F) : HeaterState F → Prop
  | init : HeaterReach pid (.init pid)
  | step {s s' : HeaterState F} : HeaterReach pid s → HeaterStep s s' → HeaterReach pid s'

end PyCNC
