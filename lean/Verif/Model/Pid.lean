import Verif.Model.Config

/-!
# `cnc/pid.py`: PID controller

Time stamps are always given explicitly; `time.time()` in `pid.py:17,39` is a value chosen by
the environment.
-/

namespace PyCNC

variable {F : Type} [PyNum F]

/-- The attributes of `Pid`, `pid.py:16-28`. -/
structure Pid (F : Type) where
  /-- `_last_time` -/
  lastTime : F
  /-- `_target_value` -/
  target : F
  /-- `P`, `I`, `D` -/
  p : F
  i : F
  d : F
  /-- `WINDUP_LIMIT` -/
  windup : F
  /-- `_integral` -/
  integral : F
  /-- `_last_error` -/
  lastError : F
  /-- `_is_target_fixed` -/
  fixed : Bool
  /-- `_target_fix_timer` -/
  timer : Option F

/-- `FIX_ACCURACY`, `pid.py:6`. -/
def fixAccuracy : F := PyNum.ofRat 0.01

/-- `FIX_TIME_S`, `pid.py:7`. -/
def fixTime : F := PyNum.ofRat 2.5

/-- `Pid.__init__`, `pid.py:9-28`; `1.0 / self.I` can raise. -/
def Pid.new (target : F) (k : PidCoef) (t : F) : Except PyErr (Pid F) := do
  let windup ← pdiv (PyNum.ofRat 1) (PyNum.ofRat k.i)
  return { lastTime := t, target := target, p := PyNum.ofRat k.p, i := PyNum.ofRat k.i,
           d := PyNum.ofRat k.d, windup := windup, integral := PyNum.ofRat 0,
           lastError := PyNum.ofRat 0, fixed := false, timer := none }

/-- The windup protection, `pid.py:45-46`. -/
def clampIntegral (limit v : F) : F :=
  if limit <ₚ PyNum.abs v then copysign limit v else v

/-- The limits of the output, `pid.py:51-54`. -/
def clampOutput (res : F) : F :=
  let res := if PyNum.ofRat 1 <ₚ res then PyNum.ofRat 1 else res
  if res <ₚ PyNum.ofRat 0 then PyNum.ofRat 0 else res

/-- `fixed` and `timer` after an update with error `e` and output `res`, `pid.py:56-64`. -/
def Pid.fix (s : Pid F) (e res now : F) : Bool × Option F :=
  if s.fixed then (s.fixed, s.timer)
  else if PyNum.abs e <ₚ s.target *ₚ fixAccuracy && res <ₚ PyNum.ofRat 1 then
    match s.timer with
    | none => (false, some now)
    | some t => (if fixTime <ₚ now -ₚ t then true else false, some t)
  else (false, none)

/-- `update`, `pid.py:30-65`: the output and the new state. -/
def Pid.update (s : Pid F) (value now : F) : F × Pid F :=
  let dt := now -ₚ s.lastTime
  let error := s.target -ₚ value
  let integral := clampIntegral s.windup (s.integral +ₚ error *ₚ dt)
  let derr := error -ₚ s.lastError
  let res := clampOutput (s.p *ₚ error +ₚ s.i *ₚ integral +ₚ s.d *ₚ derr)
  let f := s.fix error res now
  (res, { s with lastTime := now, integral := integral, lastError := error,
                 fixed := f.1, timer := f.2 })

/-- Successive updates, oldest first: the outputs and the final state. -/
def Pid.updates (s : Pid F) : List (F × F) → List F × Pid F
  | [] => ([], s)
  | (v, t) :: us =>
    let r := s.update v t
    let rs := Pid.updates r.2 us
    (r.1 :: rs.1, rs.2)

end PyCNC
