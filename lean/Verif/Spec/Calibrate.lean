import Verif.Model.Calibrate

/-!
# Vocabulary for statements about calibration

Histories (`CalSt.ops`) are newest first.
-/

namespace PyCNC

namespace Spec

/-- An axis with an endstop. -/
inductive Ax3 where
  | x | y | z
  deriving DecidableEq

/-- Component of a triple. -/
def at3 {α : Type} (v : XYZ α) : Ax3 → α
  | .x => v.x
  | .y => v.y
  | .z => v.z

/-- Step pin, direction pin and endstop pin of an axis. -/
def stepPin (p : Pins) : Ax3 → Nat
  | .x => p.step.x
  | .y => p.step.y
  | .z => p.step.z

@[inherit_doc stepPin]
def dirPin (p : Pins) : Ax3 → Nat
  | .x => p.dir.x
  | .y => p.dir.y
  | .z => p.dir.z

@[inherit_doc stepPin]
def stopPin (p : Pins) : Ax3 → Nat
  | .x => p.stopX
  | .y => p.stopY
  | .z => p.stopZ

/-- `STEPPER_INVERTED_*` of an axis. -/
def invertedAx (c : Cfg) : Ax3 → Bool
  | .x => c.inverted.x
  | .y => c.inverted.y
  | .z => c.inverted.z

/-- The pins are different ones of the first bank. -/
structure CalPins (p : Pins) : Prop where
  step_inj : ∀ a a', stepPin p a = stepPin p a' → a = a'
  dir_inj : ∀ a a', dirPin p a = dirPin p a' → a = a'
  stop_inj : ∀ a a', stopPin p a = stopPin p a' → a = a'
  step_dir : ∀ a a', stepPin p a ≠ dirPin p a'
  step_enable : ∀ a, stepPin p a ≠ p.enable
  dir_enable : ∀ a, dirPin p a ≠ p.enable
  step_lt : ∀ a, stepPin p a < 32
  dir_lt : ∀ a, dirPin p a < 32
  enable_lt : p.enable < 32

/-- The level that shows that an axis is at its endstop (`config.py:26-28`). -/
def zeroLevel (cc : CalCfg) (a : Ax3) : Bool := at3 cc.stopInv a

/-- The levels read from a pin, newest first. -/
def readsOf (pin : Nat) (h : List CalOp) : List Bool :=
  h.filterMap fun o => match o with
    | .read q v => if q = pin then some v else none
    | _ => none

/-- The level was read three times in a row from the pin. -/
def Thrice (pin : Nat) (lvl : Bool) (h : List CalOp) : Prop := [lvl, lvl, lvl] <:+: readsOf pin h

/-- The pin is set high (register offset of the BCM2835 manual). -/
def Raises3 (q : Nat) (o : CalOp) : Prop := ∃ v : Word, o = .write 0x1C v ∧ v.getLsbD q = true

/-- The pin is set low. -/
def Lowers3 (q : Nat) (o : CalOp) : Prop := ∃ v : Word, o = .write 0x28 v ∧ v.getLsbD q = true

/-- A write that changes no pins but those described by `P`. -/
def Touches (P : Nat → Prop) : CalOp → Prop
  | .write off v => (off = 0x1C ∨ off = 0x28) ∧ ∀ q < 32, v.getLsbD q = true → P q
  | _ => True

/-- Neither the engine is stopped nor started. -/
def EngineAlone : CalOp → Prop
  | .write _ _ => True
  | .read _ _ => True
  | _ => False

/-- What a part of a calibration that drives the requested axes until their endstop pins show the
level `want` does to the hardware; `high` gives the levels of the direction pins. -/
structure Phase (p : Pins) (req : XYZ Bool) (want : Ax3 → Bool) (high : Ax3 → Bool)
    (h : List CalOp) : Prop where
  /-- first the directions are set, later only the step pins of the requested axes change -/
  writes : ∃ h' d, h = h' ++ d ∧ (∀ o ∈ h', Touches (fun q => ∃ a, at3 req a ∧ stepPin p a = q) o) ∧
    (∀ a, high a = true → ∃ o ∈ d, Raises3 (dirPin p a) o) ∧
    (∀ a, high a = false → ∃ o ∈ d, Lowers3 (dirPin p a) o) ∧
    d.length = 3 ∧ ∀ o ∈ d, Touches (fun q => ∃ a, dirPin p a = q) o
  /-- only the endstops of requested axes are looked at -/
  reads : ∀ pin lvl, .read pin lvl ∈ h → ∃ a, at3 req a ∧ stopPin p a = pin
  /-- after the engine was stopped because an endstop was reached, its axis is not stepped -/
  halts : ∀ a post pre, h = post ++ .stop :: pre → Thrice (stopPin p a) (want a) pre →
    ∀ o ∈ post, ¬ Raises3 (stepPin p a) o
  /-- the engine is stopped right after an endstop was reached -/
  prompt : ∀ a, Thrice (stopPin p a) (want a) h →
    ∃ post mid pre, h = post ++ .stop :: (mid ++ pre) ∧ ¬ Thrice (stopPin p a) (want a) pre ∧
      ∀ o ∈ mid, EngineAlone o

end Spec

end PyCNC
