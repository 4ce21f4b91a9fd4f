import Verif.Model.Pulses

/-!
# Vocabulary for statements about pulse trains

A pulse train is the list of events that iterating a generator produces.
-/

namespace PyCNC

namespace Spec

variable {F : Type}

/-- The times at which the motor of an axis is stepped, in the order of the events. -/
def stepTimes (ax : Axis) : List (Event F) → List F
  | [] => []
  | .dir _ :: r => stepTimes ax r
  | .pulse t :: r =>
    match t.get ax with
    | none => stepTimes ax r
    | some τ => τ :: stepTimes ax r

/-- The number of step pulses sent to the motor of an axis. -/
def steps (ax : Axis) (evs : List (Event F)) : Nat := (stepTimes ax evs).length

/-- What a driver does with the pulses of one axis: `d` is the direction (`1` forward, `-1`
reverse, `0` not announced yet), an inverted axis is wired the other way round.  The result
is the number of forward minus the number of reverse steps. -/
def netFrom (c : Cfg) (ax : Axis) : Int → List (Event F) → Int
  | _, [] => 0
  | _, .dir v :: r => netFrom c ax (if c.inverted.get ax then - v.get ax else v.get ax) r
  | d, .pulse t :: r => (if (t.get ax).isSome then d else 0) + netFrom c ax d r

/-- Forward minus reverse steps of a whole pulse train. -/
def netSteps (c : Cfg) (ax : Axis) (evs : List (Event F)) : Int := netFrom c ax 0 evs

/-- The event announces directions. -/
def IsDir : Event F → Prop
  | .dir _ => True
  | .pulse _ => False

/-- The event steps at least one motor, and all motors it steps at the time `τ`. -/
def StepsAt (τ : F) : Event F → Prop
  | .dir _ => False
  | .pulse t => (∃ ax, t.get ax = some τ) ∧ ∀ ax τ', t.get ax = some τ' → τ' = τ

end Spec

end PyCNC
