import Verif.Spec.Dma
import Verif.Spec.Head

/-!
# Vocabulary for statements about what the motors do with the levels of their pins

A stepper driver as its data sheet describes it (A4988, DRV8825): it samples the direction input
at each rising edge of the step input and then moves the motor by one microstep.  Nothing here
refers to the code.
-/

namespace PyCNC

namespace Spec

variable {F : Type}

/-- No pin serves two purposes. -/
structure PinsApart (p : Pins) : Prop where
  step : ∀ ax ax', p.step.get ax = p.step.get ax' → ax = ax'
  dir : ∀ ax ax', p.dir.get ax = p.dir.get ax' → ax = ax'
  apart : ∀ ax ax', p.step.get ax ≠ p.dir.get ax'

/-- A stepper driver: the levels of its two inputs and the microsteps made so far, counted
positive while the direction input is low. -/
structure Driver where
  step : Bool
  dir : Bool
  pos : Int
  deriving DecidableEq, Repr

/-- The levels of the pins in the mask change to the given level.  The direction input is
sampled when the step input rises. -/
def Driver.edge (stepPin dirPin : Nat) (d : Driver) (e : Edge) : Driver where
  step := if e.2.2.getLsbD stepPin then e.2.1 else d.step
  dir := if e.2.2.getLsbD dirPin then e.2.1 else d.dir
  pos := if e.2.2.getLsbD stepPin ∧ e.2.1 = true ∧ d.step = false then
      d.pos + (if d.dir then -1 else 1)
    else d.pos

/-- The driver of an axis sees the level changes `es`, oldest first. -/
def Driver.sees (p : Pins) (ax : Axis) (d : Driver) (es : List Edge) : Driver :=
  es.foldl (Driver.edge (p.step.get ax) (p.dir.get ax)) d

/-- Driver steps counted along the axis: an inverted motor turns the other way. -/
def along (c : Cfg) (ax : Axis) (n : Int) : Int := if c.inverted.get ax then -n else n

/-- Every direction command names a direction for every motor. -/
def DirsKnown (evs : List (Event F)) : Prop :=
  ∀ d, .dir d ∈ evs → ∀ ax, d.get ax = 1 ∨ d.get ax = -1

/-- Bytes of the buffer that the events can take: a control block of 32 bytes for directions; a
pause, a pulse, its length and its end for a step. -/
def room : List (Event F) → Nat
  | [] => 0
  | .dir _ :: evs => 32 + room evs
  | .pulse _ :: evs => 128 + room evs

/-- Bytes of the buffer that a straight move from corner to corner of the table, with `m` millimetres
of extrusion, can take. -/
def longestMove (c : Cfg) (m : ℚ) : ℚ :=
  32 + 128 * (c.tableX * c.ppm.x + c.tableY * c.ppm.y + c.tableZ * c.ppm.z + m * c.ppm.e)

/-- How often `move` has looked at the engine. -/
def polls : List HalOp → Nat
  | [] => 0
  | .poll :: tr => polls tr + 1
  | _ :: tr => polls tr

/-- The earlier program ends: after `N` looks at the latest the engine is idle. -/
def IdleAfter (env : MoveEnv) (N : Nat) : Prop := ∀ tr, N ≤ polls tr → env.cb tr = none

/-- `Played c p b tr es`: the moves in the trace (newest first) are carried out by the Raspberry Pi
back end, one after the other, and the level changes of the motor pins are `es` (oldest first).  For
each move: its generator emits some events; `move` reads them, with any earlier contents of the
buffer and any behaviour of the clock and the engine meanwhile, and returns; the engine runs the
buffer from its beginning, staying behind the writer, until it stops.  Times are counted from the
start of the engine for that move.  What `hal.calibrate` does to the pins is not counted. -/
inductive Played [PyNum F] (c : Cfg) (p : Pins) (b : Buf) : List (HalCall F) → List Edge → Prop
  | nil : Played c p b [] []
  | move {g : Gen F} {tr : List (HalCall F)} {es : List Edge} {evs : List (Event F)} {env : MoveEnv}
      {fuel : Nat} {mem : Nat → Word} {s : MoveSt} {ns : List Nat} {w₀ w : World}
      (emits : Emits c g evs) (reads : Hal.move c p b env fuel evs .done mem = (s, .done))
      (log : w₀.log = []) (time : w₀.time = 0) (behind : Behind (b.size / 32) s.live.reverse ns 0)
      (runs : Dma.runLive b s.live.reverse ns b.base w₀ = (w, 0)) (rest : Played c p b tr es) :
      Played c p b (.move g :: tr) (es ++ edges w.log.reverse)
  | other {call : HalCall F} {tr : List (HalCall F)} {es : List Edge} (h : ∀ g, call ≠ .move g)
      (rest : Played c p b tr es) : Played c p b (call :: tr) es

end Spec

end PyCNC
