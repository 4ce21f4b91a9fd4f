import Verif.Model.Sensors

/-!
# The ADS1115 as a bus device

Hardware model (datasheet SBAS444): a pointer register selects one of the registers; register 0 is
the result of the last conversion, register 1 the configuration.  Writing a configuration whose
upper bit is set starts a conversion when none is running; reading it gives 0 in this bit while a
conversion is running.
-/

namespace PyCNC

namespace Spec

/-- A completed conversion: the multiplexer setting (bits 14-12), the range (bits 11-9) and the
result. -/
structure Conversion where
  mux : BitVec 3
  range : BitVec 3
  code : BitVec 16
  deriving DecidableEq, Repr

/-- The state of the chip; `done` has the completed conversions, the latest first. -/
structure AdsChip where
  pointer : BitVec 8
  config : BitVec 16
  busy : Bool
  done : List Conversion
  deriving DecidableEq, Repr

/-- The running conversion comes to its end: its inputs and range are those of the
configuration. -/
def AdsChip.complete (d : AdsChip) (code : BitVec 16) : AdsChip :=
  { d with
    busy := false
    done := ⟨d.config.extractLsb' 12 3, d.config.extractLsb' 9 3, code⟩ :: d.done }

/-- The behaviour of the chip.  A conversion may come to its end at any time between two operations,
with any code. -/
inductive AdsRun : AdsChip → List I2cOp → List I2cReply → AdsChip → Prop
  | nil (d) : AdsRun d [] [] d
  /-- the running conversion ends -/
  | complete {d d' ops io} (code : BitVec 16) : d.busy = true →
      AdsRun (d.complete code) ops io d' → AdsRun d ops io d'
  /-- a byte selects a register -/
  | select {d d' ops io} (p : BitVec 8) (r : BitVec 16) :
      AdsRun { d with pointer := p } ops io d' →
      AdsRun d (.write [p] :: ops) (some r :: io) d'
  /-- a write of the configuration of an idle chip; the upper bit and single shot mode (bit 8) start
  a conversion -/
  | configure {d d' ops io} (hi lo : BitVec 8) (r : BitVec 16) : d.busy = false →
      AdsRun { d with
        pointer := 1
        config := hi ++ lo
        busy := hi.getLsbD 7 && hi.getLsbD 0 } ops io d' →
      AdsRun d (.write [1, hi, lo] :: ops) (some r :: io) d'
  /-- a read of the configuration: the upper bit is 0 while a conversion is running -/
  | readConfig {d d' ops io} (r : BitVec 16) : d.pointer = 1 →
      r.getLsbD 15 = !d.busy → AdsRun d ops io d' →
      AdsRun d (.read 2 :: ops) (some r :: io) d'
  /-- a read of the last result -/
  | readResult {d d' ops io} (c : Conversion) (rest : List Conversion) : d.pointer = 0 →
      d.done = c :: rest → AdsRun d ops io d' →
      AdsRun d (.read 2 :: ops) (some c.code :: io) d'
  /-- an operation fails, the chip sees nothing of it -/
  | fail {d d' ops io} (o : I2cOp) : AdsRun d ops io d' → AdsRun d (o :: ops) (none :: io) d'

/-- The multiplexer setting for "input `n` against ground". -/
def inputAgainstGround (n : Fin 4) : BitVec 3 := BitVec.ofNat 3 (4 + n)

/-- The setting of the range of ±4.096 V. -/
def range4096 : BitVec 3 := 1

end Spec

end PyCNC
