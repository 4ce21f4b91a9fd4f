import Verif.Model.Watchdog

/-!
# Vocabulary for statements about the watchdog
-/

namespace PyCNC

namespace Spec

/-- What happens to a running watchdog. -/
inductive WdEv where
  /-- a control block is completed -/
  | tick
  /-- `feed()` is called -/
  | feed
  deriving DecidableEq

/-- One event. -/
def wdDo (b : Buf) (s : WdSt) : WdEv → WdSt
  | .tick => Wd.tick b s
  | .feed => Wd.feed b s

/-- A history of events, oldest first. -/
def wdRun (b : Buf) (s : WdSt) (evs : List WdEv) : WdSt := evs.foldl (wdDo b) s

/-- In every stretch of the history without a call of `feed` fewer than `n` blocks are
completed. -/
def FedWithin (n : Nat) (evs : List WdEv) : Prop :=
  ∀ l, l <:+: evs → WdEv.feed ∉ l → l.length < n

/-- The function select field of a pin: 0 is input. -/
def fsel (g : GpioHw) (p : Nat) : Nat := (g.reg (4 * (p / 10))).toNat / 8 ^ (p % 10) % 8

end Spec

end PyCNC
