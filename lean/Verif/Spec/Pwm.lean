import Verif.Model.Pwm
import Verif.Model.Exact
import Mathlib.Logic.Function.Basic

/-!
# Vocabulary for statements about the PWM
-/

namespace PyCNC

namespace Spec

/-- A call of the PWM object. -/
inductive PwmCall where
  | add (pin : Int) (duty : ℝ)
  | remove (pin : Int)

/-- The pin a call is about. -/
def PwmCall.pin : PwmCall → Int
  | .add p _ => p
  | .remove p => p

/-- What the completed calls (newest first) ask for: the number of slots of 256 in which the pin
is high; `none` as long as the pin was never added. -/
noncomputable def slots : List PwmCall → Nat → Option Int
  | [], _ => none
  | .add p d :: h, q => if p = q then some ⌊d * 256 / 100⌋ else slots h q
  | .remove p :: h, q => if p = q then (slots h q).map fun _ => 0 else slots h q

variable [PyRound]

/-- The first step of a call; the assertions of the code may refuse it. -/
noncomputable def startCall : PwmCall → Except PyErr Pwm.Pc
  | .add p d => Pwm.startAdd p d
  | .remove p => Pwm.startRemove p

/-- The PWM object used by one thread at a time while the engine runs: completed calls, the call
in progress, state, and where the call is.  The engine executes blocks at any moment. -/
inductive PwmUse (b : Buf) (s₀ : PwmSt) :
    List PwmCall → Option PwmCall → PwmSt → Pwm.Pc → Prop
  | init : PwmUse b s₀ [] none s₀ .idle
  | start {h : List PwmCall} {s : PwmSt} {c : PwmCall} {pc : Pwm.Pc}
      (hu : PwmUse b s₀ h none s .idle) (hc : startCall c = .ok pc) : PwmUse b s₀ h (some c) s pc
  | step {h : List PwmCall} {s : PwmSt} {c : PwmCall} {pc : Pwm.Pc}
      (hu : PwmUse b s₀ h (some c) s pc) (hn : (Pwm.step b pc s).2 ≠ .idle) :
      PwmUse b s₀ h (some c) (Pwm.step b pc s).1 (Pwm.step b pc s).2
  | finish {h : List PwmCall} {s : PwmSt} {c : PwmCall} {pc : Pwm.Pc}
      (hu : PwmUse b s₀ h (some c) s pc) (hn : (Pwm.step b pc s).2 = .idle) :
      PwmUse b s₀ (c :: h) none (Pwm.step b pc s).1 .idle
  | engine {h : List PwmCall} {c : Option PwmCall} {s : PwmSt} {pc : Pwm.Pc}
      (hu : PwmUse b s₀ h c s pc) : PwmUse b s₀ h c (Pwm.engine b s) pc

/-- A thread between a read and the write that depends on it: the value of a data word it has
read, or the decision to stop the engine. -/
def InSection : Pwm.Pc → Prop
  | .remWrite1 .. => True
  | .remWrite2 .. => True
  | .remStop .. => True
  | .addWrite1 .. => True
  | .addWrite2 .. => True
  | _ => False

/-- The calls in progress, by thread. -/
abbrev Threads := Nat → Option (PwmCall × Pwm.Pc)

/-- The PWM object used by several threads, at the same time never for the same pin, while the
engine runs.  `may cs t` tells whether thread `t` may be scheduled. -/
inductive PwmPar (may : Threads → Nat → Prop) (b : Buf) (s₀ : PwmSt) :
    List PwmCall → Threads → PwmSt → Prop
  | init : PwmPar may b s₀ [] (fun _ => none) s₀
  | start {h : List PwmCall} {cs : Threads} {s : PwmSt} {c : PwmCall} {pc : Pwm.Pc} (t : Nat)
      (hu : PwmPar may b s₀ h cs s) (ht : cs t = none)
      (hp : ∀ u k pc', cs u = some (k, pc') → k.pin ≠ c.pin) (hc : startCall c = .ok pc) :
      PwmPar may b s₀ h (Function.update cs t (some (c, pc))) s
  | step {h : List PwmCall} {cs : Threads} {s : PwmSt} {c : PwmCall} {pc : Pwm.Pc} (t : Nat)
      (hu : PwmPar may b s₀ h cs s) (ht : cs t = some (c, pc)) (hm : may cs t)
      (hn : (Pwm.step b pc s).2 ≠ .idle) :
      PwmPar may b s₀ h (Function.update cs t (some (c, (Pwm.step b pc s).2))) (Pwm.step b pc s).1
  | finish {h : List PwmCall} {cs : Threads} {s : PwmSt} {c : PwmCall} {pc : Pwm.Pc} (t : Nat)
      (hu : PwmPar may b s₀ h cs s) (ht : cs t = some (c, pc)) (hm : may cs t)
      (hn : (Pwm.step b pc s).2 = .idle) :
      PwmPar may b s₀ (c :: h) (Function.update cs t none) (Pwm.step b pc s).1
  | engine {h : List PwmCall} {cs : Threads} {s : PwmSt} (hu : PwmPar may b s₀ h cs s) :
      PwmPar may b s₀ h cs (Pwm.engine b s)

/-- Any thread may be scheduled at any time: what the code does. -/
def AnyTime : Threads → Nat → Prop := fun _ _ => True

/-- No thread is scheduled while another one is between a read and the dependent write: what the
code would do if these sections were protected by a lock. -/
def Locked : Threads → Nat → Prop := fun cs t =>
  ∀ u k pc, u ≠ t → cs u = some (k, pc) → ¬ InSection pc

/-- The level of a pin. -/
def level (s : PwmSt) (q : Nat) : Bool := s.w.gpio.latch q

end Spec

end PyCNC
