import Verif.Model.Process
import Verif.Spec.DmaProto

/-!
# Vocabulary for statements about the memory of the DMA engines
-/

namespace PyCNC

namespace Spec

/-- Two pieces of memory do not overlap. -/
def Apart (b b' : Buf) : Prop := b.base + b.size ≤ b'.base ∨ b'.base + b'.size ≤ b.base

/-- What is expected of the firmware: a new handle is not in use, and the memory of a handle is at the
address of a page, is real memory and does not overlap other memory that is locked. -/
structure FirmwareOk (env : VcEnv) : Prop where
  fresh : ∀ vc n, env.alloc vc n ≠ 0 → env.alloc vc n ∉ vc.held.map (·.1)
  place : ∀ vc h n, (h, n) ∈ vc.held → env.lock vc h ≠ 0 →
    BufOk ⟨env.lock vc h, n⟩ ∧ 4096 ∣ env.lock vc h ∧
      ∀ h' bus' n', h' ≠ h → (h', bus') ∈ vc.locked → (h', n') ∈ vc.held →
        Apart ⟨env.lock vc h, n⟩ ⟨bus', n'⟩

/-- The process before anything was created: only memory in use is locked (by whomever), and mappings
are numbered in their order. -/
structure ProcTidy (s : Proc) : Prop where
  locked : ∀ e ∈ s.vc.locked, e.1 ∈ s.vc.held.map (·.1)
  maps : ∀ i ∈ s.maps, i < s.made

/-- A handle is in use. -/
def InUse (vc : Vc) (h : Nat) : Prop := h ∈ vc.held.map (·.1)

/-- The channels with the memory their control blocks are in. -/
def channels (o : Proc.Objs) : List (Nat × Cma) := [(4, o.dma), (14, o.pwm), (13, o.dog)]

/-- A channel executes control blocks in memory that was given back. -/
def Dangling (o : Proc.Objs) (vc : Vc) (hw : DmaHw) : Prop :=
  ∃ e ∈ channels o, (hw e.1).active = true ∧ ¬ InUse vc e.2.handle

/-- The end of the process, up to some moment: registered functions are called, the engines go on, and
the thread that feeds the watchdog (a daemon) may still do so. -/
inductive Leaving (env : VcEnv) (o : Proc.Objs) : Proc × DmaHw → Proc × DmaHw → Prop
  | now {x : Proc × DmaHw} : Leaving env o x x
  | hook {x : Proc × DmaHw} {s : Proc} {hw : DmaHw} (h : Leaving env o x (s, hw)) :
      Leaving env o x (s.exitStep env, hw)
  | engine {x : Proc × DmaHw} {s : Proc} {hw : DmaHw} (l : List (Nat × (Word → Word)))
      (h : Leaving env o x (s, hw)) : Leaving env o x (s, hw.advance l)
  | feed {x : Proc × DmaHw} {s : Proc} {hw : DmaHw} (act : Nat → Moment) (n : Nat)
      (h : Leaving env o x (s, hw)) :
      Leaving env o x (s, (DmaProto.feed act 13 o.dog.buf ⟨hw, n⟩).hw)

end Spec

end PyCNC
