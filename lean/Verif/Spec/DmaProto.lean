import Verif.Model.DmaProto
import Verif.Spec.Dma
import Verif.Spec.Watchdog

/-!
# Vocabulary for statements about the registers of the DMA controller
-/

namespace PyCNC

namespace Spec

/-- The channel does nothing and has no block half done. -/
structure ChIdle (c : Chan) : Prop where
  off : c.active = false
  fresh : c.loaded = false

/-- The channel executes the block at `a` and will then go on with the one at `n` (zero: stop). -/
structure ChRuns (c : Chan) (a n : Nat) : Prop where
  on : c.active = true
  loaded : c.loaded = true
  at_ : c.conblk.toNat = a
  next : c.next.toNat = n

/-- The engines have gone on during `k` accesses of the CPU, the first of them being access `n`. -/
def passed (act : Nat → Moment) : Nat → Nat → DmaHw → DmaHw
  | _, 0, h => h
  | n, k + 1, h => passed act (n + 1) k (h.advance (act n).done)

/-- The address of a control block of the buffer. -/
def IsBlock (b : Buf) (a : Word) : Prop := ∃ k, a.toNat = b.base + 32 * k ∧ 32 * k < b.size

/-- The blocks of the buffer lead to blocks of the buffer, or end. -/
def Linked (b : Buf) (nextOf : Word → Word) : Prop :=
  ∀ a, IsBlock b a → nextOf a = 0#32 ∨ IsBlock b (nextOf a)

/-- So they do in every moment in which the channel `ch` reads one. -/
def LinkedIn (b : Buf) (ch : Nat) (m : Moment) : Prop :=
  (∀ e ∈ m.done, e.1 = ch → Linked b e.2) ∧ Linked b m.nextOf

/-- The life of the channel `ch`, used by an object with the buffer `b`: it is reset in the beginning,
engines go on, the object starts it when it is not active, stops it, feeds it, and the objects of
other channels do what they like. -/
inductive ChLife (ch : Nat) (b : Buf) : DmaHw → Prop
  | reset {h : DmaHw} (h0 : h ch = ⟨0#32, 0#32, 0#32, false⟩) : ChLife ch b h
  | engine {h : DmaHw} {l : List (Nat × (Word → Word))} (hl : ChLife ch b h)
      (hm : ∀ e ∈ l, e.1 = ch → Linked b e.2) : ChLife ch b (h.advance l)
  | run {act : Nat → Moment} {s : DmaBus} (hl : ChLife ch b s.hw) (h0 : (s.hw ch).active = false)
      (hm : ∀ n, LinkedIn b ch (act n)) : ChLife ch b (DmaProto.runDma act ch b s).hw
  | stop {act : Nat → Moment} {s : DmaBus} (hl : ChLife ch b s.hw) :
      ChLife ch b (DmaProto.stopDma act ch s).hw
  | feed {act : Nat → Moment} {s : DmaBus} (hl : ChLife ch b s.hw)
      (hm : ∀ n, LinkedIn b ch (act n)) : ChLife ch b (DmaProto.feed act ch b s).hw
  | otherRun {act : Nat → Moment} {s : DmaBus} {ch' : Nat} {b' : Buf} (hl : ChLife ch b s.hw)
      (hne : ch' ≠ ch) (hm : ∀ n, LinkedIn b ch (act n)) :
      ChLife ch b (DmaProto.runDma act ch' b' s).hw
  | otherStop {act : Nat → Moment} {s : DmaBus} {ch' : Nat} (hl : ChLife ch b s.hw)
      (hne : ch' ≠ ch) (hm : ∀ n, LinkedIn b ch (act n)) :
      ChLife ch b (DmaProto.stopDma act ch' s).hw
  | otherFeed {act : Nat → Moment} {s : DmaBus} {ch' : Nat} {b' : Buf} (hl : ChLife ch b s.hw)
      (hne : ch' ≠ ch) (hm : ∀ n, LinkedIn b ch (act n)) :
      ChLife ch b (DmaProto.feed act ch' b' s).hw

/-- The offset in the buffer of the block that a channel is at, as the code asks for it. -/
def offset (b : Buf) (c : Chan) : Option Int :=
  if c.conblk = 0#32 then none else some ((c.conblk.toNat : Int) - b.base)

/-! ### The watchdog with its registers -/

/-- The memory and the pins, and the registers of the DMA controller. -/
structure DogSys where
  w : World
  hw : DmaHw

/-- The `next` word of a block in memory. -/
def nextWord (b : Buf) (w : World) (a : Word) : Word := Dma.busRead b w (a.toNat + 20)

/-- What can happen to them. -/
inductive DogEv where
  /-- the channel of the watchdog completes a block -/
  | tick
  /-- `feed()` is called -/
  | feed
  /-- another channel changes, in whatever way -/
  | other (ch : Nat) (c : Chan)

/-- One event. -/
def dogDo (b : Buf) (s : DogSys) : DogEv → DogSys
  | .tick =>
    if (s.hw 13).active then
      let w := (Dma.execBlock b (s.hw 13).conblk.toNat s.w).1
      ⟨w, s.hw.upd 13 (Chan.tick (nextWord b w))⟩
    else s
  | .feed => ⟨s.w, (DmaProto.feed (fun _ => ⟨[], nextWord b s.w⟩) 13 b ⟨s.hw, 0⟩).hw⟩
  | .other ch c => if ch = 13 then s else ⟨s.w, s.hw.upd ch fun _ => c⟩

/-- A history of events, oldest first. -/
def dogRun (b : Buf) (s : DogSys) (evs : List DogEv) : DogSys := evs.foldl (dogDo b) s

/-- What concerns the watchdog. -/
def dogEvents : List DogEv → List WdEv
  | [] => []
  | .tick :: evs => .tick :: dogEvents evs
  | .feed :: evs => .feed :: dogEvents evs
  | .other _ _ :: evs => dogEvents evs

/-- `DMAWatchdog.start` with its registers, `rpgpio.py:374-399`: the blocks are written to the buffer
and the channel is started. -/
def dogStart (b : Buf) (s : DogSys) : Except PyErr DogSys := do
  let mem ← packInto s.w.mem 0 (Wd.data b)
  let w := { s.w with mem := mem }
  return ⟨w, (DmaProto.runDma (fun _ => ⟨[], nextWord b w⟩) 13 b ⟨s.hw, 0⟩).hw⟩

/-! ### The clock -/

/-- The rules of the manual for the clock generator (a write needs the password `5A` in the upper
byte; the divisor may only change, and the clock only be enabled, when BUSY was seen to be zero
after it had been disabled).  `idle`: it was seen so. -/
def ClockRules : Bool → List StreamOp → Prop
  | _, [] => True
  | idle, .clock off v :: l =>
    v >>> 24 = 0x5A#32 ∧ (off = 0xA4 → idle = true) ∧
      (off = 0xA0 → v.getLsbD 4 = true → idle = true) ∧
      ClockRules (if off = 0xA4 then idle else false) l
  | _, .busy a :: l => ClockRules (!a) l
  | idle, _ :: l => ClockRules idle l

/-- The engine is started in the end, and neither started nor stopped before. -/
def StartsLast (l : List StreamOp) : Prop :=
  ∃ l', l = l' ++ [.run] ∧ StreamOp.run ∉ l' ∧ StreamOp.stop ∉ l'

/-- What a register of the PWM module holds after some accesses. -/
def pwmReg (off : Nat) (l : List StreamOp) : Option Word :=
  l.foldl (fun r op => match op with
    | .pwm o v => if o = off then some v else r
    | _ => r) none

/-- What a register of the clock manager holds, without the password. -/
def clockReg (off : Nat) (l : List StreamOp) : Option Word :=
  l.foldl (fun r op => match op with
    | .clock o v => if o = off then some (v &&& 0xFFFFFF#32) else r
    | _ => r) none

/-- The rate of words, per second, that the PWM module takes from its queue: the source 6 is the clock
PLLD with 500 MHz, the upper part of the divisor counts, and a word lasts as many clocks as the range
register says. -/
def wordRate (l : List StreamOp) : Option Nat :=
  match clockReg 0xA0 l, clockReg 0xA4 l, pwmReg 0x10 l with
  | some c, some d, some r =>
    if c.getLsbD 4 = true ∧ c &&& 15#32 = 6#32 then
      some (500000000 / (d.toNat / 4096) / r.toNat)
    else none
  | _, _, _ => none

/-- What the accesses of `DMAGPIO` do to the DMA controller, oldest first: its channel is 4, and the
registers of the PWM module and of the clock are others. -/
def streamRun (act : Nat → Moment) (b : Buf) (l : List StreamOp) (s : DmaBus) : DmaBus :=
  l.foldl (fun s op => match op with
    | .run => DmaProto.runDma act 4 b s
    | .stop => DmaProto.stopDma act 4 s
    | _ => s) s

end Spec

end PyCNC
