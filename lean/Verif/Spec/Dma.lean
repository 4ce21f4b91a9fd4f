import Verif.Model.HalMove
import Verif.Spec.Pulses

/-!
# Vocabulary for statements about DMA programs
-/

namespace PyCNC

namespace Spec

variable {F : Type}

/-- The buffer is a real piece of memory: at a nonzero bus address, below 4 GB and not
overlapping the GPIO registers. -/
structure BufOk (b : Buf) : Prop where
  pos : 0 < b.base
  top : b.base + b.size < 2 ^ 32
  apart : b.base + b.size ≤ 0x7E200000 ∨ 0x7E201000 ≤ b.base

/-- All motor pins are in the first bank of 32. -/
def PinsOk (p : Pins) : Prop := ∀ ax, p.step.get ax < 32 ∧ p.dir.get ax < 32

/-- The mask `m` consists exactly of the pins described by `P`. -/
def Covers (m : Word) (P : Nat → Prop) : Prop := ∀ q < 32, m.getLsbD q = true ↔ P q

/-- A change of pin levels: time, new level, pins. -/
abbrev Edge := Nat × Bool × Word

/-- A write of no pins is not visible. -/
def edge (t : Nat) (lvl : Bool) (m : Word) : List Edge := if m = 0#32 then [] else [(t, lvl, m)]

/-- The level changes made by writes to the output set and clear registers of the first bank
(the register offsets of the BCM2835 manual), oldest first. -/
def edges : List (Nat × Nat × Word) → List Edge
  | [] => []
  | (t, o, m) :: r =>
    (if o = 0x1C then edge t true m else if o = 0x28 then edge t false m else []) ++ edges r

/-- Only output set and clear registers of the first bank are written. -/
def OnlyOutputs (log : List (Nat × Nat × Word)) : Prop :=
  ∀ e ∈ log, e.2.1 = 0x1C ∨ e.2.1 = 0x28

/-- `Plays p len t evs es Ts`: the level changes `es` are what the events `evs` ask for, in
order, not before `t`; each step pulse lasts `len`, `Ts` are the times at which they start.
Directions: the pin is low for forward and high for reverse. -/
inductive Plays (p : Pins) (len : Nat) : Nat → List (Event F) → List Edge → List Nat → Prop
  | nil (t : Nat) : Plays p len t [] [] []
  | dir {t : Nat} {d : V4 Int} {hi lo : Word} {evs : List (Event F)} {es : List Edge}
      {Ts : List Nat}
      (hhi : Covers hi fun q => ∃ ax, d.get ax < 0 ∧ p.dir.get ax = q)
      (hlo : Covers lo fun q => ∃ ax, 0 < d.get ax ∧ p.dir.get ax = q)
      (rest : Plays p len t evs es Ts) :
      Plays p len t (.dir d :: evs) (edge t true hi ++ edge t false lo ++ es) Ts
  | pulse {t T : Nat} {x : V4 (Option F)} {m : Word} {evs : List (Event F)} {es : List Edge}
      {Ts : List Nat} (h : t ≤ T)
      (hm : Covers m fun q => ∃ ax, (x.get ax).isSome ∧ p.step.get ax = q) (hm0 : m ≠ 0#32)
      (rest : Plays p len (T + len) evs es Ts) :
      Plays p len t (.pulse x :: evs) ((T, true, m) :: (T + len, false, m) :: es) (T :: Ts)

/-- The times of the step pulses in whole microseconds. -/
inductive Stamps [PyNum F] : List (Event F) → List Int → Prop
  | nil : Stamps [] []
  | dir {d : V4 Int} {evs : List (Event F)} {ks : List Int} (h : Stamps evs ks) :
      Stamps (.dir d :: evs) ks
  | pulse {x : V4 (Option F)} {τ : F} {evs : List (Event F)} {ks : List Int}
      (hx : StepsAt τ (.pulse x)) (h : Stamps evs ks) :
      Stamps (.pulse x :: evs) (PyNum.roundI (τ *ₚ PyNum.ofRat 1000000) :: ks)

/-- Each stamp is at least `len` after the one before it (`t` for the first). -/
def Spaced (len : Int) : Int → List Int → Prop
  | _, [] => True
  | t, k :: ks => t ≤ k ∧ Spaced len (k + len) ks

/-- The pause before each stamp is less than 2^26 microseconds (67 s), the longest transfer the
engine supports. -/
def ShortGaps (len : Int) : Int → List Int → Prop
  | _, [] => True
  | t, k :: ks => k - t < 2 ^ 26 ∧ ShortGaps len (k + len) ks

/-- A schedule of the engine relative to the states of the buffer it runs in: under each state
but the last it stays behind the last control block written so far, under the last state it
gets the time for at least `N` blocks. -/
def Behind (N : Nat) : List DmaSt → List Nat → Nat → Prop
  | [_], [n], _ => N ≤ n
  | d :: ds, n :: ns, tot => 32 * (tot + n) < d.addr ∧ Behind N ds ns (tot + n)
  | _, _, _ => False

/-- The engine only advances through the buffer, and once stopped it stays stopped until it is
started. -/
structure Progress (env : MoveEnv) : Prop where
  nonneg : ∀ tr q, env.cb tr = some q → 0 ≤ q
  advance : ∀ tr op q q', op ≠ .runStream → op ≠ .run → env.cb tr = some q →
    env.cb (op :: tr) = some q' → q ≤ q'
  stopped : ∀ tr op, op ≠ .runStream → op ≠ .run → env.cb tr = none → env.cb (op :: tr) = none

/-- The accesses of `move` to the engine and its buffer respect a program that still runs from
an earlier call:
* what is written lies inside the buffer, and as long as the earlier program runs, before the
  control block it is at;
* the engine is started only when it is stopped;
* the end mark is written only after waiting for the earlier program or after the engine was
  started for this one. -/
def Respects (env : MoveEnv) (b : Buf) : List HalOp → Prop
  | [] => True
  | .write a l :: tr =>
    a + l ≤ b.size ∧
      (.runStream ∉ tr → ∀ q, env.cb tr = some q → (a : Int) + l ≤ q) ∧ Respects env b tr
  | .runStream :: tr => env.cb tr = none ∧ Respects env b tr
  | .finalize a :: tr =>
    a + 4 ≤ b.size ∧ (.runStream ∈ tr ∨ .waitIdle ∈ tr) ∧ Respects env b tr
  | .run :: tr => .waitIdle ∈ tr ∧ .runStream ∉ tr ∧ Respects env b tr
  | _ :: tr => Respects env b tr

end Spec

end PyCNC
