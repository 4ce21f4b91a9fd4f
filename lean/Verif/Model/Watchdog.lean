import Verif.Model.Dma

/-!
# `DMAWatchdog`: `hal_raspberry/rpgpio.py:362-409`
-/

namespace PyCNC

/-- `_DMA_BLOCKS`, `rpgpio.py:365`. -/
abbrev wdBlocks : Nat := 2047
/-- Information word of the delay blocks, `rpgpio.py:384-385`. -/
abbrev wdDelayInfo : Nat := 2 ^ 26 + 2 ^ 7 + 2 ^ 3 + 31 * 2 ^ 21
/-- Information word of the last block, `rpgpio.py:395`. -/
abbrev wdLastInfo : Nat := 2 ^ 26 + 2 ^ 3 + 2 ^ 4

/-- The watchdog channel.  The engine is executing the block at `pos`; `next` is its NEXTCONBK
register, loaded with the last but two word of the block when the block is started. -/
structure WdSt where
  w : World
  active : Bool
  pos : Nat
  next : Nat

namespace Wd

/-- The tuple of the delay blocks, `rpgpio.py:382-389`; the first argument is the number of
iterations left. -/
def delays (b : Buf) : Nat → Nat → List Nat
  | 0, _ => []
  | n + 1, ba => [wdDelayInfo, ba + 24, ba + 28, 65535, 0, ba + cbSize, 0, 0] ++
      delays b n (ba + cbSize)

/-- The whole tuple, `rpgpio.py:379-398`. -/
def data (b : Buf) : List Nat :=
  let ba := b.base + wdBlocks * cbSize
  delays b wdBlocks b.base ++ [wdLastInfo, ba + 24, gpioBus + 0, 12, 0, 0, 0, 0]

/-- The engine starts the block at `a` (address zero: it stops). -/
def load (b : Buf) (s : WdSt) (a : Nat) : WdSt :=
  if a = 0 then { s with active := false, pos := 0, next := 0 }
  else { s with active := true, pos := a, next := (Dma.busRead b s.w (a + 20)).toNat }

/-- `start`, `rpgpio.py:374-400`. -/
def start (b : Buf) (w : World) : Except PyErr WdSt := do
  let mem ← packInto w.mem 0 (data b)
  return load b ⟨{ w with mem := mem }, false, 0, 0⟩ b.base

/-- `feed`, `rpgpio.py:407-411`. -/
def feed (b : Buf) (s : WdSt) : WdSt := { s with next := b.base }

/-- `stop`, `rpgpio.py:402-405`. -/
def stop (s : WdSt) : WdSt := { s with active := false }

/-- The engine completes the current block and starts the next one.  Simplification: what a block
transfers becomes effective when it is completed. -/
def tick (b : Buf) (s : WdSt) : WdSt :=
  if s.active then load b { s with w := (Dma.execBlock b s.pos s.w).1 } s.next else s

end Wd

end PyCNC
