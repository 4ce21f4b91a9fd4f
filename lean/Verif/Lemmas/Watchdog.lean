import Verif.Spec.Watchdog
import Verif.Spec.Dma
import Verif.Lemmas.Dma
import Verif.Lemmas.Pwm
import Mathlib.Data.List.Basic

/-!
# Invariants of the watchdog
-/

namespace PyCNC

open Spec

namespace Wd

/-! ### The chain of blocks -/

theorem delays_length (b : Buf) : ∀ n ba, (delays b n ba).length = 8 * n
  | 0, _ => rfl
  | n + 1, ba => by
    rw [delays, List.length_append, delays_length b n]
    simp only [List.length_cons, List.length_nil]
    omega

theorem delays_get (b : Buf) : ∀ (n ba i j : Nat), i < n → j < 8 →
    (delays b n ba).getD (8 * i + j) 0 =
      [wdDelayInfo, ba + 32 * i + 24, ba + 32 * i + 28, 65535, 0, ba + 32 * i + 32, 0, 0].getD j 0
  | 0, _, i, _, h, _ => absurd h (Nat.not_lt_zero i)
  | n + 1, ba, i, j, hi, hj => by
    rw [delays]
    cases i with
    | zero =>
      rw [List.getD_append _ _ _ _ (by simp only [List.length_cons, List.length_nil]; omega)]
      simp only [Nat.mul_zero, Nat.zero_add, Nat.add_zero, cbSize]
    | succ i =>
      rw [List.getD_append_right _ _ _ _
        (by simp only [List.length_cons, List.length_nil]; omega)]
      have e : 8 * (i + 1) + j - [wdDelayInfo, ba + 24, ba + 28, 65535, 0, ba + cbSize, 0, 0].length
          = 8 * i + j := by
        simp only [List.length_cons, List.length_nil]; omega
      rw [e, delays_get b n (ba + cbSize) i j (by omega) hj]
      have e2 : ba + cbSize + 32 * i = ba + 32 * (i + 1) := by simp only [cbSize]; omega
      rw [e2]

/-- The control blocks of the watchdog in memory. -/
structure Chain (b : Buf) (mem : Nat → Word) : Prop where
  info : ∀ i < 2047, (mem (8 * i)).toNat = wdDelayInfo
  next : ∀ i < 2047, (mem (8 * i + 5)).toNat = b.base + 32 * i + 32
  linfo : (mem (8 * 2047)).toNat = wdLastInfo
  lsrc : (mem (8 * 2047 + 1)).toNat = b.base + 32 * 2047 + 24
  ldst : (mem (8 * 2047 + 2)).toNat = gpioBus
  llen : (mem (8 * 2047 + 3)).toNat = 12
  lnext : (mem (8 * 2047 + 5)).toNat = 0
  ldata : (mem (8 * 2047 + 6)).toNat = 0

theorem data_eq (b : Buf) : data b = delays b 2047 b.base ++
    [wdLastInfo, b.base + 32 * 2047 + 24, gpioBus, 12, 0, 0, 0, 0] := rfl

attribute [local irreducible] data delays

theorem chain_of_pack {b : Buf} {mem m' : Nat → Word} (h : packInto mem 0 (data b) = .ok m') :
    Chain b m' := by
  obtain ⟨-, h1, -⟩ := packInto_ok h
  have hl : (data b).length = 8 * 2047 + 8 := by
    rw [data_eq, List.length_append, delays_length]
    simp only [List.length_cons, List.length_nil]
  rw [hl] at h1
  simp only [Nat.zero_div, Nat.zero_add] at h1
  have hd : ∀ i < 2047, ∀ j < 8, (m' (8 * i + j)).toNat =
      [wdDelayInfo, b.base + 32 * i + 24, b.base + 32 * i + 28, 65535, 0, b.base + 32 * i + 32,
        0, 0].getD j 0 := by
    intro i hi j hj
    have hlt : 8 * i + j < (delays b 2047 b.base).length := by rw [delays_length]; omega
    have h2 := h1 (8 * i + j) (by omega)
    rw [h2, data_eq, List.getD_append _ _ _ _ hlt, delays_get b _ _ i j hi hj]
  have hl : ∀ j < 8, (m' (8 * 2047 + j)).toNat =
      [wdLastInfo, b.base + 32 * 2047 + 24, gpioBus, 12, 0, 0, 0, 0].getD j 0 := by
    intro j hj
    have hge : (delays b 2047 b.base).length ≤ 8 * 2047 + j := by rw [delays_length]; omega
    have h2 := h1 (8 * 2047 + j) (by omega)
    have e : 8 * 2047 + j - 8 * 2047 = j := by omega
    rw [h2, data_eq, List.getD_append_right _ _ _ _ hge, delays_length, e]
  have d0 := fun i hi => hd i hi 0 (by omega)
  have d5 := fun i hi => hd i hi 5 (by omega)
  have l0 := hl 0 (by omega)
  have l1 := hl 1 (by omega)
  have l2 := hl 2 (by omega)
  have l3 := hl 3 (by omega)
  have l5 := hl 5 (by omega)
  have l6 := hl 6 (by omega)
  simp only [List.getD_cons_zero, List.getD_cons_succ, Nat.add_zero] at d0 d5 l0 l1 l2 l3 l5 l6
  exact ⟨d0, d5, l0, l1, l2, l3, l5, l6⟩

theorem xfer_ignore7 (b : Buf) (info : Word) (h : info.getLsbD 7 = true) (n : Nat) :
    ∀ src dst w, Dma.xfer b info n src dst w = w := by
  induction n with
  | zero => intros; rfl
  | succ n ih =>
    intro src dst w
    rw [Dma.xfer]
    simp only [h, or_true, if_true]
    exact ih _ _ _

theorem exec_delay {b : Buf} (hs : 65536 ≤ b.size) {w : World} (hc : Chain b w.mem) {i : Nat}
    (hi : i < 2047) : (Dma.execBlock b (b.base + 32 * i) w).1 = w := by
  have r0 := Dma.busRead_at b w i 0 (by omega) (by omega)
  simp only [Nat.mul_zero, Nat.add_zero] at r0
  have e0 := Dma.word_eq (hc.info i hi)
  have b1 : (w.mem (8 * i)).getLsbD 1 = false := by rw [e0]; decide
  have b6 : (w.mem (8 * i)).getLsbD 6 = false := by rw [e0]; decide
  have b7 : (w.mem (8 * i)).getLsbD 7 = true := by rw [e0]; decide
  simp only [Dma.execBlock, r0, b1, b6, Bool.false_eq_true, if_false]
  exact xfer_ignore7 b _ b7 _ _ _ _

/-- Function select registers of the pins 0 to 29: all inputs. -/
def Off (g : GpioHw) : Prop := g.reg 0 = 0#32 ∧ g.reg 4 = 0#32 ∧ g.reg 8 = 0#32

theorem write_plain (g : GpioHw) (o : Nat) (h : o < 0x1C) (v : Word) :
    g.write o v = { g with reg := fun x => if x = o then v else g.reg x } := by
  have h1 : ¬ (o = gpioSet ∨ o = gpioSet + 4) := by simp only [gpioSet]; omega
  have h2 : ¬ (o = gpioClear ∨ o = gpioClear + 4) := by simp only [gpioClear]; omega
  have h3 : ¬ (o = gpioPudClk ∨ o = gpioPudClk + 4) := by simp only [gpioPudClk]; omega
  rw [GpioHw.write, if_neg h1, if_neg h2, if_neg h3]

theorem exec_last {b : Buf} (hs : 65536 ≤ b.size) {w : World} (hc : Chain b w.mem) :
    Off (Dma.execBlock b (b.base + 32 * 2047) w).1.gpio ∧
      (Dma.execBlock b (b.base + 32 * 2047) w).1.mem = w.mem ∧
      (Dma.execBlock b (b.base + 32 * 2047) w).1.gpio.latch = w.gpio.latch := by
  have r : ∀ j < 8, Dma.busRead b w (b.base + 32 * 2047 + 4 * j) = w.mem (8 * 2047 + j) :=
    fun j hj => Dma.busRead_at b w 2047 j hj (by omega)
  have r0 := r 0 (by omega)
  have r1 := r 1 (by omega)
  have r2 := r 2 (by omega)
  have r3 := r 3 (by omega)
  simp only [Nat.mul_zero, Nat.add_zero, Nat.mul_one, Nat.reduceMul] at r0 r1 r2 r3
  have e0 := Dma.word_eq hc.linfo
  have k1 := hc.lsrc
  have k2 := hc.ldst
  have k3 := hc.llen
  simp only [Nat.reduceMul] at e0 k1 k2 k3 r
  have b1 : (w.mem 16376).getLsbD 1 = false := by rw [e0]; decide
  have b6 : (w.mem 16376).getLsbD 6 = false := by rw [e0]; decide
  have b7 : (w.mem 16376).getLsbD 7 = false := by rw [e0]; decide
  have b11 : (w.mem 16376).getLsbD 11 = false := by rw [e0]; decide
  have b8 : (w.mem 16376).getLsbD 8 = false := by rw [e0]; decide
  have b4 : (w.mem 16376).getLsbD 4 = true := by rw [e0]; decide
  have l1 : (12 % 2 ^ 30 + 3) / 4 = 3 := by decide
  simp only [Dma.execBlock, Nat.reduceMul, r0, r1, r2, r3, b1, b6, Bool.false_eq_true, if_false]
  have g0 : ∀ (w : World) (v : Word), Dma.busWrite b w gpioBus v =
      { w with gpio := w.gpio.write 0 v, log := (w.time, 0, v) :: w.log } :=
    fun w v => Dma.busWrite_gpio b w 0 (by decide) v
  have g4 : ∀ (w : World) (v : Word), Dma.busWrite b w (gpioBus + 4) v =
      { w with gpio := w.gpio.write 4 v, log := (w.time, 4, v) :: w.log } :=
    fun w v => Dma.busWrite_gpio b w 4 (by decide) v
  have g8 : ∀ (w : World) (v : Word), Dma.busWrite b w (gpioBus + 4 + 4) v =
      { w with gpio := w.gpio.write 8 v, log := (w.time, 8, v) :: w.log } :=
    fun w v => Dma.busWrite_gpio b w 8 (by decide) v
  have d : ∀ w' : World, w'.mem = w.mem → Dma.busRead b w' (b.base + 65504 + 24) = 0#32 := by
    intro w' hw
    have h6 := Dma.busRead_at b w' 2047 6 (by omega) (by omega)
    simp only [Nat.reduceMul, Nat.reduceAdd] at h6
    have h7 := Dma.word_eq hc.ldata
    simp only [Nat.reduceMul, Nat.reduceAdd] at h7
    rw [h6, hw, h7]
  rw [k1, k2, k3, l1]
  simp only [Dma.xfer, b7, b11, b8, b4, or_self, Bool.false_eq_true, if_false, if_true, g0, g4, g8]
  have d' : ∀ (g : GpioHw) (l : List (Nat × Nat × Word)) (t : Nat),
      Dma.busRead b ⟨w.mem, g, l, t⟩ (b.base + 65504 + 24) = 0#32 := fun g l t => d _ rfl
  rw [d w rfl]
  simp only [d']
  rw [write_plain _ 0 (by decide), write_plain _ 4 (by decide), write_plain _ 8 (by decide)]
  exact ⟨⟨by simp, by simp, by simp⟩, trivial, rfl⟩

/-! ### States of the engine -/

/-- The engine is executing block `i`; `f` tells whether it was fed since the block was started. -/
structure At (b : Buf) (s : WdSt) (i : Nat) (f : Bool) : Prop where
  chain : Chain b s.w.mem
  le : i ≤ 2047
  active : s.active = true
  pos : s.pos = b.base + 32 * i
  next : s.next = if f then b.base else if i = 2047 then 0 else b.base + 32 * i + 32

theorem load_at {b : Buf} (hb : BufOk b) (hs : 65536 ≤ b.size) {s : WdSt} (hc : Chain b s.w.mem)
    {i : Nat} (hi : i ≤ 2047) : At b (load b s (b.base + 32 * i)) i false ∧
      (load b s (b.base + 32 * i)).w = s.w := by
  have hp := hb.pos
  have hne : ¬ b.base + 32 * i = 0 := by omega
  have r5 := Dma.busRead_at b s.w i 5 (by omega) (by omega)
  rw [load, if_neg hne]
  have e : (Dma.busRead b s.w (b.base + 32 * i + 20)).toNat =
      if i = 2047 then 0 else b.base + 32 * i + 32 := by
    have r5' : Dma.busRead b s.w (b.base + 32 * i + 20) = s.w.mem (8 * i + 5) := r5
    rw [r5']
    by_cases h : i = 2047
    · rw [if_pos h, h]
      exact hc.lnext
    · rw [if_neg h]
      exact hc.next i (by omega)
  refine ⟨⟨hc, hi, rfl, rfl, ?_⟩, rfl⟩
  simp only [Bool.false_eq_true, if_false]
  exact e

theorem start_at {b : Buf} (hb : BufOk b) (hs : 65536 ≤ b.size) {w : World} {s : WdSt}
    (h : start b w = .ok s) : At b s 0 false ∧ s.w.gpio = w.gpio ∧ s.w.log = w.log := by
  unfold start at h
  cases hp : packInto w.mem 0 (data b) with
  | error e => rw [hp] at h; cases h
  | ok m =>
    rw [hp] at h
    simp only [bind, Except.bind, pure, Except.pure] at h
    injection h with h
    subst h
    obtain ⟨h1, h2⟩ := load_at hb hs (s := ⟨{ w with mem := m }, false, 0, 0⟩)
      (chain_of_pack hp) (Nat.zero_le 2047)
    rw [Nat.mul_zero, Nat.add_zero] at h1 h2
    exact ⟨h1, by rw [h2], by rw [h2]⟩

theorem feed_at {b : Buf} {s : WdSt} {i : Nat} {f : Bool} (h : At b s i f) :
    At b (feed b s) i true ∧ (feed b s).w = s.w :=
  ⟨⟨h.chain, h.le, h.active, h.pos, rfl⟩, rfl⟩

/-- A delay block is completed. -/
theorem tick_delay {b : Buf} (hb : BufOk b) (hs : 65536 ≤ b.size) {s : WdSt} {i : Nat} {f : Bool}
    (h : At b s i f) (hi : i < 2047) :
    At b (tick b s) (if f then 0 else i + 1) false ∧ (tick b s).w = s.w := by
  have e : (Dma.execBlock b s.pos s.w).1 = s.w := by
    rw [h.pos]; exact exec_delay hs h.chain hi
  have he : tick b s = load b s s.next := by
    rw [tick, if_pos h.active, e]
  rw [he, h.next]
  cases f with
  | true =>
    have := load_at hb hs h.chain (Nat.zero_le 2047)
    rw [Nat.mul_zero, Nat.add_zero] at this
    exact this
  | false =>
    have hne : ¬ i = 2047 := by omega
    simp only [Bool.false_eq_true, if_false, if_neg hne]
    exact load_at hb hs h.chain (by omega : i + 1 ≤ 2047)

/-- The last block is completed. -/
theorem tick_last {b : Buf} (hb : BufOk b) (hs : 65536 ≤ b.size) {s : WdSt} {f : Bool}
    (h : At b s 2047 f) :
    Off (tick b s).w.gpio ∧
      ((f = true ∧ At b (tick b s) 0 false) ∨ (f = false ∧ (tick b s).active = false)) := by
  obtain ⟨h1, h2, -⟩ := exec_last hs h.chain
  rw [← h.pos] at h1 h2
  have he : tick b s = load b { s with w := (Dma.execBlock b s.pos s.w).1 } s.next := by
    rw [tick, if_pos h.active]
  generalize (Dma.execBlock b s.pos s.w).1 = k at h1 h2 he
  have hn := h.next
  cases f with
  | true =>
    have he' : tick b s = load b { s with w := k } (b.base + 32 * 0) := by
      rw [he]; congr 1
    have := load_at hb hs (s := { s with w := k }) (by rw [h2]; exact h.chain) (Nat.zero_le 2047)
    rw [he']
    exact ⟨by rw [this.2]; exact h1, Or.inl ⟨rfl, this.1⟩⟩
  | false =>
    have he' : tick b s = load b { s with w := k } 0 := by
      rw [he]; congr 1
    rw [he', load, if_pos rfl]
    exact ⟨h1, Or.inr ⟨rfl, rfl⟩⟩

/-- Reachable states: somewhere in the chain, or stopped after the last block. -/
def Good (b : Buf) (s : WdSt) : Prop :=
  (∃ i f, At b s i f) ∨ (s.active = false ∧ Off s.w.gpio)

theorem good_do {b : Buf} (hb : BufOk b) (hs : 65536 ≤ b.size) {s : WdSt} (h : Good b s)
    (e : WdEv) : Good b (wdDo b s e) ∧ (Off s.w.gpio → Off (wdDo b s e).w.gpio) := by
  rcases h with ⟨i, f, h⟩ | ⟨h1, h2⟩
  · cases e with
    | feed => exact ⟨Or.inl ⟨i, true, (feed_at h).1⟩, id⟩
    | tick =>
      by_cases hi : i = 2047
      · subst hi
        obtain ⟨h1, h2⟩ := tick_last hb hs h
        refine ⟨?_, fun _ => h1⟩
        rcases h2 with ⟨-, h2⟩ | ⟨-, h2⟩
        · exact Or.inl ⟨0, false, h2⟩
        · exact Or.inr ⟨h2, h1⟩
      · have := h.le
        obtain ⟨h1, h2⟩ := tick_delay hb hs h (by omega)
        exact ⟨Or.inl ⟨_, _, h1⟩, fun ho => by simp only [wdDo]; rw [h2]; exact ho⟩
  · cases e with
    | feed => exact ⟨Or.inr ⟨h1, h2⟩, id⟩
    | tick =>
      have : tick b s = s := by
        rw [tick, h1]; rfl
      simp only [wdDo]
      rw [this]
      exact ⟨Or.inr ⟨h1, h2⟩, id⟩

theorem good_run {b : Buf} (hb : BufOk b) (hs : 65536 ≤ b.size) :
    ∀ (evs : List WdEv) {s : WdSt}, Good b s → Good b (wdRun b s evs) ∧
      (Off s.w.gpio → Off (wdRun b s evs).w.gpio)
  | [], s, h => ⟨h, id⟩
  | e :: evs, s, h => by
    obtain ⟨h1, h2⟩ := good_do hb hs h e
    obtain ⟨h3, h4⟩ := good_run hb hs evs h1
    exact ⟨h3, fun ho => h4 (h2 ho)⟩

/-- Blocks to complete until the last one is completed. -/
def need (i : Nat) (f : Bool) : Nat := if f then 2049 else 2048 - i

theorem ticks_off {b : Buf} (hb : BufOk b) (hs : 65536 ≤ b.size) :
    ∀ (n : Nat) {s : WdSt} {i : Nat} {f : Bool}, At b s i f → need i f ≤ n →
      Off (wdRun b s (List.replicate n .tick)).w.gpio
  | 0, s, i, f, h, hn => by
    have := h.le
    unfold need at hn
    split at hn <;> omega
  | n + 1, s, i, f, h, hn => by
    have hle := h.le
    rw [List.replicate_succ]
    change Off (wdRun b (tick b s) (List.replicate n .tick)).w.gpio
    by_cases hi : i = 2047
    · subst hi
      obtain ⟨h1, h2⟩ := tick_last hb hs h
      refine (good_run hb hs _ ?_).2 h1
      rcases h2 with ⟨-, h2⟩ | ⟨-, h2⟩
      · exact Or.inl ⟨0, false, h2⟩
      · exact Or.inr ⟨h2, h1⟩
    · obtain ⟨h1, -⟩ := tick_delay hb hs h (by omega)
      refine ticks_off hb hs n h1 ?_
      unfold need at hn ⊢
      cases f <;> simp at hn ⊢ <;> omega

/-- As long as it is fed in time the engine stays in the delay blocks. -/
theorem fed_run {b : Buf} (hb : BufOk b) (hs : 65536 ≤ b.size) {s : WdSt} (h : At b s 0 false)
    (evs : List WdEv) (hf : FedWithin 2047 evs) :
    ∃ i f, At b (wdRun b s evs) i f ∧ (wdRun b s evs).w = s.w ∧ i < 2047 ∧
      (f = false → ∃ pre, evs = pre ++ List.replicate i .tick) := by
  induction evs using List.reverseRecOn with
  | nil => exact ⟨0, false, h, rfl, by omega, fun _ => ⟨[], rfl⟩⟩
  | append_singleton evs e ih =>
    have hf' : FedWithin 2047 evs := fun l hl => hf l (hl.trans ⟨[], [e], by simp⟩)
    obtain ⟨i, f, h1, h2, h3, h4⟩ := ih hf'
    have hr : wdRun b s (evs ++ [e]) = wdDo b (wdRun b s evs) e := by
      rw [wdRun, List.foldl_append]; rfl
    rw [hr]
    cases e with
    | feed =>
      obtain ⟨k1, k2⟩ := feed_at h1
      exact ⟨i, true, k1, k2.trans h2, h3, fun h => (by cases h)⟩
    | tick =>
      obtain ⟨k1, k2⟩ := tick_delay hb hs h1 h3
      refine ⟨_, false, k1, k2.trans h2, ?_, fun _ => ?_⟩
      · cases f with
        | true => simp
        | false =>
          obtain ⟨pre, hp⟩ := h4 rfl
          have hinf : List.replicate (i + 1) WdEv.tick <:+: evs ++ [.tick] := by
            rw [hp]
            exact ⟨pre, [], by rw [List.replicate_succ']; simp⟩
          have := hf _ hinf (by simp)
          simpa using this
      · cases f with
        | true => exact ⟨evs ++ [.tick], by simp⟩
        | false =>
          obtain ⟨pre, hp⟩ := h4 rfl
          refine ⟨pre, ?_⟩
          simp only [Bool.false_eq_true, if_false]
          rw [List.replicate_succ', ← List.append_assoc, ← hp]

theorem off_fsel {g : GpioHw} (h : Off g) {p : Nat} (hp : p < 30) : fsel g p = 0 := by
  obtain ⟨h0, h4, h8⟩ := h
  unfold fsel
  have : p / 10 = 0 ∨ p / 10 = 1 ∨ p / 10 = 2 := by omega
  rcases this with e | e | e
  · rw [e, show 4 * 0 = 0 from rfl, h0]; simp
  · rw [e, show 4 * 1 = 4 from rfl, h4]; simp
  · rw [e, show 4 * 2 = 8 from rfl, h8]; simp

/-- Starting never fails. -/
theorem start_succeeds {b : Buf} (hb : BufOk b) (hs : 65536 ≤ b.size) (w : World) :
    ∃ s, start b w = .ok s := by
  have ht := hb.top
  have hd : ∀ n ba, ba + 32 * n ≤ b.base + b.size → ∀ v ∈ delays b n ba, v < 2 ^ 32 := by
    intro n
    induction n with
    | zero => intro ba _ v hv; rw [delays] at hv; cases hv
    | succ n ih =>
      intro ba hba v hv
      rw [delays, List.mem_append] at hv
      rcases hv with hv | hv
      · simp only [List.mem_cons, List.not_mem_nil, or_false, cbSize, wdDelayInfo] at hv
        omega
      · exact ih (ba + cbSize) (by simp only [cbSize]; omega) v hv
  have hall : (data b).all (fun v => decide (v < 2 ^ 32)) = true := by
    rw [List.all_eq_true]
    intro v hv
    rw [decide_eq_true_eq]
    rw [data, List.mem_append] at hv
    rcases hv with hv | hv
    · exact hd _ _ (by simp only [wdBlocks]; omega) v hv
    · simp only [List.mem_cons, List.not_mem_nil, or_false, cbSize, wdBlocks, wdLastInfo,
        gpioBus] at hv
      omega
  unfold start packInto
  rw [if_pos hall]
  exact ⟨_, rfl⟩

end Wd

end PyCNC
