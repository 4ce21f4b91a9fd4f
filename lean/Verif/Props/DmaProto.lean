import Verif.Lemmas.DmaProto
import Verif.Props.Watchdog

/-!
# Property C73: the DMA channels are started, stopped and asked correctly

The code under proof is `DMAProto` of `rpgpio_private.py` and `run_stream` of `rpgpio.py`, on a model
of the registers of the DMA controller.  Between any two accesses of the CPU the engines may complete
any number of blocks, and the memory they read may have changed (`act`).
-/

namespace PyCNC.Props

open PyCNC Spec DmaProto

variable {act : Nat → Moment} {ch : Nat} {b : Buf} {s : DmaBus}

/-- A buffer as `/dev/vcio` gives it, at the address of a page. -/
def pageBuf : Buf := ⟨0xC0010000, 65536⟩

theorem pageBuf_ok : BufOk pageBuf ∧ 32 ∣ pageBuf.base := ⟨⟨by decide, by decide, by decide⟩, by decide⟩

/-- The controller after a reset. -/
def resetHw : DmaHw := fun _ => ⟨0#32, 0#32, 0#32, false⟩

/-- **C73, start.** `_run_dma` on an idle channel: the channel executes the first block of the buffer,
and then the one that the memory names there; the other channels only went on with what they were
doing. -/
theorem C73_run (hb : BufOk b) (ha : 32 ∣ b.base) (hi : ChIdle (s.hw ch)) :
    ChRuns ((runDma act ch b s).hw ch) b.base
        ((act (s.n + 3)).nextOf (BitVec.ofNat 32 b.base)).toNat ∧
      ∀ i, i ≠ ch → (runDma act ch b s).hw i = passed act s.n 4 s.hw i :=
  ⟨run_same act (by have := hb.top; omega) hb.pos ha hi, fun _ hi => run_other act hi b s⟩

example : BufOk pageBuf ∧ 32 ∣ pageBuf.base ∧ ChIdle (resetHw 4) := ⟨pageBuf_ok.1, pageBuf_ok.2, rfl, rfl⟩

/-- **C73, stop.** `_stop_dma`, whatever the channel is doing and goes on doing meanwhile: the channel
is reset, it executes nothing; the other channels only went on. -/
theorem C73_stop : (stopDma act ch s).hw ch = ⟨0#32, 0#32, 0#32, false⟩ ∧
    ChIdle ((stopDma act ch s).hw ch) ∧
      ∀ i, i ≠ ch → (stopDma act ch s).hw i = passed act s.n 4 s.hw i := by
  refine ⟨stop_same act ch s, ?_, fun _ hi => stop_other act hi s⟩
  rw [stop_same]
  exact ⟨rfl, rfl⟩

/-- It does so for a running channel. -/
example : ∃ s : DmaBus, (s.hw 4).active = true ∧ ChIdle ((stopDma act 4 s).hw 4) :=
  ⟨runDma act 4 pageBuf ⟨resetHw, 0⟩,
    (C73_run (act := act) (s := ⟨resetHw, 0⟩) pageBuf_ok.1 pageBuf_ok.2 ⟨rfl, rfl⟩).1.on,
    C73_stop.2.1⟩

/-- **C73, questions.** `is_active` and `current_control_block` change nothing and tell the state of
the channel at the moment of the access. -/
theorem C73_ask :
    (isActive act ch s).1 = (passed act s.n 1 s.hw ch).active ∧
    (isActive act ch s).2.hw = passed act s.n 1 s.hw ∧
    (currentControlBlock act ch b s).1 = offset b (passed act s.n 1 s.hw ch) ∧
    (currentControlBlock act ch b s).2.hw = passed act s.n 1 s.hw := by
  refine ⟨?_, rfl, ?_, rfl⟩
  · simp only [isActive, DmaBus.read, DmaHw.read_cs, passed, Chan.active]
    generalize (s.hw.advance (act s.n).done ch).cs = v
    cases hv : v.getLsbD 0
    · rw [beq_eq_false_iff_ne]
      intro h
      have := congrArg (fun x : Word => x.getLsbD 0) h
      simp only [BitVec.getLsbD_and, hv, Bool.false_and] at this
      exact absurd this (by decide)
    · rw [beq_iff_eq]
      apply BitVec.eq_of_getLsbD_eq
      intro i hi
      rw [BitVec.getLsbD_and]
      rcases Nat.eq_zero_or_pos i with rfl | h
      · rw [hv, Bool.true_and]
      · have : csActive.getLsbD i = false := by
          simp only [csActive, BitVec.shiftLeft_zero, BitVec.getLsbD_one]
          simp; omega
        rw [this, Bool.and_false]
  · simp only [currentControlBlock, DmaBus.read, DmaHw.read_conblk, passed, offset]
    rfl

/-- **C73, the two questions agree.** Whatever the history of the channel, if its object starts it only
when it is not active, and if the blocks of the buffer lead to blocks of the buffer: it is active
exactly when there is a current block, which then is one of the buffer, at a multiple of 32 from its
beginning. -/
theorem C73_agree (hb : BufOk b) (ha : 32 ∣ b.base) (hs : 0 < b.size) {h : DmaHw}
    (hl : ChLife ch b h) :
    ((h ch).active = true ↔ (offset b (h ch)).isSome = true) ∧
    (∀ q, offset b (h ch) = some q → ∃ k : Nat, q = 32 * k ∧ 32 * k < b.size) ∧
    ((h ch).active = false → ChIdle (h ch)) := by
  have h0 := hb.pos
  rcases life_proper (by have := hb.top; omega) h0 ha hs hl with ⟨h1, h2, h3, -⟩ | ⟨h1, h2, h3⟩
  · have hne := block_ne h0 h3
    obtain ⟨k, hk, hlt⟩ := h3
    simp only [offset, hne, if_false, h1, Option.isSome_some]
    refine ⟨by simp, fun q hq => ⟨k, ?_, hlt⟩, fun h => by cases h⟩
    cases hq
    rw [hk]
    push_cast
    ring
  · simp only [offset, h3, if_true, h1, Option.isSome_none]
    exact ⟨by simp, fun _ h => (by cases h), fun _ => ⟨h1, h2⟩⟩

/-- A channel that was started, went on by a block, was stopped and started again, while another one
was started. -/
example : ∃ h, ChLife 4 pageBuf h ∧ (h 4).active = true := by
  let act : Nat → Moment := fun _ => ⟨[], fun _ => 0#32⟩
  have hm : ∀ n, LinkedIn pageBuf 4 (act n) :=
    fun n => ⟨fun e he => absurd he (List.not_mem_nil), fun a _ => Or.inl rfl⟩
  have l0 : ChLife 4 pageBuf resetHw := .reset rfl
  have l1 : ChLife 4 pageBuf (runDma act 14 ⟨0xC0020000, 8192⟩ ⟨resetHw, 0⟩).hw :=
    .otherRun (s := ⟨resetHw, 0⟩) l0 (by decide) hm
  have l2 := ChLife.stop (act := act)
    (s := ⟨(runDma act 14 ⟨0xC0020000, 8192⟩ ⟨resetHw, 0⟩).hw, 4⟩) l1
  have h2 := C73_stop (act := act) (ch := 4)
    (s := ⟨(runDma act 14 ⟨0xC0020000, 8192⟩ ⟨resetHw, 0⟩).hw, 4⟩)
  exact ⟨_, .run l2 h2.2.1.off hm, (C73_run pageBuf_ok.1 pageBuf_ok.2 h2.2.1).1.on⟩

/-- **C73, progress.** While the engine runs a program whose blocks lead forward, the answer of
`current_control_block` never goes back, and once it is `None` it stays so: the assumption about the
hardware under which C46 shows that `move` never overwrites a block still to be executed. -/
theorem C73_progress (hb : BufOk b) (ha : 32 ∣ b.base) (hs : 0 < b.size) {h : DmaHw}
    (hl : ChLife ch b h) (hn : (h ch).next = 0#32 ∨ (h ch).conblk.toNat < (h ch).next.toNat)
    (l : List (Nat × (Word → Word)))
    (hm : ∀ e ∈ l, e.1 = ch → ∀ a, e.2 a = 0#32 ∨ a.toNat < (e.2 a).toNat) :
    (offset b (h ch) = none → offset b (h.advance l ch) = none) ∧
    ∀ q q', offset b (h ch) = some q → offset b (h.advance l ch) = some q' → q ≤ q' := by
  have h0 := hb.pos
  have hf : Forward (h ch) := by
    rcases life_proper (by have := hb.top; omega) h0 ha hs hl with ⟨h1, -, h3, -⟩ | ⟨h1, -, h3⟩
    · exact Or.inl ⟨h1, block_ne h0 h3, hn⟩
    · exact Or.inr ⟨h1, h3⟩
  obtain ⟨j1, j2⟩ := advance_forward l h hm hf
  have none_iff : ∀ c : Chan, offset b c = none ↔ c.conblk = 0#32 := by
    intro c
    unfold offset
    split <;> simp_all
  have some_eq : ∀ (c : Chan) q, offset b c = some q → c.conblk ≠ 0#32 ∧
      q = (c.conblk.toNat : Int) - b.base := by
    intro c q hq
    unfold offset at hq
    split at hq
    · cases hq
    · rename_i hne
      cases hq
      exact ⟨hne, rfl⟩
  refine ⟨fun h => (none_iff _).2 (j1 ((none_iff _).1 h)), fun q q' h1 h2 => ?_⟩
  obtain ⟨-, rfl⟩ := some_eq _ _ h1
  obtain ⟨hne, rfl⟩ := some_eq _ _ h2
  rcases j2 with j2 | j2
  · exact absurd j2 hne
  · omega

/-- A channel at the first of three blocks. -/
example : ∃ h, ChLife 4 pageBuf h ∧ (h 4).active = true ∧
    ((h 4).next = 0#32 ∨ (h 4).conblk.toNat < (h 4).next.toNat) ∧
    ∀ a : Word, (fun a : Word => if a.toNat < 0xC0010040 then a + 32#32 else 0#32) a = 0#32 ∨
      a.toNat < ((fun a : Word => if a.toNat < 0xC0010040 then a + 32#32 else 0#32) a).toNat := by
  let f : Word → Word := fun a => if a.toNat < 0xC0010040 then a + 32#32 else 0#32
  have hf : ∀ a : Word, f a = 0#32 ∨ ((f a).toNat = a.toNat + 32 ∧ a.toNat < 0xC0010040) := by
    intro a
    by_cases h : a.toNat < 0xC0010040
    · refine Or.inr ⟨?_, h⟩
      simp only [f, h, if_true, BitVec.toNat_add, BitVec.toNat_ofNat]
      omega
    · exact Or.inl (by simp only [f, h, if_false])
  let act : Nat → Moment := fun _ => ⟨[], f⟩
  have hm : ∀ n, LinkedIn pageBuf 4 (act n) := by
    refine fun n => ⟨fun e he => absurd he (List.not_mem_nil), fun a ⟨k, hk, hlt⟩ => ?_⟩
    rcases hf a with h | ⟨h1, h2⟩
    · exact Or.inl h
    · refine Or.inr ⟨k + 1, by rw [h1, hk]; ring, ?_⟩
      simp only [pageBuf] at hk ⊢
      omega
  have hr := (C73_run (act := act) (ch := 4) (s := ⟨resetHw, 0⟩) pageBuf_ok.1 pageBuf_ok.2
    ⟨rfl, rfl⟩).1
  refine ⟨_, .run (s := ⟨resetHw, 0⟩) (.reset rfl) rfl hm, hr.on, Or.inr ?_, fun a => ?_⟩
  · rw [hr.at_, hr.next]
    decide
  · rcases hf a with h | ⟨h1, -⟩
    · exact Or.inl h
    · right
      show a.toNat < (f a).toNat
      omega

/-- **C73, the watchdog.** Started by way of its registers on an idle channel, and whatever happens to
the other channels: memory and pins are those of the model of C51. -/
theorem C73_watchdog (hb : BufOk b) (ha : 32 ∣ b.base) {s s' : DogSys} (hi : ChIdle (s.hw 13))
    (hst : dogStart b s = .ok s') :
    ∃ t, Wd.start b s.w = .ok t ∧ ∀ evs, (dogRun b s' evs).w = (wdRun b t (dogEvents evs)).w ∧
      ((dogRun b s' evs).hw 13).active = (wdRun b t (dogEvents evs)).active := by
  have h32 : b.base < 2 ^ 32 := by have := hb.top; omega
  obtain ⟨t, h1, h2⟩ := (dogStart_rel h32 hb.pos ha hi).2 s' hst
  refine ⟨t, h1, fun evs => ?_⟩
  have := dogRun_rel h32 ha evs h2
  exact ⟨this.w, this.active⟩

/-- **C73 with C51.** At the registers: as long as in every stretch without a call of `feed` fewer than
2047 blocks are completed, the pins stay as they are; 2049 blocks after the last call they are
inputs. -/
theorem C73_watchdog_works (hb : BufOk b) (ha : 32 ∣ b.base) (hsz : 65536 ≤ b.size) {s s' : DogSys}
    (hi : ChIdle (s.hw 13)) (hst : dogStart b s = .ok s') :
    (∀ evs, FedWithin 2047 (dogEvents evs) → (dogRun b s' evs).w.gpio = s.w.gpio) ∧
    ∀ before evs after, dogEvents evs = List.replicate 2049 .tick → ∀ p < 30,
      fsel (dogRun b s' (before ++ evs ++ after)).w.gpio p = 0 := by
  obtain ⟨t, h1, h2⟩ := C73_watchdog hb ha hi hst
  refine ⟨fun evs hf => ?_, fun before evs after he p hp => ?_⟩
  · rw [(h2 evs).1]
    exact (C51_fed hb hsz h1 _ hf).1
  · rw [(h2 _).1]
    have happ : ∀ l l', dogEvents (l ++ l') = dogEvents l ++ dogEvents l' := by
      intro l l'
      induction l with
      | nil => rfl
      | cons e l ih => cases e <;> simp only [List.cons_append, dogEvents, ih]
    rw [happ, happ, he]
    exact C51_starved hb hsz h1 _ _ hp

example : ∃ s', dogStart pageBuf ⟨wdWorld, resetHw⟩ = .ok s' := by
  obtain ⟨t, ht⟩ := Wd.start_succeeds pageBuf_ok.1 (by decide) wdWorld
  exact (dogStart_rel (s := ⟨wdWorld, resetHw⟩) (by decide) (by decide) pageBuf_ok.2 ⟨rfl, rfl⟩).1 t ht

/-! ### The clock -/

/-- **C73, the clock.** `run_stream` obeys the rules of the clock generator, sets a rate of a million
words per second, enables the module with its queue and its requests, and starts the engine last.  It
returns if the clock, once disabled, becomes idle. -/
theorem C73_clock (busy : Nat → Bool) :
    (∀ fuel l, DmaGpio.runStream busy fuel = some l →
      ClockRules false l ∧ StartsLast l ∧ wordRate l = some 1000000 ∧
      (∃ v, pwmReg 0x00 l = some v ∧ v.getLsbD 0 = true ∧ v.getLsbD 5 = true) ∧
      ∃ v, pwmReg 0x08 l = some v ∧ v.getLsbD 31 = true) ∧
    ∀ i, busy i = false → ∃ l, DmaGpio.runStream busy (i + 1) = some l := by
  have hw : ∀ fuel i l, DmaGpio.waitClock busy fuel i = some l →
      (∀ op ∈ l, ∃ a, op = .busy a) ∧ ∀ r, ClockRules true r → ∀ x, ClockRules x (l ++ r) := by
    intro fuel
    induction fuel with
    | zero => intro i l h; cases h
    | succ n ih =>
      intro i l h
      rw [DmaGpio.waitClock] at h
      split at h
      · rw [Option.map_eq_some_iff] at h
        obtain ⟨l', h1, rfl⟩ := h
        obtain ⟨j1, j2⟩ := ih _ _ h1
        refine ⟨fun op hop => ?_, fun r hr x => j2 r hr false⟩
        rcases List.mem_cons.1 hop with rfl | hop
        · exact ⟨_, rfl⟩
        · exact j1 op hop
      · cases h
        exact ⟨fun op hop => ⟨_, List.mem_singleton.1 hop⟩, fun r hr x => hr⟩
  have hpwm : ∀ (l : List StreamOp), (∀ op ∈ l, ∃ a, op = .busy a) → ∀ off (r : Option Word),
      l.foldl (fun r op => match op with
        | .pwm o v => if o = off then some v else r
        | _ => r) r = r := by
    intro l
    induction l with
    | nil => exact fun _ _ _ => rfl
    | cons op l ih =>
      intro h off r
      obtain ⟨a, rfl⟩ := h op List.mem_cons_self
      exact ih (fun x hx => h x (List.mem_cons_of_mem _ hx)) off r
  have hclk : ∀ (l : List StreamOp), (∀ op ∈ l, ∃ a, op = .busy a) → ∀ off (r : Option Word),
      l.foldl (fun r op => match op with
        | .clock o v => if o = off then some (v &&& 0xFFFFFF#32) else r
        | _ => r) r = r := by
    intro l
    induction l with
    | nil => exact fun _ _ _ => rfl
    | cons op l ih =>
      intro h off r
      obtain ⟨a, rfl⟩ := h op List.mem_cons_self
      exact ih (fun x hx => h x (List.mem_cons_of_mem _ hx)) off r
  refine ⟨fun fuel l h => ?_, fun i hi => ?_⟩
  · simp only [DmaGpio.runStream, bind, Option.bind_eq_some_iff, pure, Option.some.injEq] at h
    obtain ⟨lw, h1, rfl⟩ := h
    obtain ⟨j1, j2⟩ := hw _ _ _ h1
    have hp : ∀ off l1 l2, pwmReg off (l1 ++ lw ++ l2) = pwmReg off (l1 ++ l2) := by
      intro off l1 l2
      simp only [pwmReg, List.foldl_append]
      congr 1
      exact hpwm lw j1 off _
    have hc : ∀ off l1 l2, clockReg off (l1 ++ lw ++ l2) = clockReg off (l1 ++ l2) := by
      intro off l1 l2
      simp only [clockReg, List.foldl_append]
      congr 1
      exact hclk lw j1 off _
    refine ⟨?_, ?_, ?_, ?_, ?_⟩
    · rw [List.append_assoc]
      refine ⟨by decide, by decide, by decide, j2 _ ?_ _⟩
      exact ⟨by decide, by decide, by decide, by decide, by decide, by decide, trivial⟩
    · refine ⟨[.pwm pwmCtl 0#32, .clock cmCntl (cmPassword ||| cmPlld)] ++ lw ++
        [.clock cmDiv (cmPassword ||| 5#32 <<< 12),
         .clock cmCntl (cmPassword ||| cmPlld ||| cmEnable), .pwm pwmRng1 100#32,
         .pwm pwmDmac (1#32 <<< 31 ||| 15#32 <<< 8 ||| 15#32), .pwm pwmCtl (1#32 <<< 6),
         .pwm pwmCtl (1#32 <<< 5 ||| 1#32 <<< 0)], by simp, ?_⟩
      simp only [List.mem_append, List.mem_cons, List.not_mem_nil, or_false, not_or, reduceCtorEq,
        not_false_eq_true, and_true, true_and]
      constructor <;>
      · intro h
        obtain ⟨a, h⟩ := j1 _ h
        cases h
    · rw [wordRate, hc, hc, hp]
      decide
    · refine ⟨_, (hp _ _ _).trans rfl, by decide, by decide⟩
    · exact ⟨_, (hp _ _ _).trans rfl, by decide⟩
  · have : ∀ n j, j + n = i → ∃ l, DmaGpio.waitClock busy (n + 1) j = some l := by
      intro n
      induction n with
      | zero =>
        intro j hj
        exact ⟨_, by rw [DmaGpio.waitClock, if_neg (by rw [show j = i by omega, hi]; decide)]⟩
      | succ n ih =>
        intro j hj
        rw [DmaGpio.waitClock]
        split
        · obtain ⟨l, hl⟩ := ih (j + 1) (by omega)
          exact ⟨_, by rw [hl]; rfl⟩
        · exact ⟨_, rfl⟩
    obtain ⟨l, hl⟩ := this i 0 (by omega)
    exact ⟨_, by simp only [DmaGpio.runStream, bind, hl]; rfl⟩

/-- **C73, start and stop of a stream.** `run_stream` on an idle channel starts the engine at the first
block of the buffer.  After `stop`, whatever happened before, the engine executes nothing and the PWM
module is off. -/
theorem C73_stream (hb : BufOk b) (ha : 32 ∣ b.base) (busy : Nat → Bool) :
    (∀ fuel l, DmaGpio.runStream busy fuel = some l → ChIdle (s.hw 4) →
      ChRuns ((streamRun act b l s).hw 4) b.base
        ((act (s.n + 3)).nextOf (BitVec.ofNat 32 b.base)).toNat) ∧
    ∀ before, ChIdle ((streamRun act b (before ++ DmaGpio.stop) s).hw 4) ∧
      ∃ v, pwmReg 0x00 (before ++ DmaGpio.stop) = some v ∧ v.getLsbD 0 = false := by
  refine ⟨fun fuel l h hi => ?_, fun before => ⟨?_, 0#32, ?_, by decide⟩⟩
  · obtain ⟨l', rfl, hr, hs⟩ := ((C73_clock busy).1 fuel l h).2.1
    have hskip : ∀ l' : List StreamOp, .run ∉ l' → .stop ∉ l' →
        streamRun act b l' s = s := by
      intro l'
      induction l' with
      | nil => exact fun _ _ => rfl
      | cons op l' ih =>
        intro h1 h2
        cases op
        case run => exact absurd List.mem_cons_self h1
        case stop => exact absurd List.mem_cons_self h2
        all_goals
          exact ih (fun h => h1 (List.mem_cons_of_mem _ h)) fun h => h2 (List.mem_cons_of_mem _ h)
    simp only [streamRun, List.foldl_append] at *
    rw [hskip l' hr hs]
    exact (C73_run hb ha hi).1
  · simp only [streamRun, List.foldl_append, DmaGpio.stop, List.foldl_cons, List.foldl_nil]
    exact C73_stop.2.1
  · simp only [pwmReg, List.foldl_append, DmaGpio.stop, List.foldl_cons, List.foldl_nil]
    rfl

/-- A stream is started on a channel that was reset, with a clock that is busy three times. -/
example : ∃ l, DmaGpio.runStream (fun i => decide (i < 3)) 10 = some l ∧ ChIdle (resetHw 4) :=
  ⟨_, rfl, rfl, rfl⟩

/-- A clock that is busy three times. -/
example : ∃ l, DmaGpio.runStream (fun i => decide (i < 3)) 10 = some l ∧ l.length = 13 := ⟨_, rfl, rfl⟩

end PyCNC.Props
