import Verif.Lemmas.HalStream
import Verif.Model.Exact
import Verif.Lemmas.Exact

/-!
# Properties of the DMA programs of the Raspberry Pi back end (C44–C46)
-/

namespace PyCNC.Props

open PyCNC Spec

variable {F : Type} [PyNum F]

/-! ### A concrete move -/

/-- The buffer of the code (30 MB) at a typical bus address. -/
abbrev exBuf : Buf := ⟨0xC0000000, 31457280⟩
/-- The previous program has ended and the CPU is fast. -/
abbrev exEnv : MoveEnv := ⟨fun _ => none, fun _ => false⟩
/-- Directions and two pulses, the second 0.2 s later on two motors. -/
noncomputable abbrev exEvs : List (Event ℝ) :=
  [.dir ⟨1, -1, 1, 1⟩, .pulse ⟨some (1 / 100), none, none, none⟩,
   .pulse ⟨some (21 / 100), none, some (21 / 100), none⟩]

theorem exBuf_ok : BufOk exBuf := ⟨by decide, by decide, Or.inr (by decide)⟩

theorem exPins_ok : PinsOk Pins.default := by
  intro ax; cases ax <;> decide

theorem exEnv_progress : Progress exEnv where
  nonneg := fun _ _ h => by simp at h
  advance := fun _ _ _ _ _ _ h => by simp at h
  stopped := fun _ _ _ _ _ => rfl

section
variable [PyRound]

theorem exRound1 : PyNum.roundI ((1 / 100 : ℝ) *ₚ PyNum.ofRat 1000000) = 10000 := by
  have : ((1 / 100 : ℝ) *ₚ PyNum.ofRat 1000000) = ((10000 : ℤ) : ℝ) := by
    simp only [mul_eq, ofRat_eq]; norm_num
  rw [this, roundI_eq, rnd_int]

theorem exRound2 : PyNum.roundI ((21 / 100 : ℝ) *ₚ PyNum.ofRat 1000000) = 210000 := by
  have : ((21 / 100 : ℝ) *ₚ PyNum.ofRat 1000000) = ((210000 : ℤ) : ℝ) := by
    simp only [mul_eq, ofRat_eq]; norm_num
  rw [this, roundI_eq, rnd_int]

theorem exEvs_stamps : Stamps exEvs [10000, 210000] := by
  refine Stamps.dir ?_
  rw [← exRound1, ← exRound2]
  refine Stamps.pulse ⟨⟨.x, rfl⟩, ?_⟩ (Stamps.pulse ⟨⟨.x, rfl⟩, ?_⟩ Stamps.nil)
  · intro ax τ h; cases ax <;> simp only [V4.get, reduceCtorEq, Option.some.injEq] at h; exact h.symm
  · intro ax τ h
    cases ax <;> simp only [V4.get, reduceCtorEq, Option.some.injEq] at h <;> exact h.symm

theorem exMin2 : minTime (F := ℝ) ⟨some (21 / 100), none, some (21 / 100), none⟩ = some (21 / 100) :=
  minTime_stepsAt ⟨⟨.x, rfl⟩, fun ax τ h => by
    cases ax <;> simp only [V4.get, reduceCtorEq, Option.some.injEq] at h <;> exact h.symm⟩

theorem exMin1 : minTime (F := ℝ) ⟨some (1 / 100), none, none, none⟩ = some (1 / 100) := rfl

theorem exMove : (Hal.move Cfg.default Pins.default exBuf exEnv 1 exEvs .done (fun _ => 0#32)).2 =
      .done ∧
    (Hal.move Cfg.default Pins.default exBuf exEnv 1 exEvs .done (fun _ => 0#32)).1.live.length
      = 2 := by
  simp only [Hal.move, Hal.moveLoop, Hal.moveBody, exMin1, exMin2, exRound1, exRound2]
  constructor <;> rfl

end

theorem bufOk_ok {b : Buf} (h : BufOk b) : b.Ok := ⟨h.pos, h.top, h.apart⟩

/-- **C44.** When `move` has finished, the engine, started at the beginning of the buffer,
performs in order exactly the direction changes and step pulses of the events on their pins
(and no other write), and then stops. -/
theorem C44_program (c : Cfg) (p : Pins) (b : Buf) (env : MoveEnv) (fuel : Nat)
    (evs : List (Event F)) (re : RunEnd) (mem : Nat → Word) (s : MoveSt) (g : GpioHw)
    (hb : BufOk b) (hp : PinsOk p) (hlen : c.pulseLenUs < 2 ^ 26)
    (h : Hal.move c p b env fuel evs re mem = (s, .done)) :
    ∃ n w Ts, Dma.run b n b.base ⟨s.dma.mem, g, [], 0⟩ = (w, 0) ∧ OnlyOutputs w.log ∧
      Plays p c.pulseLenUs 0 evs (edges w.log.reverse) Ts := by
  obtain ⟨d, hh, hne, hs, -, ht⟩ := Hal.move_ok h
  have hr := run_program (bufOk_ok hb) hh hne ⟨s.dma.mem, g, [], 0⟩ (by rw [hs])
  obtain ⟨Ts, hT, -⟩ := plays_evs (c := c) hp hlen evs ht 0 0
  refine ⟨_, _, Ts, hr, ?_, ?_⟩
  · rw [foldl_log]
    intro e he
    simp only [List.append_nil, List.mem_reverse] at he
    exact blkLog_outputs _ _ e he
  · rw [foldl_log]
    simpa using hT

/-- The hypotheses hold for the concrete move. -/
example [PyRound] (g : GpioHw) : ∃ (s : MoveSt) (n : Nat) (w : World) (Ts : List Nat),
    Dma.run exBuf n exBuf.base ⟨s.dma.mem, g, [], 0⟩ = (w, 0) ∧ OnlyOutputs w.log ∧
      Plays Pins.default 2 0 exEvs (edges w.log.reverse) Ts :=
  ⟨_, C44_program Cfg.default Pins.default exBuf exEnv 1 exEvs .done (fun _ => 0#32) _ g exBuf_ok
    exPins_ok (by decide) (Prod.ext rfl exMove.1)⟩

/-- **C44**, while the program is still being written (`INSTANT_RUN`): the same holds for every
schedule in which the engine stays behind the writer. -/
theorem C44_stream (c : Cfg) (p : Pins) (b : Buf) (env : MoveEnv) (fuel : Nat)
    (evs : List (Event F)) (re : RunEnd) (mem : Nat → Word) (s : MoveSt) (w₀ : World)
    (hb : BufOk b) (hp : PinsOk p) (hlen : c.pulseLenUs < 2 ^ 26)
    (hw : w₀.log = [] ∧ w₀.time = 0)
    (h : Hal.move c p b env fuel evs re mem = (s, .done)) :
    ∃ N, ∀ ns, Behind N s.live.reverse ns 0 →
      ∃ w Ts, Dma.runLive b s.live.reverse ns b.base w₀ = (w, 0) ∧ OnlyOutputs w.log ∧
        Plays p c.pulseLenUs 0 evs (edges w.log.reverse) Ts := by
  obtain ⟨-, -, hne, -, -, ht⟩ := Hal.move_ok h
  obtain ⟨d, ds, hh, hl, hds⟩ := Hal.move_live h
  refine ⟨(evsBlks c p 0 evs).length, fun ns hns => ?_⟩
  rw [hl, List.reverse_cons] at hns ⊢
  obtain ⟨m, hm⟩ := runLive_ok (bufOk_ok hb) hh ds.reverse ns 0 w₀
    (fun x hx => hds x (List.mem_reverse.mp hx)) (List.length_pos_iff.mpr hne) hns
  obtain ⟨Ts, hT, -⟩ := plays_evs (c := c) hp hlen evs ht 0 0
  refine ⟨_, Ts, by simpa using hm, ?_, ?_⟩
  · simp only [foldl_log, hw.1, hw.2, List.append_nil]
    intro e he
    exact blkLog_outputs _ _ e (List.mem_reverse.mp he)
  · simp only [foldl_log, hw.1, hw.2, List.append_nil, List.reverse_reverse]
    exact hT

/-- The concrete move starts the engine before it has finished, and there is a schedule in which
the engine stays behind. -/
example [PyRound] : ∃ s, Hal.move Cfg.default Pins.default exBuf exEnv 1 exEvs .done
    (fun _ => 0#32) = (s, .done) ∧ s.live.length = 2 ∧ Behind 9 s.live.reverse [3, 9] 0 := by
  refine ⟨_, Prod.ext rfl exMove.1, exMove.2, ?_⟩
  simp only [Hal.move, Hal.moveLoop, Hal.moveBody, exMin1, exMin2, exRound1, exRound2]
  exact ⟨by decide, Nat.le_refl 9⟩

/-- **C44**, what happens when `move` fails (`MemoryError`, or an exception of the generator)
after it has started the engine: the program is not terminated; behind the blocks written so
far the engine goes on with what earlier calls left in the buffer. -/
theorem C44_error_overrun (c : Cfg) (p : Pins) (b : Buf) (env : MoveEnv) (fuel : Nat)
    (evs : List (Event F)) (re : RunEnd) (mem : Nat → Word) (s : MoveSt) (e : PyErr) (g : GpioHw)
    (hb : BufOk b) (hpr : Progress env)
    (h : Hal.move c p b env fuel evs re mem = (s, .raised e)) (hran : .runStream ∈ s.trace) :
    ∃ n w, 32 * n = s.dma.addr ∧
      Dma.run b n b.base ⟨s.dma.mem, g, [], 0⟩ = (w, b.base + s.dma.addr) ∧
      ∀ i, s.dma.addr / 4 ≤ i → s.dma.mem i = mem i := by
  have h0 : Holds b (Hal.moveInit c mem).dma [] :=
    ⟨rfl, Nat.zero_le _, fun i hi => absurd hi (Nat.not_lt_zero _)⟩
  have hl0 : Hal.LiveOk b (Hal.moveInit c mem) [] := fun d hd => by cases hd
  have fin : ∀ s' e', Hal.moveLoop c p b env fuel evs (Hal.moveInit c mem) = (s', e') →
      s'.dma = s.dma →
      ∃ n w, 32 * n = s.dma.addr ∧
        Dma.run b n b.base ⟨s.dma.mem, g, [], 0⟩ = (w, b.base + s.dma.addr) ∧
        ∀ i, s.dma.addr / 4 ≤ i → s.dma.mem i = mem i := by
    intro s' e' hl hd
    obtain ⟨l, hh, -, -⟩ := Hal.moveLoop_live h0 hl0 hl
    have hinv := moveLoop_inv hpr (moveInit_inv env hpr c b mem) hl
    rw [List.nil_append, hd] at hh
    have hr := run_part (bufOk_ok hb) hh l.length 0 ⟨s.dma.mem, g, [], 0⟩ (by omega) rfl
    refine ⟨l.length, l.foldl Blk.eff ⟨s.dma.mem, g, [], 0⟩, hh.1.symm, ?_, ?_⟩
    · rw [hh.1]
      simpa using hr
    · have := hinv.keep
      rw [hd] at this
      exact this
  unfold Hal.move at h
  split at h
  · rename_i s1 hl
    cases re with
    | raised e' =>
      injection h with h _
      exact fin s1 _ hl (by rw [h])
    | unfinished => injection h with _ h; cases h
    | done =>
      have hinv := moveLoop_inv hpr (moveInit_inv env hpr c b mem) hl
      simp only [Hal.moveFinish] at h
      split at h
      · injection h with _ h; cases h
      · rename_i hr
        split at h
        · injection h with h _
          subst h
          simp only [List.mem_cons, reduceCtorEq, false_or] at hran
          exact absurd (hinv.ran.mpr hran) hr
        · injection h with _ h; cases h
  · exact fin s _ h rfl

/-- The concrete move with a generator that fails at the end, after the engine was started. -/
example [PyRound] : ∃ s, Hal.move Cfg.default Pins.default exBuf exEnv 1 exEvs (.raised .value)
    (fun _ => 0#32) = (s, .raised .value) ∧ .runStream ∈ s.trace := by
  refine ⟨_, Prod.ext rfl ?_, ?_⟩
  · simp only [Hal.move, Hal.moveLoop, Hal.moveBody, exMin1, exMin2, exRound1, exRound2]
    rfl
  · simp only [Hal.move, Hal.moveLoop, Hal.moveBody, exMin1, exMin2, exRound1, exRound2]
    exact List.mem_cons_self ..

/-- **C45.** In the program of a finished `move` no pulse starts before its time in whole
microseconds, counted from the start of the engine. -/
theorem C45_never_early (c : Cfg) (p : Pins) (b : Buf) (env : MoveEnv) (fuel : Nat)
    (evs : List (Event F)) (re : RunEnd) (mem : Nat → Word) (s : MoveSt) (g : GpioHw)
    (ks : List Int) (hb : BufOk b) (hp : PinsOk p) (hlen : c.pulseLenUs < 2 ^ 26)
    (hks : Stamps evs ks) (hgap : ShortGaps c.pulseLenUs 0 ks)
    (h : Hal.move c p b env fuel evs re mem = (s, .done)) :
    ∃ n w Ts, Dma.run b n b.base ⟨s.dma.mem, g, [], 0⟩ = (w, 0) ∧
      Plays p c.pulseLenUs 0 evs (edges w.log.reverse) Ts ∧
      List.Forall₂ (fun (k : Int) (T : Nat) => k ≤ T) ks Ts := by
  obtain ⟨d, hh, hne, hs, -, ht⟩ := Hal.move_ok h
  have hr := run_program (bufOk_ok hb) hh hne ⟨s.dma.mem, g, [], 0⟩ (by rw [hs])
  obtain ⟨Ts, hT, hT2⟩ := plays_evs (c := c) hp hlen evs ht 0 0
  refine ⟨_, _, Ts, hr, ?_, (hT2 ks hks hgap (by simp)).1⟩
  rw [foldl_log]
  simpa using hT

/-- The stamps of the concrete move. -/
example [PyRound] : Stamps exEvs [10000, 210000] ∧ ShortGaps 2 0 [10000, 210000] :=
  ⟨exEvs_stamps, by simp [ShortGaps]⟩

/-- **C45.** If successive pulses are at least the pulse length apart, every pulse starts
exactly at its time in whole microseconds. -/
theorem C45_exact (c : Cfg) (p : Pins) (b : Buf) (env : MoveEnv) (fuel : Nat)
    (evs : List (Event F)) (re : RunEnd) (mem : Nat → Word) (s : MoveSt) (g : GpioHw)
    (ks : List Int) (hb : BufOk b) (hp : PinsOk p) (hlen : c.pulseLenUs < 2 ^ 26)
    (hks : Stamps evs ks) (hgap : ShortGaps c.pulseLenUs 0 ks)
    (hsp : Spaced c.pulseLenUs 0 ks)
    (h : Hal.move c p b env fuel evs re mem = (s, .done)) :
    ∃ n w Ts, Dma.run b n b.base ⟨s.dma.mem, g, [], 0⟩ = (w, 0) ∧
      Plays p c.pulseLenUs 0 evs (edges w.log.reverse) Ts ∧
      Ts.map (fun T : Nat => (T : Int)) = ks := by
  obtain ⟨d, hh, hne, hs, -, ht⟩ := Hal.move_ok h
  have hr := run_program (bufOk_ok hb) hh hne ⟨s.dma.mem, g, [], 0⟩ (by rw [hs])
  obtain ⟨Ts, hT, hT2⟩ := plays_evs (c := c) hp hlen evs ht 0 0
  refine ⟨_, _, Ts, hr, ?_, (hT2 ks hks hgap (by simp)).2 rfl hsp⟩
  rw [foldl_log]
  simpa using hT

/-- The stamps of the concrete move are far enough apart. -/
example [PyRound] : Stamps exEvs [10000, 210000] ∧ ShortGaps 2 0 [10000, 210000] ∧
    Spaced 2 0 [10000, 210000] :=
  ⟨exEvs_stamps, by simp [ShortGaps], by simp [Spaced]⟩

/-- **C46.** Whatever a call of `move` does before it ends, in whichever way, it writes inside
the buffer only, and while the program of an earlier call runs it writes only before the
control block that program is at; it changes no other memory. -/
theorem C46_behind (c : Cfg) (p : Pins) (b : Buf) (env : MoveEnv) (fuel : Nat)
    (evs : List (Event F)) (re : RunEnd) (mem : Nat → Word) (s : MoveSt) (e : MoveEnd)
    (hpr : Progress env) (h : Hal.move c p b env fuel evs re mem = (s, e)) :
    Respects env b s.trace ∧
      ∀ i, s.dma.mem i ≠ mem i →
        ∃ a l, .write a l ∈ s.trace ∧ a ≤ 4 * i ∧ 4 * i + 4 ≤ a + l := by
  have base : ∀ s', MoveInv env b mem s' → ∀ i, s'.dma.mem i ≠ mem i →
      ∃ a l, .write a l ∈ s'.trace ∧ a ≤ 4 * i ∧ 4 * i + 4 ≤ a + l := by
    intro s' hi i hne
    by_cases hlt : i < s'.dma.addr / 4
    · exact hi.written i hlt
    · exact absurd (hi.keep i (by omega)) hne
  have finz : ∀ s', MoveInv env b mem s' → s'.dma.addr ≠ 0 →
      ∀ i, (DmaGpio.finalize s'.dma).mem i ≠ mem i →
      ∃ a l, .write a l ∈ s'.trace ∧ a ≤ 4 * i ∧ 4 * i + 4 ≤ a + l := by
    intro s' hi h0 i hne
    by_cases hx : i = (s'.dma.addr + 20 - cbSize) / 4
    · have hc : cbSize = 32 := rfl
      obtain ⟨kk, hk⟩ := hi.aligned
      exact hi.written i (by omega)
    · refine base s' hi i ?_
      simpa only [DmaGpio.finalize, writeInt, if_neg hx] using hne
  unfold Hal.move at h
  split at h
  · rename_i s1 hl
    have hinv := moveLoop_inv hpr (moveInit_inv env hpr c b mem) hl
    have hc : cbSize = 32 := rfl
    have hsz := hinv.size
    obtain ⟨kk, hk⟩ := hinv.aligned
    cases re with
    | raised e' =>
      injection h with h _
      subst h
      exact ⟨hinv.resp, base _ hinv⟩
    | unfinished =>
      injection h with h _
      subst h
      exact ⟨hinv.resp, base _ hinv⟩
    | done =>
      simp only [Hal.moveFinish] at h
      split at h
      · rename_i hr
        have hmem := hinv.ran.mp hr
        have h0 : s1.dma.addr ≠ 0 := by
          intro h0
          obtain ⟨d, -, hne, -⟩ := Hal.move_ok (c := c) (p := p) (b := b) (env := env)
            (fuel := fuel) (evs := evs) (re := .done) (mem := mem)
            (s := (Hal.moveFinish s1).1) (by
              unfold Hal.move; rw [hl]; simp [Hal.moveFinish, hr])
          have := (Hal.moveLoop_ok (c := c) (p := p) (b := b) (env := env)
            (l := []) ⟨rfl, Nat.zero_le _, fun i hi => absurd hi (Nat.not_lt_zero _)⟩ hl).1.1
          rw [h0, List.nil_append] at this
          change 0 = 32 * (evsBlks c p 0 evs).length at this
          exact hne (List.length_eq_zero_iff.mp (by omega))
        injection h with h _
        subst h
        refine ⟨⟨by omega, Or.inl hmem, hinv.resp⟩, ?_⟩
        intro i hne
        obtain ⟨a, l, h1, h2⟩ := finz s1 hinv h0 i hne
        exact ⟨a, l, List.mem_cons_of_mem _ h1, h2⟩
      · rename_i hr
        have hns : .runStream ∉ s1.trace := fun hm => hr (hinv.ran.mpr hm)
        split at h
        · injection h with h _
          subst h
          refine ⟨hinv.resp, ?_⟩
          intro i hne
          obtain ⟨a, l, h1, h2⟩ := base s1 hinv i hne
          exact ⟨a, l, List.mem_cons_of_mem _ h1, h2⟩
        · rename_i h0
          injection h with h _
          subst h
          refine ⟨⟨by simp, by simpa using hns, by omega, Or.inr (by simp), hinv.resp⟩, ?_⟩
          intro i hne
          obtain ⟨a, l, h1, h2⟩ := finz s1 hinv h0 i hne
          exact ⟨a, l, by simp [h1], h2⟩
  · have hinv := moveLoop_inv hpr (moveInit_inv env hpr c b mem) h
    exact ⟨hinv.resp, base _ hinv⟩

/-- An engine that is still running the program of an earlier call. -/
example : Progress ⟨fun tr => if tr.length < 10 then some (1000 * tr.length) else none,
    fun _ => false⟩ where
  nonneg := by
    intro tr q h
    dsimp only at h
    split at h
    · injection h with h; omega
    · cases h
  advance := by
    intro tr op q q' _ _ h h'
    simp only [List.length_cons] at h h'
    split at h
    · split at h'
      · injection h with h; injection h' with h'; push_cast at h'; omega
      · cases h'
    · cases h
  stopped := by
    intro tr op _ _ h
    simp only [List.length_cons] at h ⊢
    split at h
    · cases h
    · rw [if_neg (by omega)]

/-- **C46.** An `add_*` call that would not fit into the buffer raises `MemoryError`. -/
theorem C46_memory_error (b : Buf) (s : DmaSt) :
    (b.size < s.addr + 96 → ∀ m u, DmaGpio.addPulse b m u s = .error .memory) ∧
    (b.size < s.addr + 32 → ∀ u, DmaGpio.addDelay b u s = .error .memory) ∧
    (b.size < s.addr + 32 → ∀ x y, DmaGpio.addSetClear b x y s = .error .memory) := by
  refine ⟨fun h m u => ?_, fun h u => ?_, fun h x y => ?_⟩
  · have : s.addr + 3 * cbSize > b.size := h
    simp only [DmaGpio.addPulse, this, if_true]; rfl
  · have : s.addr + cbSize > b.size := h
    simp only [DmaGpio.addDelay, this, if_true]; rfl
  · have : s.addr + cbSize > b.size := h
    simp only [DmaGpio.addSetClear, this, if_true]; rfl

/-- A full buffer. -/
example : DmaGpio.addPulse ⟨0xC0000000, 4096⟩ 1 2 ⟨fun _ => 0#32, 4064⟩ = .error .memory :=
  (C46_memory_error _ _).1 (by decide) 1 2

end PyCNC.Props
