import Verif.Lemmas.HalPi
import Verif.Props.Actuators
import Verif.Props.Pwm

/-!
# Properties C67–C69: the pins of the machine from `hal.init()` to `hal.deinit()`
-/

namespace PyCNC.Props

open PyCNC Spec Pwm PyCNC.Pi

set_option linter.unusedSectionVars false

/-! ### C67: `hal.init()` -/

/-- A sequence of `gpio.init` for different pins. -/
private theorem inits_ok (l : List (Nat × PinMode)) (hn : (l.map (·.1)).Nodup)
    (hl : ∀ x ∈ l, x.1 < 32) (g : GpioHw) :
    (∀ x ∈ l, HasFunc (runCalls (l.map fun x => Gpio.init x.1 x.2) g) x.1 (funcOf x.2) ∧
      (runCalls (l.map fun x => Gpio.init x.1 x.2) g).pull x.1 = pullOf (g.pull x.1) x.2) ∧
    ∀ q < 54, q ∉ l.map (·.1) →
      (runCalls (l.map fun x => Gpio.init x.1 x.2) g).pull q = g.pull q ∧
      ∀ b < 3, funcBit (runCalls (l.map fun x => Gpio.init x.1 x.2) g) q b = funcBit g q b := by
  induction l generalizing g with
  | nil => exact ⟨fun x h => (by cases h), fun q _ _ => ⟨rfl, fun _ _ => rfl⟩⟩
  | cons y l ih =>
    rw [List.map_cons, List.nodup_cons] at hn
    have hy := hl y List.mem_cons_self
    obtain ⟨i1, i2, i3, -, -⟩ := C47_init y.1 (by omega) y.2 g
    obtain ⟨h1, h2⟩ := ih hn.2 (fun x h => hl x (List.mem_cons_of_mem _ h)) (Gpio.init y.1 y.2 g)
    simp only [List.map_cons, runCalls_cons]
    constructor
    · intro x hx
      rcases List.mem_cons.1 hx with rfl | hx
      · obtain ⟨j1, j2⟩ := h2 x.1 (by omega) hn.1
        exact ⟨fun b hb => (j2 b hb).trans (i1 b hb), j1.trans i2⟩
      · obtain ⟨j1, j2⟩ := h1 x hx
        refine ⟨j1, j2.trans ?_⟩
        rw [(i3 x.1 (by have := hl x (List.mem_cons_of_mem _ hx); omega) ?_).1]
        intro e
        exact hn.1 (e ▸ List.mem_map_of_mem hx)
    · intro q hq hm
      rw [List.mem_cons, not_or] at hm
      obtain ⟨j1, j2⟩ := h2 q hq hm.2
      obtain ⟨k1, k2⟩ := i3 q hq hm.1
      exact ⟨j1.trans k1, fun b hb => (j2 b hb).trans (k2 b hb)⟩

private theorem modes_pins (p : Pins) : (modes p).map (·.1) = allPins p := rfl

/-- **C67.** Whatever the state of the registers before: after `hal.init()` the pins of motors,
spindle, fan, heaters and of the enable line are outputs, the end stops are inputs with pull-up
resistors, spindle, fan and heaters are off and the motors enabled, the levels for the motors are
as they were, and no other pin has changed. -/
theorem C67_init {p : Pins} (hp : Wired p) (s : PiSt) :
    (∀ q ∈ motorPins p ++ powerPins p ++ [p.enable], HasFunc (Pi.init p s).pwm.w.gpio q 1) ∧
    (∀ q ∈ stopPins p, HasFunc (Pi.init p s).pwm.w.gpio q 0 ∧ (Pi.init p s).pwm.w.gpio.pull q = 2) ∧
    (∀ q ∈ powerPins p ++ [p.enable], level (Pi.init p s).pwm q = false) ∧
    (∀ q ∉ powerPins p ++ [p.enable], level (Pi.init p s).pwm q = level s.pwm q) ∧
    (∀ q < 54, q ∉ allPins p → (Pi.init p s).pwm.w.gpio.pull q = s.pwm.w.gpio.pull q ∧
      ∀ b < 3, funcBit (Pi.init p s).pwm.w.gpio q b = funcBit s.pwm.w.gpio q b) ∧
    (Pi.init p s).dog = true := by
  have hcl : ∀ q ∈ powerPins p ++ [p.enable], q < 32 := by
    intro q hq
    rcases List.mem_append.1 hq with h | h
    · exact power_lt hp h
    · rw [List.mem_singleton.1 h]; exact enable_lt hp
  obtain ⟨h1, h2⟩ := inits_ok (modes p) (by rw [modes_pins]; exact hp.once) (modes_lt hp) s.pwm.w.gpio
  have hg : (Pi.init p s).pwm.w.gpio = runCalls ((powerPins p ++ [p.enable]).map Gpio.clear)
      (runCalls ((modes p).map fun x => Gpio.init x.1 x.2) s.pwm.w.gpio) := by
    simp only [Pi.init, onGpio]
    rw [initCalls_eq, runCalls_append]
  obtain ⟨r1, r2⟩ := reg_clears _ hcl (runCalls ((modes p).map fun x => Gpio.init x.1 x.2) s.pwm.w.gpio)
  rw [← hg] at r1 r2
  have hfun : ∀ q b, funcBit (Pi.init p s).pwm.w.gpio q b =
      funcBit (runCalls ((modes p).map fun x => Gpio.init x.1 x.2) s.pwm.w.gpio) q b := by
    intro q b; unfold funcBit; rw [r1]
  have hlat : ∀ q, level (Pi.init p s).pwm q =
      if q ∈ powerPins p ∨ q = p.enable then false else level s.pwm q := fun q => latch_init hp _ q
  have hmem : ∀ q m, (q, m) ∈ modes p → HasFunc (Pi.init p s).pwm.w.gpio q (funcOf m) ∧
      (Pi.init p s).pwm.w.gpio.pull q = pullOf (s.pwm.w.gpio.pull q) m := by
    intro q m hm
    obtain ⟨j1, j2⟩ := h1 _ hm
    exact ⟨fun b hb => (hfun q b).trans (j1 b hb), by rw [r2]; exact j2⟩
  refine ⟨fun q hq => ?_, fun q hq => ?_, fun q hq => ?_, fun q hq => ?_, fun q hq hn => ?_, rfl⟩
  · refine (hmem q .output ?_).1
    simp only [modes, List.mem_append, List.mem_map, List.mem_singleton, Prod.mk.injEq] at hq ⊢
    rcases hq with (h | h) | h
    · exact .inl (.inl (.inl ⟨q, h, rfl, trivial⟩))
    · exact .inl (.inr ⟨q, h, rfl, trivial⟩)
    · exact .inr ⟨h, trivial⟩
  · refine hmem q .pullup ?_
    simp only [modes, List.mem_append, List.mem_map, List.mem_singleton, Prod.mk.injEq]
    exact .inl (.inl (.inr ⟨q, hq, rfl, trivial⟩))
  · rw [hlat, if_pos (by simpa using hq)]
  · rw [hlat, if_neg (by simpa using hq)]
  · obtain ⟨j1, j2⟩ := h2 q hq (by rw [modes_pins]; exact hn)
    exact ⟨by rw [r2]; exact j1, fun b hb => (hfun q b).trans (j2 b hb)⟩

theorem default_wired : Wired Pins.default := ⟨by decide, by decide⟩

example : Wired Pins.default := default_wired

/-- **C67, on the way, is false of the code.** The outputs are switched on before their latches are
cleared.  When a latch is still set, which is how the watchdog leaves a pin it has made an input
while the load was on, `hal.init()` turns that load on again: between `gpio.init` and `gpio.clear`
the extruder heater is driven. -/
theorem C67_glitch_refuted : ∃ (g : GpioHw) (k : Nat), (∀ q < 54, HasFunc g q 0) ∧
    Drives (runCalls ((initCalls Pins.default).take k) g) Pins.default.extruder := by
  refine ⟨⟨fun _ => 0, fun _ => true, fun _ => 0, fun _ => 0⟩, 16, fun q _ b _ => ?_, ?_, ?_⟩
  · simp [funcBit]
  · intro b hb
    match b, hb with
    | 0, _ => decide +kernel
    | 1, _ => decide +kernel
    | 2, _ => decide +kernel
  · decide +kernel

/-- **C67, on the way (partial).** When the latches of spindle, fan and heaters are clear before,
these are off all the time.  Missing: other latches, see `C67_glitch_refuted`. -/
theorem C67_quiet_partial {p : Pins} (hp : Wired p) (g : GpioHw)
    (hg : ∀ q ∈ powerPins p, g.latch q = false) (k : Nat) :
    ∀ q ∈ powerPins p, ¬ Drives (runCalls ((initCalls p).take k) g) q := by
  rintro q hq ⟨-, hl⟩
  rw [initCalls_eq, List.take_append, runCalls_append, ← List.map_take, ← List.map_take, latch_clears,
    latch_inits, hg q hq] at hl
  · simp at hl
  · exact fun x hx => modes_lt hp x (List.mem_of_mem_take hx)
  · intro q hq
    rcases List.mem_append.1 (List.mem_of_mem_take hq) with h | h
    · exact power_lt hp h
    · rw [List.mem_singleton.1 h]; exact enable_lt hp

example : Wired Pins.default ∧ ∀ q ∈ powerPins Pins.default, pwmWorld.gpio.latch q = false :=
  ⟨default_wired, fun _ _ => rfl⟩

variable [PyRound] {p : Pins} {b : Buf} {w : World} {h : List PiCall} {c : Option (Act × ℝ)}
  {s : PwmSt} {pc : Pc}

/-! ### C69: the pins show what was asked for -/

private theorem pin_ok (hp : Wired p) (hb : BufOk b) (hs : 8192 ≤ b.size) (hu : PiUse p b w h c s pc)
    {a : Act} (ha : ∀ x, c ≠ some (a, x)) :
    ∃ l, PInv p b w h c s pc l ∧ PinOk l s (a.pin p) (want (hist p h) (a.pin p)) := by
  obtain ⟨l, hi⟩ := pinv hp hb hs hu
  refine ⟨l, hi, hi.inv.others _ fun k hk hpin => ?_⟩
  cases c with
  | none => cases hk
  | some c =>
    cases hk
    rw [call_pin] at hpin
    have := (apart hp).1 _ _ (Int.ofNat_inj.1 hpin)
    exact ha c.2 (by rw [← this])

/-- **C69.** After any use of the machine since `hal.init()`, at any moment, also while the control
function of another output is running: an output (spindle, extruder heater, bed heater) last set to
no slot of 256, because it was set to 0 or below 100/256 percent or never, is low; one set to
100 percent is high. -/
theorem C69_constant (hp : Wired p) (hb : BufOk b) (hs : 8192 ≤ b.size)
    (hu : PiUse p b w h c s pc) {a : Act} (ha : ∀ x, c ≠ some (a, x)) :
    (share a h ≤ 0 → level s (a.pin p) = false) ∧ (share a h = 256 → level s (a.pin p) = true) := by
  obtain ⟨l, hi, hpin⟩ := pin_ok hp hb hs hu ha
  obtain ⟨s1, s2⟩ := slots_hist hp a h
  unfold share
  rcases lt_or_ge 0 (lastPower a h) with h0 | h0
  · rw [want, s1 h0] at hpin
    refine ⟨fun hz => hpin.2.2.2.2 (by omega), fun hz => hpin.2.2.2.1 (by omega)⟩
  · have hneg : ⌊lastPower a h * 256 / 100⌋ ≤ 0 := by
      have : ⌊lastPower a h * 256 / 100⌋ ≤ ⌊(0 : ℝ)⌋ := Int.floor_le_floor (by linarith)
      simpa using this
    refine ⟨fun _ => ?_, fun hz => by omega⟩
    rcases s2 h0 with h1 | h1
    · rw [want, h1] at hpin
      exact hpin.2.2.trans (hi.acts a)
    · rw [want, h1] at hpin
      exact hpin.2.2.2.2 rfl

/-- **C69.** Between the calls, an output last set to `n` of 256 slots is driven by the running PWM
engine: it executes the blocks `φ, φ+1, …` cyclically, and from the next cycle on the output is high
exactly while the blocks `0 … n-1` of the cycle were the last executed. -/
theorem C69_waveform (hp : Wired p) (hb : BufOk b) (hs : 8192 ≤ b.size)
    (hu : PiUse p b w h none s pc) {a : Act} (h0 : 0 < share a h) (h1 : share a h < 256) :
    s.active = true ∧ ∃ φ < 256, s.pos = b.base + 32 * φ ∧ ∀ k, 256 ≤ φ + k →
      level ((engine b)^[k + 1] s) (a.pin p) =
        decide ((((φ + k) % 256 : Nat) : Int) < share a h) := by
  obtain ⟨l, hi, hpin⟩ := pin_ok hp hb hs hu (a := a) (fun x hx => by cases hx)
  have hpos : 0 < lastPower a h := by
    by_contra hn
    have : ⌊lastPower a h * 256 / 100⌋ ≤ ⌊(0 : ℝ)⌋ := Int.floor_le_floor (by linarith)
    simp only [Int.floor_zero] at this
    unfold share at h0
    omega
  have hw : want (hist p h) (a.pin p) = some (share a h).toNat := by
    rw [want, (slots_hist hp a h).1 hpos]; rfl
  rw [hw] at hpin
  have hact := hi.inv.run _ (fun k hk => (by cases hk)) _ hw (by omega) (by omega)
  obtain ⟨φ, hφ, he⟩ := hi.inv.posn hact
  refine ⟨hact, φ, hφ, he, fun k hk => ?_⟩
  rw [wave hs hi.inv.headers hact hφ he (by omega) (by omega) hpin.2.1 k hk, decide_eq_decide]
  omega

/-- **C69.** The power of a completed call is at most 100 percent (another value is refused by the
assertion in `add_pin`), so no output is ever asked for more than all slots. -/
theorem C69_range (hu : PiUse p b w h c s pc) (a : Act) : lastPower a h ≤ 100 ∧ share a h ≤ 256 := by
  have hle : lastPower a h ≤ 100 := by
    have key : (∀ a, lastPower a h ≤ 100) ∧ ∀ a x, c = some (a, x) → x ≤ 100 := by
      induction hu with
      | boot => exact ⟨fun a => by simp [lastPower], fun _ _ h => by cases h⟩
      | @start h s a x pc hu hc ih =>
        refine ⟨ih.1, fun a' x' he => ?_⟩
        cases he
        have := control_call hc
        unfold call at this
        split at this
        · simp only [startCall, startAdd] at this
          split at this
          · rename_i hd
            simp only [Bool.and_eq_true] at hd
            simpa using hd.2
          · cases this
        · rename_i hx
          simp only [not_lt] at hx
          linarith
      | step _ _ ih => exact ih
      | finish _ _ ih =>
        refine ⟨fun a => ?_, fun _ _ h => by cases h⟩
        simp only [lastPower]
        split
        · exact ih.2 _ _ rfl
        · exact ih.1 a
      | engine _ ih => exact ih
      | fan _ _ ih => exact ih
      | enable _ ih => exact ih
      | disable _ ih => exact ih
      | motor _ _ _ _ _ ih => exact ih
    exact key.1 a
  refine ⟨hle, ?_⟩
  have h1 : (⌊lastPower a h * 256 / 100⌋ : ℝ) ≤ lastPower a h * 256 / 100 := Int.floor_le _
  have h2 : (⌊lastPower a h * 256 / 100⌋ : ℝ) ≤ 256 := by linarith
  unfold share
  exact_mod_cast h2

/-- **C69.** At every moment the fan pin shows the last command for the fan, and the enable pin
(active low) the last one for the motors. -/
theorem C69_switches (hp : Wired p) (hb : BufOk b) (hs : 8192 ≤ b.size)
    (hu : PiUse p b w h c s pc) :
    level s p.fan = fanOn h ∧ level s p.enable = !steppersOn h := by
  obtain ⟨l, hi⟩ := pinv hp hb hs hu
  have hA := apart hp
  have key : ∀ q : Nat, (∀ a : Act, a.pin p ≠ q) → level s q = l q := by
    intro q hq
    have := hi.inv.others q fun k hk hpin => by
      cases c with
      | none => cases hk
      | some c =>
        cases hk
        rw [call_pin] at hpin
        exact hq _ (Int.ofNat_inj.1 hpin)
    rw [want_hist_none hq] at this
    exact this.2.2
  exact ⟨(key _ hA.2.1).trans hi.fan,
    (key _ fun a => hA.2.2.1 _ (act_power p a)).trans hi.enable⟩

/-- **C69.** All outputs stay outputs. -/
theorem C69_outputs (hp : Wired p) (hb : BufOk b) (hs : 8192 ≤ b.size)
    (hu : PiUse p b w h c s pc) :
    ∀ q ∈ motorPins p ++ powerPins p ++ [p.enable], HasFunc s.w.gpio q 1 := by
  obtain ⟨l, hi⟩ := pinv hp hb hs hu
  intro q hq b' hb'
  have := (C67_init hp ⟨⟨w, [], false, 0⟩, false⟩).1 q hq b' hb'
  rw [← this]
  unfold funcBit
  rw [hi.reg]
  rfl

/-- **C69, the machine.** In a history of G-code whose calls reach the pins, the fan pin shows the
fan state of the machine, and the spindle pin is low unless the last accepted spindle command asked
for at least 100/256 percent. -/
theorem C69_machine {cfg : Cfg} {env : Env ℝ} (hp : Wired p) (hb : BufOk b) (hs : 8192 ≤ b.size)
    {m : MState ℝ} (hm : Reachable cfg env m) (hu : PiUse p b w h none s pc)
    (hc : Carries m.trace h) :
    level s p.fan = m.fan ∧
      ((lastSpindle m.trace).getD 0 * 256 < 100 → level s p.spindle = false) := by
  refine ⟨?_, fun hx => ?_⟩
  · rw [(C69_switches hp hb hs hu).1, hc.fan, C26_fan_state_is_last_command cfg env m hm]
  · refine (C69_constant hp hb hs hu (a := .spindle) (fun x hx => by cases hx)).1 ?_
    unfold share
    rw [hc.spindle]
    have : ⌊(lastSpindle m.trace).getD 0 * 256 / 100⌋ < 1 := Int.floor_lt.2 (by push_cast; linarith)
    omega

/-- **C69.** The level changes of a played move concern motor pins only: moves are uses of the kind
`PiUse.motor`. -/
theorem C69_moves {F : Type} {len t : Nat} {evs : List (Event F)} {es : List Edge} {Ts : List Nat}
    (hpl : Plays p len t evs es Ts) : ∀ e ∈ es, ∀ q, e.2.2.getLsbD q = true → q ∈ motorPins p := by
  have hstep : ∀ ax, p.step.get ax ∈ motorPins p := by
    intro ax; cases ax <;> simp [motorPins, V4.get]
  have hdir : ∀ ax, p.dir.get ax ∈ motorPins p := by
    intro ax; cases ax <;> simp [motorPins, V4.get]
  have hlt : ∀ (m : Word) q, m.getLsbD q = true → q < 32 := by
    intro m q hq
    by_contra hn
    rw [BitVec.getLsbD_of_ge _ _ (by omega)] at hq
    cases hq
  have hedge : ∀ t l (m : Word) e, e ∈ edge t l m → e.2.2 = m := by
    intro t l m e he
    unfold edge at he
    split at he
    · cases he
    · rw [List.mem_singleton.1 he]
  induction hpl with
  | nil => exact fun e h => (by cases h)
  | dir hhi hlo _ ih =>
    intro e he q hq
    have h32 := hlt _ _ hq
    simp only [List.mem_append] at he
    rcases he with (he | he) | he
    · rw [hedge _ _ _ _ he] at hq
      obtain ⟨ax, -, rfl⟩ := (hhi q h32).1 hq
      exact hdir ax
    · rw [hedge _ _ _ _ he] at hq
      obtain ⟨ax, -, rfl⟩ := (hlo q h32).1 hq
      exact hdir ax
    · exact ih e he q hq
  | pulse _ hm _ _ ih =>
    intro e he q hq
    have h32 := hlt _ _ hq
    rcases List.mem_cons.1 he with rfl | he
    · obtain ⟨ax, -, rfl⟩ := (hm q h32).1 hq
      exact hstep ax
    · rcases List.mem_cons.1 he with rfl | he
      · obtain ⟨ax, -, rfl⟩ := (hm q h32).1 hq
        exact hstep ax
      · exact ih e he q hq

/-- A use: the fan is switched on, the spindle set to 50 percent, a motor pin written. -/
theorem pi_example : ∃ s, PiUse Pins.default pwmBuf pwmWorld [.power .spindle 50, .fan true] none s .idle := by
  obtain ⟨s₀, h0⟩ := init_succeeds pwmBuf_ok (by decide) pwmWorld
  have u0 := PiUse.boot (p := Pins.default) h0 false
  have u1 := PiUse.fan u0 true
  have u2 := PiUse.motor u1 0x1C (Gpio.bit 21) (.inl rfl) (fun q hq => by
    rw [bit_get 21 q (by decide)] at hq
    rw [of_decide_eq_true hq]; decide)
  have hc : powerControl Pins.default .spindle 50 = .ok (.remStart 4 (some 128)) := by
    have := start_add (p := 4) (d := 50) (by decide) (by norm_num) (by norm_num)
    rw [floor_50] at this
    have e : ((PyNum.ofRat 0 : ℝ) <ₚ (50 : ℝ)) = true := by
      change decide (((0 : ℚ) : ℝ) < 50) = true
      norm_num
    simp only [powerControl, spindleControl, e, if_true]
    exact this
  have u3 := PiUse.start u2 hc
  have hgo : ∀ (n : Nat) (pc : Pc) (s : PwmSt), rank pc ≤ n → pc ≠ .idle →
      PiUse Pins.default pwmBuf pwmWorld [.fan true] (some (.spindle, 50)) s pc →
      ∃ s', PiUse Pins.default pwmBuf pwmWorld [.power .spindle 50, .fan true] none s' .idle := by
    intro n
    induction n with
    | zero =>
      intro pc s hr hne _
      have := rank_step pwmBuf pc s hne
      omega
    | succ n ih =>
      intro pc s hr hne hu
      have hlt := rank_step pwmBuf pc s hne
      by_cases hd : (step pwmBuf pc s).2 = .idle
      · exact ⟨_, PiUse.finish hu hd⟩
      · exact ih _ _ (by omega) hd (PiUse.step hu hd)
  exact hgo 20 _ _ (by simp only [rank]; omega) (by simp) u3

theorem pi_share : share .spindle [.power .spindle 50, .fan true] = 128 := by
  simp only [share, lastPower, if_true]
  exact floor_50

example : Wired Pins.default ∧ BufOk pwmBuf ∧ 8192 ≤ pwmBuf.size ∧
    (∃ s, PiUse Pins.default pwmBuf pwmWorld [.power .spindle 50, .fan true] none s .idle) ∧
    share .spindle [.power .spindle 50, .fan true] = 128 ∧
    share .bed [.power .spindle 50, .fan true] ≤ 0 :=
  ⟨default_wired, pwmBuf_ok, by decide, pi_example, pi_share, by simp [share, lastPower]⟩

/-! ### C68: `hal.deinit()` -/

/-- What is left after `deinit`. -/
structure SwitchedOff (p : Pins) (s : PiSt) : Prop where
  power : ∀ q ∈ powerPins p, level s.pwm q = false
  motors : level s.pwm p.enable = true
  engine : s.pwm.active = false
  pwm : s.pwm.clear = []
  dog : s.dog = false

private theorem off_of (hp : Wired p) {s : PwmSt} (he : level s p.enable = true)
    (ha : s.active = false) (hc : s.clear = []) :
    SwitchedOff p ⟨onGpio (runCalls (deinitCalls p)) s, false⟩ := by
  have hd : deinitCalls p = (powerPins p).map Gpio.clear := rfl
  have hl : ∀ q, level (onGpio (runCalls (deinitCalls p)) s) q =
      if q ∈ powerPins p then false else level s q := by
    intro q
    simp only [level, onGpio]
    rw [hd, latch_clears _ (fun q hq => power_lt hp hq)]
  refine ⟨fun q hq => by rw [hl, if_pos hq], ?_, ha, hc, rfl⟩
  rw [hl, if_neg]
  · exact he
  · intro hq
    exact (apart hp).2.2.1 _ hq rfl

private theorem want_lt' (hp : Wired p) (h : List PiCall) : ∀ q, 32 ≤ q → want (hist p h) q = none :=
  fun q hq => want_hist_none (fun a => by have := power_lt hp (act_power p a); omega) h

/-- **C68.** With Python 2, whatever was on: `deinit` raises nothing, spindle, fan and heaters are
off, the motors disabled, the PWM engine and the watchdog stopped. -/
theorem C68_python2_partial (hp : Wired p) (hb : BufOk b) (hs : 8192 ≤ b.size)
    (hu : PiUse p b w h none s .idle) (dog : Bool) :
    (deinit false b p ⟨s, dog⟩).2 = none ∧ SwitchedOff p (deinit false b p ⟨s, dog⟩).1 := by
  obtain ⟨l, hi⟩ := pinv hp hb hs (PiUse.disable hu)
  obtain ⟨h1, h2, h3, h', h4, h5⟩ := removeAll2_inv hi.inv (want_lt' hp _)
  have hen : level (removeAll false b (onGpio (disableSteppers p) s)).1 p.enable = true := by
    have hpin := h4.others p.enable (fun k hk => (by cases hk))
    rw [(h5 p.enable).1.2 (want_hist_none (fun a => (apart hp).2.2.1 _ (act_power p a)) _)] at hpin
    rw [hpin.2.2, hi.enable]
    rfl
  have e : deinit false b p ⟨s, dog⟩ = (⟨onGpio (runCalls (deinitCalls p))
      (removeAll false b (onGpio (disableSteppers p) s)).1, false⟩, none) := by
    unfold deinit
    simp only
    split
    · rename_i h6; rw [h6] at h1; cases h1
    · rename_i h6; rw [h6]
  rw [e]
  exact ⟨rfl, off_of hp hen h3 h2⟩

/-- **C68.** With either Python, when spindle and heaters were switched off before (the fan may be
on): `deinit` raises nothing and leaves everything off. -/
theorem C68_deinit (hp : Wired p) (hb : BufOk b) (hs : 8192 ≤ b.size)
    (hu : PiUse p b w h none s .idle) (h0 : ∀ a, share a h ≤ 0) (py3 dog : Bool) :
    (deinit py3 b p ⟨s, dog⟩).2 = none ∧ SwitchedOff p (deinit py3 b p ⟨s, dog⟩).1 := by
  obtain ⟨l, hi⟩ := pinv hp hb hs (PiUse.disable hu)
  have hen := (C69_switches hp hb hs (PiUse.disable hu)).2
  have hnil : (onGpio (disableSteppers p) s).clear = [] := by
    refine nil_of_lookup fun q => ?_
    have hpin := hi.inv.others q (fun k hk => (by cases hk))
    by_cases ha : ∃ a : Act, a.pin p = q
    · obtain ⟨a, rfl⟩ := ha
      have ho : (onGpio (disableSteppers p) s).clear = s.clear := rfl
      have hh : hist p (.steppers false :: h) = hist p h := rfl
      rw [hh] at hpin
      obtain ⟨s1, s2⟩ := slots_hist hp a h
      have hz := h0 a
      unfold share at hz
      rcases lt_or_ge 0 (lastPower a h) with hx | hx
      · rw [want, s1 hx] at hpin
        have := hpin.2.2.1
        rwa [show (⌊lastPower a h * 256 / 100⌋).toNat = 0 by omega] at this
      · rcases s2 hx with e | e
        · rw [want, e] at hpin; exact hpin.2.1
        · rw [want, e] at hpin; exact hpin.2.2.1
    · rw [want_hist_none (fun a h => ha ⟨a, h⟩)] at hpin
      exact hpin.2.1
  have hact := hi.inv.stop rfl hnil
  have e : deinit py3 b p ⟨s, dog⟩ = (⟨onGpio (runCalls (deinitCalls p))
      (onGpio (disableSteppers p) s), false⟩, none) := by
    unfold deinit
    simp only
    rw [removeAll_nil py3 b hnil]
  rw [e]
  exact ⟨rfl, off_of hp (hen.trans rfl) hact hnil⟩

/-- **C68 is false of the code with Python 3** when an output is on: `deinit` ends with a
`RuntimeError`; it has removed one output, the fan is as it was and the watchdog still runs. -/
theorem C68_python3_refuted (hp : Wired p) (hb : BufOk b) (hs : 8192 ≤ b.size)
    (hu : PiUse p b w h none s .idle) {a : Act} (h0 : 0 < share a h) (dog : Bool) :
    (deinit true b p ⟨s, dog⟩).2 = some .runtime ∧
      level (deinit true b p ⟨s, dog⟩).1.pwm p.fan = fanOn h ∧
      (deinit true b p ⟨s, dog⟩).1.dog = dog := by
  obtain ⟨l, hi⟩ := pinv hp hb hs (PiUse.disable hu)
  have hpos : 0 < lastPower a h := by
    by_contra hn
    have : ⌊lastPower a h * 256 / 100⌋ ≤ ⌊(0 : ℝ)⌋ := Int.floor_le_floor (by linarith)
    simp only [Int.floor_zero] at this
    unfold share at h0
    omega
  have hw : want (hist p (.steppers false :: h)) (a.pin p) = some (share a h).toNat := by
    have hh : hist p (.steppers false :: h) = hist p h := rfl
    rw [hh, want, (slots_hist hp a h).1 hpos]; rfl
  obtain ⟨h1, q, h2⟩ := removeAll3_some hi.inv (want_lt' hp _) hw (by omega)
  have e : deinit true b p ⟨s, dog⟩ =
      (⟨(removeAll true b (onGpio (disableSteppers p) s)).1, dog⟩, some .runtime) := by
    unfold deinit
    simp only
    split
    · rename_i h6; rw [h6] at h1; cases h1; rw [h6]
    · rename_i h6; rw [h6] at h1; cases h1
  rw [e]
  refine ⟨rfl, ?_, rfl⟩
  have hpin := h2.others p.fan (fun k hk => (by cases hk))
  have hwf : want (hist p (.steppers false :: h)) p.fan = none := want_hist_none (apart hp).2.1 _
  have hrem : want (.remove (q : Int) :: hist p (.steppers false :: h)) p.fan = none := by
    by_cases hq : q = p.fan
    · rw [want_same (k := .remove (q : Int)) (by simp only [PwmCall.pin]; omega), hwf]; rfl
    · rw [want_other (k := .remove (q : Int)) (by simp only [PwmCall.pin]; omega), hwf]
  rw [hrem] at hpin
  exact hpin.2.2.trans hi.fan

example : ∃ s, PiUse Pins.default pwmBuf pwmWorld [.power .spindle 50, .fan true] none s .idle ∧
    0 < share .spindle [.power .spindle 50, .fan true] := by
  obtain ⟨s, hs⟩ := pi_example
  exact ⟨s, hs, by rw [pi_share]; decide⟩

/-- **C68, the machine.** `release()` after any history of G-code, if the sensor answered right after
each start of a controller (as in C24) and the calls reach the pins: its `hal.deinit()` raises
nothing, with either Python, and leaves everything off. -/
theorem C68_release {cfg : Cfg} {env : Env ℝ} (hp : Wired p) (hb : BufOk b) (hs : 8192 ≤ b.size)
    {m : MState ℝ} (hm : Reachable cfg env m) (ha : AnswersAfterStart env) :
    ∃ tr m', release cfg m = (.ok (), m') ∧ m'.trace = .deinit :: tr ∧
      ∀ (h : List PiCall) (s : PwmSt), PiUse p b w h none s .idle → Carries tr h →
        ∀ py3 dog, (deinit py3 b p ⟨s, dog⟩).2 = none ∧
          SwitchedOff p (deinit py3 b p ⟨s, dog⟩).1 := by
  obtain ⟨m', h1, h2, h3, h4, h5, h6⟩ := C24_release_partial cfg env m hm
  cases ht : m'.trace with
  | nil => rw [ht] at h2; cases h2
  | cons d tr =>
    rw [ht] at h2 h3 h6
    cases h2
    refine ⟨tr, m', h1, ht, fun h s hu hc py3 dog => C68_deinit hp hb hs hu (fun a => ?_) py3 dog⟩
    have hneg : lastPower a h ≤ 0 := by
      cases a with
      | spindle =>
        rw [hc.spindle]
        have h3' : lastSpindle tr = some (PyNum.ofRat 100 *ₚ PyNum.ofRat 0 /ₚ
          PyNum.ofRat cfg.spindleMax) := h3
        rw [h3']
        simp [PyNum.ofRat]
      | extruder => exact hc.extruder (h6 ha .extruder)
      | bed => exact hc.bed (h6 ha .bed)
    have : ⌊lastPower a h * 256 / 100⌋ ≤ ⌊(0 : ℝ)⌋ := Int.floor_le_floor (by linarith)
    simpa [share] using this

/-- A history that can reach the pins: nothing but the start of the machine. -/
example : Reachable Cfg.default (⟨fun _ => some 20, fun _ => none, fun _ => true, fun _ => none⟩ : Env ℝ)
      (MState.init Cfg.default) ∧
    Carries (MState.init (F := ℝ) Cfg.default).trace [] ∧
    (∃ s, PiUse Pins.default pwmBuf pwmWorld [] none s .idle) := by
  refine ⟨.init, ⟨rfl, rfl, fun _ => le_refl _, fun _ => le_refl _⟩, ?_⟩
  obtain ⟨s₀, h0⟩ := init_succeeds pwmBuf_ok (by decide) pwmWorld
  exact ⟨_, .boot h0 false⟩

end PyCNC.Props
