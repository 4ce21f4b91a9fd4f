import Verif.Spec.Gpio

/-!
# Property C47: GPIO calls touch only their pin
-/

namespace PyCNC

open Spec Gpio

theorem bit_getLsbD {n i : Nat} (hn : n < 32) : (bit n).getLsbD i = decide (i = n) := by
  unfold bit
  rw [BitVec.getLsbD_shiftLeft]
  rw [BitVec.getLsbD_one]
  by_cases h : i = n
  · subst h; simp [hn]
  · simp [h]
    omega

theorem seven_getLsbD {n i : Nat} (hi : i < 32) :
    (7#32 <<< n).getLsbD i = decide (n ≤ i ∧ i < n + 3) := by
  rw [BitVec.getLsbD_shiftLeft]
  have h7 : ∀ k < 32, (7#32).getLsbD k = decide (k < 3) := by decide
  rw [h7 _ (by omega)]
  by_cases h : n ≤ i
  · simp only [hi, decide_true, Bool.true_and, Nat.not_lt.2 h, decide_false, Bool.not_false, h,
      true_and, decide_eq_decide]
    omega
  · simp [h, Nat.lt_of_not_le h]

theorem one_shift_getLsbD {n i : Nat} (hi : i < 32) :
    (1#32 <<< n).getLsbD i = decide (i = n) := by
  rw [BitVec.getLsbD_shiftLeft, BitVec.getLsbD_one]
  by_cases h : i = n
  · subst h; simp [hi]
  · simp [h]
    omega

/-- The value that `init` writes to the function register. -/
def newFunc (pin : Nat) (mode : PinMode) (v : Word) : Word :=
  let v := v &&& ~~~(7#32 <<< (pin % 10 * 3))
  match mode with
  | .output => v ||| (1#32 <<< (pin % 10 * 3))
  | _ => v

theorem newFunc_getLsbD (pin : Nat) (mode : PinMode) (v : Word) {i : Nat} (hi : i < 32) :
    (newFunc pin mode v).getLsbD i =
      if 3 * (pin % 10) ≤ i ∧ i < 3 * (pin % 10) + 3 then
        (funcOf mode).getLsbD (i - 3 * (pin % 10))
      else v.getLsbD i := by
  have hb : ∀ j < 3, (1 : BitVec 3).getLsbD j = decide (j = 0) := by decide
  have h0 : ∀ j, (0 : BitVec 3).getLsbD j = false := by intro j; simp
  cases mode <;> simp only [newFunc, funcOf, BitVec.getLsbD_or, BitVec.getLsbD_and,
    BitVec.getLsbD_not, seven_getLsbD hi, one_shift_getLsbD hi, h0, hi, decide_true, Bool.true_and,
    Nat.mul_comm (pin % 10) 3] <;> split
  · rename_i h
    rw [hb _ (by omega)]
    simp [h]
    omega
  · rename_i h
    simp [h]
    omega
  all_goals rename_i h; simp [h]

theorem write_plain {g : GpioHw} {off : Nat} {v : Word} (h : off < 0x1C ∨ off = gpioPud) :
    g.write off v = { g with reg := fun o => if o = off then v else g.reg o } := by
  unfold GpioHw.write
  simp only [gpioSet, gpioClear, gpioPudClk, gpioPud] at *
  have h1 : ¬ (off = 28 ∨ off = 28 + 4) := by omega
  have h2 : ¬ (off = 40 ∨ off = 40 + 4) := by omega
  have h3 : ¬ (off = 152 ∨ off = 152 + 4) := by omega
  rw [if_neg h1, if_neg h2, if_neg h3]

theorem read_plain {g : GpioHw} {off : Nat} (h : off < 0x1C ∨ off = gpioPud) :
    g.read off = g.reg off := by
  unfold GpioHw.read
  simp only [gpioInput, gpioPud] at *
  have h1 : ¬ (off = 52 ∨ off = 52 + 4) := by omega
  rw [if_neg h1]

theorem write_clk {g : GpioHw} {n : Nat} {v : Word} (h : n < 2) :
    g.write (4 * n + gpioPudClk) v =
      { g with
        reg := fun o => if o = 4 * n + gpioPudClk then v else g.reg o
        pull := fun p => if p / 32 = n ∧ v.getLsbD (p % 32) = true then
          (g.reg gpioPud).truncate 2 else g.pull p } := by
  unfold GpioHw.write
  simp only [gpioSet, gpioClear, gpioPudClk, gpioPud]
  have h1 : ¬ (4 * n + 152 = 28 ∨ 4 * n + 152 = 28 + 4) := by omega
  have h2 : ¬ (4 * n + 152 = 40 ∨ 4 * n + 152 = 40 + 4) := by omega
  have h3 : 4 * n + 152 = 152 ∨ 4 * n + 152 = 152 + 4 := by omega
  rw [if_neg h1, if_neg h2, if_pos h3]
  congr
  funext p
  have : (4 * n + 152 = 152 + 4 * (p / 32)) ↔ p / 32 = n := by omega
  simp only [this]

/-- The value written to the pull control register. -/
theorem pud_low (v : Word) (mode : PinMode) (hm : mode ≠ .output) :
    ((match mode with
      | .pullup => v &&& ~~~3#32 ||| 2#32
      | .pulldown => v &&& ~~~3#32 ||| 1#32
      | _ => v &&& ~~~3#32).truncate 2 : BitVec 2) = pullOf 0 mode := by
  have h3 : ∀ i < 2, (3#32).getLsbD i = true := by decide
  have h2 : ∀ i < 2, (2#32).getLsbD i = (2#2).getLsbD i := by decide
  have h1 : ∀ i < 2, (1#32).getLsbD i = (1#2).getLsbD i := by decide
  cases mode
  · exact absurd rfl hm
  all_goals
    refine BitVec.eq_of_getLsbD_eq fun i hi => ?_
    simp +decide [pullOf, hi]
    try (have : i = 0 ∨ i = 1 := by omega
         rcases this with rfl | rfl <;> simp)

theorem pullUpDn_eq (pin : Nat) (hp : pin < 64) (mode : PinMode) (hm : mode ≠ .output)
    (g : GpioHw) :
    ∃ r, pullUpDn pin mode g = { g with
        reg := r
        pull := fun p => if p = pin then pullOf 0 mode else g.pull p } ∧
      (∀ o < 0x1C, r o = g.reg o) ∧ r (4 * (pin / 32) + gpioPudClk) = 0#32 ∧
      ∀ i < 2, (r gpioPud).getLsbD i = false := by
  have hn : pin / 32 < 2 := by omega
  have hk : pin % 32 < 32 := by omega
  have hpin : ∀ p, (p / 32 = pin / 32 ∧ p % 32 = pin % 32) ↔ p = pin := by intro p; omega
  have hne : gpioPud ≠ 4 * (pin / 32) + gpioPudClk := by simp only [gpioPud, gpioPudClk]; omega
  have h3 : ∀ i < 2, (3#32).getLsbD i = true := by decide
  have hr : ∀ g : GpioHw, g.read gpioPud = g.reg gpioPud := fun g => read_plain (.inr rfl)
  have hw : ∀ (g : GpioHw) v, g.write gpioPud v =
      { g with reg := fun o => if o = gpioPud then v else g.reg o } :=
    fun g v => write_plain (.inr rfl)
  unfold pullUpDn
  simp only [hr, hw, write_clk hn, if_true, bit_getLsbD hk, decide_eq_true_eq, hpin, hne, if_false,
    BitVec.getLsbD_zero, Bool.false_eq_true, and_false]
  refine ⟨_, congrArg (fun pl => GpioHw.mk _ g.latch pl g.input) ?_, ?_, ?_, ?_⟩
  · funext p
    by_cases h : p = pin
    · rw [if_pos h, if_pos h]
      exact pud_low (g.reg gpioPud) mode hm
    · rw [if_neg h, if_neg h]
  · intro o ho
    have h1 : o ≠ 4 * (pin / 32) + gpioPudClk := by simp only [gpioPudClk]; omega
    have h2 : o ≠ gpioPud := by simp only [gpioPud]; omega
    simp [h1, h2]
  · simp
  · intro i hi
    have h32 : i < 32 := by omega
    simp only [hne, if_false, if_true, BitVec.getLsbD_and, BitVec.getLsbD_not, h3 i hi, h32,
      decide_true, Bool.not_true, Bool.and_false]

end PyCNC

namespace PyCNC.Props

open PyCNC Spec Gpio

/-- **C47.** `GPIO.init` gives the pin the function of the mode (and the pull resistor, for an
input) and changes neither the function nor the pull resistor of any other pin, nor any output
latch; the pull control is switched off again. -/
theorem C47_init (pin : Nat) (hp : pin < 54) (mode : PinMode) (g : GpioHw) :
    HasFunc (init pin mode g) pin (funcOf mode) ∧
    (init pin mode g).pull pin = pullOf (g.pull pin) mode ∧
    (∀ q < 54, q ≠ pin → (init pin mode g).pull q = g.pull q ∧
      ∀ b < 3, funcBit (init pin mode g) q b = funcBit g q b) ∧
    (init pin mode g).latch = g.latch ∧
    (mode ≠ .output → (init pin mode g).reg (4 * (pin / 32) + gpioPudClk) = 0 ∧
      ∀ i < 2, ((init pin mode g).reg gpioPud).getLsbD i = false) := by
  have ha : 4 * (pin / 10) + gpioFsel < 0x1C := by simp only [gpioFsel]; omega
  -- the function register
  have key : ∃ r pl, init pin mode g = { g with reg := r, pull := pl } ∧
      (∀ o < 0x1C, r o = if o = 4 * (pin / 10) + gpioFsel then newFunc pin mode (g.reg o)
        else g.reg o) ∧
      (pl = fun p => if p = pin then pullOf (g.pull pin) mode else g.pull p) ∧
      (mode ≠ .output → r (4 * (pin / 32) + gpioPudClk) = 0 ∧
        ∀ i < 2, (r gpioPud).getLsbD i = false) := by
    by_cases hm : mode = .output
    · subst hm
      refine ⟨fun o => if o = 4 * (pin / 10) + gpioFsel then
          newFunc pin .output (g.reg (4 * (pin / 10) + gpioFsel)) else g.reg o,
        fun p => if p = pin then pullOf (g.pull pin) .output else g.pull p, ?_, ?_, rfl,
        fun h => absurd rfl h⟩
      · simp only [init]
        rw [write_plain (.inl ha), read_plain (.inl ha)]
        refine congrArg (fun pl => GpioHw.mk _ g.latch pl g.input) ?_
        funext p
        simp only [pullOf]
        split
        · rename_i h; rw [h]
        · rfl
      · intro o ho
        simp only
        by_cases h : o = 4 * (pin / 10) + gpioFsel
        · rw [if_pos h, if_pos h, h]
        · rw [if_neg h, if_neg h]
    · have hi : init pin mode g =
          pullUpDn pin mode (g.write (4 * (pin / 10) + gpioFsel)
            (newFunc pin mode (g.read (4 * (pin / 10) + gpioFsel)))) := by
        cases mode <;> first | exact absurd rfl hm | rfl
      obtain ⟨r, h1, h2, h3, h4⟩ := pullUpDn_eq pin (by omega) mode hm
        (g.write (4 * (pin / 10) + gpioFsel) (newFunc pin mode (g.read (4 * (pin / 10) + gpioFsel))))
      rw [write_plain (.inl ha), read_plain (.inl ha)] at h1 h2
      rw [hi, write_plain (.inl ha), read_plain (.inl ha)]
      refine ⟨r, _, h1, ?_, ?_, fun _ => ⟨h3, h4⟩⟩
      · intro o ho
        rw [h2 o ho]
        simp only
        by_cases h : o = 4 * (pin / 10) + gpioFsel
        · rw [if_pos h, if_pos h, h]
        · rw [if_neg h, if_neg h]
      · funext p
        cases mode <;> first | exact absurd rfl hm | rfl
  obtain ⟨r, pl, h1, h2, h3, h4⟩ := key
  have hfunc : ∀ q < 54, ∀ b < 3, funcBit (init pin mode g) q b =
      if q = pin then (funcOf mode).getLsbD b else funcBit g q b := by
    intro q hq b hb
    unfold funcBit
    rw [h1]
    simp only
    rw [h2 _ (by omega)]
    simp only [gpioFsel, Nat.add_zero]
    by_cases hr : 4 * (q / 10) = 4 * (pin / 10)
    · rw [if_pos hr, newFunc_getLsbD pin mode _ (by omega)]
      by_cases hqp : q = pin
      · subst hqp
        rw [if_pos (by omega), if_pos rfl]
        congr 1; omega
      · rw [if_neg hqp, if_neg (by omega)]
    · rw [if_neg hr, if_neg (by rintro rfl; exact hr rfl)]
  refine ⟨fun b hb => by rw [hfunc pin hp b hb, if_pos rfl], ?_, ?_, by rw [h1], ?_⟩
  · rw [h1, h3]; simp
  · intro q hq hne
    refine ⟨by rw [h1, h3]; simp [hne], fun b hb => by rw [hfunc q hq b hb, if_neg hne]⟩
  · intro hm
    rw [h1]
    exact h4 hm

/-- **C47.** `GPIO.set` sets the output latch of its pin and changes nothing else. -/
theorem C47_set (pin : Nat) (hp : pin < 54) (g : GpioHw) :
    Gpio.set pin g = { g with latch := fun q => if q = pin then true else g.latch q } := by
  have hpin : ∀ p, (4 * (pin / 32) + 28 = 28 + 4 * (p / 32) ∧ p % 32 = pin % 32) ↔ p = pin := by
    intro p; omega
  have h1 : 4 * (pin / 32) + 28 = 28 ∨ 4 * (pin / 32) + 28 = 28 + 4 := by omega
  unfold Gpio.set GpioHw.write
  simp only [gpioSet]
  rw [if_pos h1]
  simp only [bit_getLsbD (show pin % 32 < 32 by omega), decide_eq_true_eq, hpin]

/-- **C47.** `GPIO.clear` clears the output latch of its pin and changes nothing else. -/
theorem C47_clear (pin : Nat) (hp : pin < 54) (g : GpioHw) :
    clear pin g = { g with latch := fun q => if q = pin then false else g.latch q } := by
  have hpin : ∀ p, (4 * (pin / 32) + 40 = 40 + 4 * (p / 32) ∧ p % 32 = pin % 32) ↔ p = pin := by
    intro p; omega
  have h1 : 4 * (pin / 32) + 40 = 40 ∨ 4 * (pin / 32) + 40 = 40 + 4 := by omega
  have h2 : ¬ (4 * (pin / 32) + 40 = 28 ∨ 4 * (pin / 32) + 40 = 28 + 4) := by omega
  unfold clear GpioHw.write
  simp only [gpioSet, gpioClear]
  rw [if_neg h2, if_pos h1]
  simp only [bit_getLsbD (show pin % 32 < 32 by omega), decide_eq_true_eq, hpin]

/-- **C47.** `GPIO.read` returns the bit of its pin in the input register. -/
theorem C47_read (pin : Nat) (hp : pin < 54) (g : GpioHw) :
    Gpio.read pin g = if (g.input (0x34 + 4 * (pin / 32))).getLsbD (pin % 32) = true then 1 else 0 := by
  have h1 : 4 * (pin / 32) + 52 = 52 ∨ 4 * (pin / 32) + 52 = 52 + 4 := by omega
  have hk : pin % 32 < 32 := by omega
  unfold Gpio.read GpioHw.read
  simp only [gpioInput]
  rw [if_pos h1, Nat.add_comm]
  generalize g.input (52 + 4 * (pin / 32)) = v
  have : v &&& bit (pin % 32) = 0#32 ↔ v.getLsbD (pin % 32) = false := by
    constructor
    · intro h
      have := congrArg (fun w => BitVec.getLsbD w (pin % 32)) h
      simpa [bit_getLsbD hk] using this
    · intro h
      refine BitVec.eq_of_getLsbD_eq fun i hi => ?_
      rw [BitVec.getLsbD_and, bit_getLsbD hk]
      by_cases hi' : i = pin % 32
      · subst hi'; simp [h]
      · simp [hi']
  by_cases h : v.getLsbD (pin % 32) = true
  · rw [if_pos h, if_neg (by rw [this, h]; simp)]
  · rw [if_neg h, if_pos (by rw [this]; simpa using h)]

/-- Pin 27 (the fan) is in the range of the theorems. -/
example : 27 < 54 ∧ Gpio.read 27 ⟨fun _ => 0, fun _ => false, fun _ => 0, fun _ => 0x08000000⟩ = 1 :=
  ⟨by decide, by decide⟩

end PyCNC.Props
