import Verif.Spec.Pwm
import Verif.Spec.Dma
import Verif.Lemmas.Dma
import Verif.Lemmas.Exact
import Mathlib.Tactic.Linarith

/-!
# Invariants of the PWM
-/

namespace PyCNC

open Spec

namespace Pwm

/-! ### Registers -/

theorem write_set (g : GpioHw) (v : Word) :
    (g.write gpioSet v).latch =
      fun p => if gpioSet = gpioSet + 4 * (p / 32) ∧ v.getLsbD (p % 32) = true then true
        else g.latch p := by
  rw [GpioHw.write, if_pos (Or.inl rfl)]

theorem write_clr (g : GpioHw) (v : Word) :
    (g.write gpioClear v).latch =
      fun p => if gpioClear = gpioClear + 4 * (p / 32) ∧ v.getLsbD (p % 32) = true then false
        else g.latch p := by
  rw [GpioHw.write, if_neg (by decide), if_pos (Or.inl rfl)]

theorem cond_iff (a : Nat) (v : Word) (q : Nat) :
    (a = a + 4 * (q / 32) ∧ v.getLsbD (q % 32) = true) ↔ v.getLsbD q = true := by
  by_cases hq : q < 32
  · have h1 : q / 32 = 0 := by omega
    have h2 : q % 32 = q := by omega
    rw [h1, h2]; simp
  · have h2 : v.getLsbD q = false := BitVec.getLsbD_of_ge v q (by omega)
    rw [h2]
    constructor
    · rintro ⟨h, -⟩; omega
    · intro h; cases h

theorem latch_set (g : GpioHw) (v : Word) (q : Nat) :
    (g.write gpioSet v).latch q = if v.getLsbD q = true then true else g.latch q := by
  rw [write_set]
  simp only [cond_iff]

theorem latch_clr (g : GpioHw) (v : Word) (q : Nat) :
    (g.write gpioClear v).latch q = if v.getLsbD q = true then false else g.latch q := by
  rw [write_clr]
  simp only [cond_iff]

theorem bit_get (p q : Nat) (hp : p < 32) : (Gpio.bit p).getLsbD q = decide (q = p) := by
  unfold Gpio.bit
  by_cases hq : q < 32
  · rw [BitVec.getLsbD_shiftLeft]
    simp only [hq, decide_true, Bool.true_and, BitVec.getLsbD_one]
    by_cases h : q = p
    · subst h; simp
    · by_cases hlt : q < p
      · simp [hlt, h]
      · have : q - p ≠ 0 := by omega
        simp [this, h]
  · rw [BitVec.getLsbD_of_ge _ _ (by omega)]
    simp; omega

/-! ### Memory -/

/-- The fixed words of the control blocks. -/
def Headers (b : Buf) (mem : Nat → Word) : Prop :=
  ∀ i < 256, (mem (8 * i)).toNat = pwmInfo ∧ (mem (8 * i + 1)).toNat = b.base + 32 * i + 24 ∧
    (mem (8 * i + 2)).toNat = gpioBus + (if i = 0 then gpioSet else gpioClear) ∧
    (mem (8 * i + 3)).toNat = 4 ∧
    (mem (8 * i + 5)).toNat = (if i = 255 then b.base else b.base + 32 * i + 32)

theorem exec_pwm {b : Buf} (hs : 8192 ≤ b.size) {w : World} (hw : Headers b w.mem) {i : Nat}
    (hi : i < 256) :
    Dma.execBlock b (b.base + 32 * i) w =
      ({ w with
          gpio := w.gpio.write (if i = 0 then gpioSet else gpioClear) (w.mem (8 * i + 6))
          log := (w.time, (if i = 0 then gpioSet else gpioClear), w.mem (8 * i + 6)) :: w.log },
        if i = 255 then b.base else b.base + 32 * i + 32) := by
  have r : ∀ j < 8, Dma.busRead b w (b.base + 32 * i + 4 * j) = w.mem (8 * i + j) :=
    fun j hj => Dma.busRead_at b w i j hj (by omega)
  have r0 := r 0 (by omega)
  have r1 := r 1 (by omega)
  have r2 := r 2 (by omega)
  have r3 := r 3 (by omega)
  have r4 := r 4 (by omega)
  have r5 := r 5 (by omega)
  have r6 := r 6 (by omega)
  simp only [Nat.mul_zero, Nat.add_zero, Nat.reduceMul] at r0 r1 r2 r3 r4 r5 r6
  obtain ⟨h0, h1, h2, h3, h5⟩ := hw i hi
  have e0 := Dma.word_eq h0
  have b1 : (w.mem (8 * i)).getLsbD 1 = false := by rw [e0]; decide
  have b6 : (w.mem (8 * i)).getLsbD 6 = false := by rw [e0]; decide
  have b7 : (w.mem (8 * i)).getLsbD 7 = false := by rw [e0]; decide
  have b11 : (w.mem (8 * i)).getLsbD 11 = false := by rw [e0]; decide
  have l1 : (4 % 2 ^ 30 + 3) / 4 = 1 := by decide
  have lt : (if i = 0 then gpioSet else gpioClear) < 0x1000 := by split <;> decide
  simp only [Dma.execBlock, r0, r1, r2, r3, r4, r5]
  rw [b1, b6, h1, h2, h3, h5, l1]
  simp only [Bool.false_eq_true, if_false, Dma.xfer, b7, b11, or_self]
  rw [r6, Dma.busWrite_gpio b w _ lt]

/-- The data word of block `i` has the bit of pin `q`. -/
def DataBit (s : PwmSt) (i q : Nat) : Prop := (s.w.mem (8 * i + 6)).getLsbD q = true

theorem store_bits (s : PwmSt) (j : Nat) (v : Word) (i q : Nat) :
    DataBit (store s (32 * j + 24) v) i q ↔ if i = j then v.getLsbD q = true else DataBit s i q := by
  have h : (32 * j + 24) / 4 = 8 * j + 6 := by omega
  unfold DataBit store
  simp only [h]
  by_cases hij : i = j
  · subst hij; simp
  · have : ¬ (8 * i + 6 = 8 * j + 6) := by omega
    simp [hij, this]

theorem store_headers {b : Buf} {s : PwmSt} (h : Headers b s.w.mem) (j : Nat) (v : Word) :
    Headers b (store s (32 * j + 24) v).w.mem := by
  have hd : (32 * j + 24) / 4 = 8 * j + 6 := by omega
  have hm : ∀ k, k % 8 ≠ 6 → (store s (32 * j + 24) v).w.mem k = s.w.mem k := by
    intro k hk
    have : ¬ k = 8 * j + 6 := by omega
    simp only [store, hd, if_neg this]
  intro i hi
  rw [hm _ (by omega), hm _ (by omega), hm _ (by omega), hm _ (by omega), hm _ (by omega)]
  exact h i hi

theorem readInt_data (s : PwmSt) (j : Nat) : readInt s (32 * j + 24) = s.w.mem (8 * j + 6) := by
  have hd : (32 * j + 24) / 4 = 8 * j + 6 := by omega
  rw [readInt, hd]

/-! ### The dictionary -/

theorem lookup_delete (d : List (Nat × Nat)) (p q : Nat) :
    lookup (delete d p) q = if q = p then none else lookup d q := by
  induction d with
  | nil => simp [lookup, delete]
  | cons x d ih =>
    obtain ⟨a, v⟩ := x
    simp only [lookup, delete] at ih ⊢
    by_cases hap : a = p
    · subst hap
      simp only [List.filter_cons, bne_self_eq_false, Bool.false_eq_true, if_false]
      rw [ih]
      by_cases hq : q = a
      · simp [hq]
      · have : ¬ a = q := fun h => hq h.symm
        simp [hq, this, List.find?_cons]
    · have h1 : (a != p) = true := by simp [hap]
      simp only [List.filter_cons, h1, if_true, List.find?_cons]
      by_cases haq : a = q
      · subst haq; simp [hap]
      · have : (a == q) = false := by simp [haq]
        rw [this]
        exact ih

theorem lookup_insert (d : List (Nat × Nat)) (p a q : Nat) (hn : lookup d p = none) :
    lookup (insert d p a) q = if q = p then some a else lookup d q := by
  have hs : ¬ (lookup d p).isSome = true := by simp [hn]
  unfold insert
  rw [if_neg hs]
  clear hs
  induction d with
  | nil =>
    by_cases hq : q = p
    · simp [lookup, hq]
    · have : ¬ p = q := fun h => hq h.symm
      simp [lookup, hq, this]
  | cons x d ih =>
    obtain ⟨k, v⟩ := x
    by_cases hkp : k = p
    · exfalso
      rw [lookup, List.find?_cons] at hn
      simp [hkp] at hn
    · have hkp' : (k == p) = false := by simp [hkp]
      have hn' : lookup d p = none := by
        rw [lookup, List.find?_cons] at hn
        simp only [hkp'] at hn
        exact hn
      have ih := ih hn'
      simp only [lookup, List.cons_append, List.find?_cons] at ih ⊢
      by_cases hkq : k = q
      · subst hkq; simp [hkp]
      · have hkq' : (k == q) = false := by simp [hkq]
        rw [hkq']
        exact ih

theorem insert_ne_nil (d : List (Nat × Nat)) (p a : Nat) : insert d p a ≠ [] := by
  unfold insert
  split
  · rename_i h
    intro hm
    have : d = [] := List.map_eq_nil_iff.mp hm
    subst this
    simp [lookup] at h
  · simp

theorem lookup_nil (q : Nat) : lookup [] q = none := rfl

/-! ### The initial state -/

theorem addControlBlock_ok {b : Buf} {i off : Nat} {mem m' : Nat → Word}
    (h : addControlBlock b (i * cbSize) off mem = .ok m') :
    ((m' (8 * i)).toNat = pwmInfo ∧ (m' (8 * i + 1)).toNat = b.base + 32 * i + 24 ∧
      (m' (8 * i + 2)).toNat = gpioBus + off ∧ (m' (8 * i + 3)).toNat = 4 ∧
      (m' (8 * i + 5)).toNat = b.base + 32 * i + 32 ∧ (m' (8 * i + 6)).toNat = 0) ∧
    ∀ k, k < 8 * i ∨ 8 * i + 8 ≤ k → m' k = mem k := by
  have hc : cbSize = 32 := rfl
  have hd : (i * cbSize) / 4 = 8 * i := by rw [hc]; omega
  obtain ⟨-, h1, h2⟩ := packInto_ok h
  rw [hd] at h1 h2
  simp only [List.length_cons, List.length_nil, Nat.reduceAdd] at h1 h2
  have e0 := h1 0 (by omega)
  have e1 := h1 1 (by omega)
  have e2 := h1 2 (by omega)
  have e3 := h1 3 (by omega)
  have e5 := h1 5 (by omega)
  have e6 := h1 6 (by omega)
  simp only [List.getD_cons_zero, List.getD_cons_succ, Nat.add_zero] at e0 e1 e2 e3 e5 e6
  refine ⟨⟨e0, ?_, e2, e3, ?_, e6⟩, h2⟩
  · rw [e1]; simp only [cbSize, pwmData]; omega
  · rw [e5]; simp only [cbSize]; omega

/-- What `fill` and `__init__` write for the block `i`. -/
def Written (b : Buf) (m : Nat → Word) (i off : Nat) : Prop :=
  (m (8 * i)).toNat = pwmInfo ∧ (m (8 * i + 1)).toNat = b.base + 32 * i + 24 ∧
    (m (8 * i + 2)).toNat = gpioBus + off ∧ (m (8 * i + 3)).toNat = 4 ∧
    (m (8 * i + 5)).toNat = b.base + 32 * i + 32 ∧ (m (8 * i + 6)).toNat = 0

theorem Written.congr {b : Buf} {m m' : Nat → Word} {i off : Nat} (h : Written b m i off)
    (he : ∀ k, 8 * i ≤ k → k < 8 * i + 8 → m' k = m k) : Written b m' i off := by
  unfold Written at *
  rw [he _ (by omega) (by omega), he _ (by omega) (by omega), he _ (by omega) (by omega),
    he _ (by omega) (by omega), he _ (by omega) (by omega), he _ (by omega) (by omega)]
  exact h

theorem fill_ok {b : Buf} : ∀ (n i : Nat) (mem m' : Nat → Word), fill b n i mem = .ok m' →
    (∀ k, k < 8 * i → m' k = mem k) ∧ ∀ j, i ≤ j → j < i + n → Written b m' j gpioClear
  | 0, i, mem, m', h => by
    cases h
    exact ⟨fun _ _ => rfl, fun j h1 h2 => by omega⟩
  | n + 1, i, mem, m', h => by
    rw [fill] at h
    cases ha : addControlBlock b (i * cbSize) gpioClear mem with
    | error e => rw [ha] at h; cases h
    | ok m1 =>
      rw [ha] at h
      obtain ⟨h1, h2⟩ := addControlBlock_ok ha
      obtain ⟨h3, h4⟩ := fill_ok n (i + 1) m1 m' h
      refine ⟨fun k hk => (h3 k (by omega)).trans (h2 k (by omega)), fun j hj hj' => ?_⟩
      by_cases hji : j = i
      · subst hji
        exact Written.congr h1 fun k _ hk => h3 k (by omega)
      · exact h4 j (by omega) (by omega)

theorem init_ok {b : Buf} (hb : BufOk b) {w : World} {s : PwmSt} (h : init b w = .ok s) :
    Headers b s.w.mem ∧ (∀ i < 256, ∀ q, ¬ DataBit s i q) ∧ s.clear = [] ∧ s.active = false ∧
      s.w.gpio = w.gpio := by
  unfold init at h
  cases ha : addControlBlock b 0 gpioSet w.mem with
  | error e => rw [ha] at h; cases h
  | ok m1 =>
    rw [ha] at h
    cases hf : fill b (pwmBlocks - 1) 1 m1 with
    | error e =>
      simp only [bind, Except.bind, hf] at h
      cases h
    | ok m2 =>
      simp only [bind, Except.bind, hf, pure, Except.pure] at h
      injection h with h
      subst h
      have ha' : addControlBlock b (0 * cbSize) gpioSet w.mem = .ok m1 := by simpa using ha
      obtain ⟨h1, -⟩ := addControlBlock_ok ha'
      obtain ⟨h3, h4⟩ := fill_ok _ _ _ _ hf
      have w0 : Written b m2 0 gpioSet := Written.congr h1 fun k _ hk => h3 k (by omega)
      have wi : ∀ i < 256, Written b m2 i (if i = 0 then gpioSet else gpioClear) := by
        intro i hi
        by_cases h0 : i = 0
        · subst h0; exact w0
        · rw [if_neg h0]
          exact h4 i (by omega) (by simp only [pwmBlocks]; omega)
      have hd : ((pwmBlocks - 1) * cbSize + 20) / 4 = 2045 := by decide
      have hw : ∀ k, k ≠ 2045 →
          writeInt m2 ((pwmBlocks - 1) * cbSize + 20) b.base k = m2 k := by
        intro k hk
        simp only [writeInt, hd, if_neg hk]
      refine ⟨fun i hi => ?_, fun i hi q => ?_, rfl, rfl, rfl⟩
      · obtain ⟨k0, k1, k2, k3, k5, -⟩ := wi i hi
        simp only
        rw [hw _ (by omega), hw _ (by omega), hw _ (by omega), hw _ (by omega)]
        refine ⟨k0, k1, k2, k3, ?_⟩
        by_cases h5 : i = 255
        · subst h5
          have := hb.top
          simp only [writeInt, hd, if_true]
          rw [BitVec.toNat_ofNat, Nat.mod_eq_of_lt (by omega)]
        · rw [if_neg h5, hw _ (by omega)]
          exact k5
      · obtain ⟨-, -, -, -, -, k6⟩ := wi i hi
        unfold DataBit
        simp only
        rw [hw _ (by omega), Dma.word_eq k6]
        simp

/-! ### Steps do not touch other pins -/

/-- Everything about pin `q` is the same in both states. -/
def Same (s s' : PwmSt) (q : Nat) : Prop :=
  (∀ i < 256, DataBit s' i q ↔ DataBit s i q) ∧ lookup s'.clear q = lookup s.clear q ∧
    level s' q = level s q

/-- A dictionary address of a pin with `n` slots. -/
def regAddr (n : Nat) : Option Nat :=
  if n = 0 then none else if n = 256 then some 24 else some (32 * n + 24)

/-- The blocks whose data word has the bit of a pin with `n` slots. -/
def On (n i : Nat) : Prop := (i = 0 ∧ 0 < n ∧ n < 256) ∨ (0 < i ∧ i = n)

/-- The state of pin `q` agrees with what was asked for. -/
def PinOk (l : Nat → Bool) (s : PwmSt) (q : Nat) : Option Nat → Prop
  | none => (∀ i < 256, ¬ DataBit s i q) ∧ lookup s.clear q = none ∧ level s q = l q
  | some n => n ≤ 256 ∧ (∀ i < 256, DataBit s i q ↔ On n i) ∧ lookup s.clear q = regAddr n ∧
      (n = 256 → level s q = true) ∧ (n = 0 → level s q = false)

theorem PinOk.congr {l : Nat → Bool} {s s' : PwmSt} {q : Nat} {o : Option Nat}
    (h : PinOk l s q o) (hs : Same s s' q) : PinOk l s' q o := by
  obtain ⟨h1, h2, h3⟩ := hs
  cases o with
  | none =>
    obtain ⟨a, b, c⟩ := h
    exact ⟨fun i hi hb => a i hi ((h1 i hi).mp hb), h2.trans b, h3.trans c⟩
  | some n =>
    obtain ⟨a0, a, b, c, d⟩ := h
    exact ⟨a0, fun i hi => (h1 i hi).trans (a i hi), h2.trans b, fun hn => h3.trans (c hn),
      fun hn => h3.trans (d hn)⟩

theorem Same.refl (s : PwmSt) (q : Nat) : Same s s q := ⟨fun _ _ => Iff.rfl, rfl, rfl⟩

theorem and_not_bit (v : Word) (p q : Nat) (hp : p < 32) :
    (v &&& ~~~Gpio.bit p).getLsbD q = (v.getLsbD q && !decide (q = p)) := by
  by_cases hq : q < 32
  · rw [BitVec.getLsbD_and, BitVec.getLsbD_not, bit_get p q hp]
    simp [hq]
  · rw [BitVec.getLsbD_of_ge _ _ (by omega), BitVec.getLsbD_of_ge _ _ (by omega)]
    rfl

theorem or_bit (v : Word) (p q : Nat) (hp : p < 32) :
    (v ||| Gpio.bit p).getLsbD q = (v.getLsbD q || decide (q = p)) := by
  rw [BitVec.getLsbD_or, bit_get p q hp]

theorem same_store {s : PwmSt} {j q : Nat} {v : Word}
    (h : v.getLsbD q = (readInt s (32 * j + 24)).getLsbD q) :
    Same s (store s (32 * j + 24) v) q := by
  refine ⟨fun i _ => ?_, rfl, rfl⟩
  rw [store_bits]
  by_cases hi : i = j
  · subst hi
    rw [if_pos rfl, h, readInt_data]
    rfl
  · rw [if_neg hi]

theorem same_set {s : PwmSt} {p q : Nat} (hp : p < 32) (h : q ≠ p) :
    Same s (gpioWrite s gpioSet (Gpio.bit p)) q := by
  refine ⟨fun _ _ => Iff.rfl, rfl, ?_⟩
  simp only [level, gpioWrite, latch_set, bit_get p q hp]
  simp [h]

theorem same_clr {s : PwmSt} {p q : Nat} (hp : p < 32) (h : q ≠ p) :
    Same s (gpioWrite s gpioClear (Gpio.bit p)) q := by
  refine ⟨fun _ _ => Iff.rfl, rfl, ?_⟩
  simp only [level, gpioWrite, latch_clr, bit_get p q hp]
  simp [h]

theorem level_set (s : PwmSt) {p : Nat} (hp : p < 32) :
    level (gpioWrite s gpioSet (Gpio.bit p)) p = true := by
  simp only [level, gpioWrite, latch_set, bit_get p p hp]
  simp

theorem level_clr (s : PwmSt) {p : Nat} (hp : p < 32) :
    level (gpioWrite s gpioClear (Gpio.bit p)) p = false := by
  simp only [level, gpioWrite, latch_clr, bit_get p p hp]
  simp

/-! ### The engine -/

/-- One block: the effect on the level of a pin. -/
theorem engine_eq {b : Buf} (hs : 8192 ≤ b.size) {s : PwmSt} (hh : Headers b s.w.mem)
    (ha : s.active = true) {i : Nat} (hi : i < 256) (hp : s.pos = b.base + 32 * i) :
    (engine b s).w.mem = s.w.mem ∧ (engine b s).clear = s.clear ∧ (engine b s).active = true ∧
      (engine b s).pos = b.base + 32 * ((i + 1) % 256) ∧
      ∀ q, ((DataBit s i q → level (engine b s) q = decide (i = 0)) ∧
        (¬ DataBit s i q → level (engine b s) q = level s q)) := by
  have he : engine b s = { s with
      w := (Dma.execBlock b s.pos s.w).1, pos := (Dma.execBlock b s.pos s.w).2 } := by
    rw [engine, if_pos ha]
  rw [hp, exec_pwm hs hh hi] at he
  rw [he]
  refine ⟨rfl, rfl, ha, ?_, fun q => ?_⟩
  · simp only
    by_cases h : i = 255
    · subst h; simp
    · rw [if_neg h]; omega
  · simp only [level, DataBit]
    by_cases h0 : i = 0
    · subst h0
      simp only [if_true, latch_set, decide_true]
      exact ⟨fun h => by rw [if_pos h], fun h => by rw [if_neg h]⟩
    · simp only [if_neg h0, latch_clr, decide_eq_false h0]
      exact ⟨fun h => by rw [if_pos h], fun h => by rw [if_neg h]⟩

/-- What the engine may change. -/
def Quiet (s s' : PwmSt) : Prop :=
  s'.w.mem = s.w.mem ∧ s'.clear = s.clear ∧ s'.active = s.active ∧
    ∀ q, (∀ i < 256, ¬ DataBit s i q) → level s' q = level s q

theorem engine_quiet {b : Buf} (hs : 8192 ≤ b.size) {s : PwmSt} (hh : Headers b s.w.mem)
    (hp : s.active = true → ∃ i < 256, s.pos = b.base + 32 * i) : Quiet s (engine b s) := by
  by_cases ha : s.active = true
  · obtain ⟨i, hi, hp⟩ := hp ha
    obtain ⟨h1, h2, h3, -, h4⟩ := engine_eq hs hh ha hi hp
    exact ⟨h1, h2, h3.trans ha.symm, fun q hq => (h4 q).2 (hq i hi)⟩
  · have : engine b s = s := by rw [engine, if_neg ha]
    rw [this]
    exact ⟨rfl, rfl, rfl, fun _ _ => rfl⟩

theorem Quiet.bit {s s' : PwmSt} (h : Quiet s s') (i q : Nat) : DataBit s' i q ↔ DataBit s i q := by
  unfold DataBit; rw [h.1]

theorem Quiet.readInt {s s' : PwmSt} (h : Quiet s s') (a : Nat) : readInt s' a = readInt s a := by
  unfold Pwm.readInt; rw [h.1]

theorem not_on_0 (i : Nat) : ¬ On 0 i := by unfold On; omega

theorem not_on_256 {i : Nat} (hi : i < 256) : ¬ On 256 i := by unfold On; omega

theorem PinOk.quiet {l : Nat → Bool} {s s' : PwmSt} {q : Nat} {o : Option Nat}
    (h : PinOk l s q o) (hs : Quiet s s') : PinOk l s' q o := by
  cases o with
  | none =>
    obtain ⟨a, b, c⟩ := h
    exact ⟨fun i hi hb => a i hi ((hs.bit i q).mp hb), by rw [hs.2.1, b],
      (hs.2.2.2 q a).trans c⟩
  | some n =>
    obtain ⟨a0, a, b, c, d⟩ := h
    refine ⟨a0, fun i hi => (hs.bit i q).trans (a i hi), by rw [hs.2.1, b], fun hn => ?_,
      fun hn => ?_⟩
    · subst hn
      exact (hs.2.2.2 q fun i hi hb => not_on_256 hi ((a i hi).mp hb)).trans (c rfl)
    · subst hn
      exact (hs.2.2.2 q fun i hi hb => not_on_0 i ((a i hi).mp hb)).trans (d rfl)

/-! ### Calls -/

/-- What a call leaves: `o` before, `a` the block number of `add_pin`. -/
def target (o a : Option Nat) : Option Nat :=
  match a with
  | none => o.map fun _ => 0
  | some n => some n

/-- No trace of the pin in the blocks and in the dictionary. -/
def Clean (s : PwmSt) (p : Nat) : Prop := (∀ i < 256, ¬ DataBit s i p) ∧ lookup s.clear p = none

/-- What is known about the pin of the call in progress. -/
def PcInv (l : Nat → Bool) (s : PwmSt) (p : Nat) (o a : Option Nat) : Pc → Prop
  | .idle => False
  | .remStart p' a' => p' = p ∧ a' = a ∧ PinOk l s p o
  | .remRead1 p' a' addr => p' = p ∧ a' = a ∧ ∃ n, o = some n ∧ PinOk l s p o ∧
      regAddr n = some addr
  | .remWrite1 p' a' addr v => p' = p ∧ a' = a ∧ (∃ n, o = some n ∧ PinOk l s p o ∧
      regAddr n = some addr) ∧ v = readInt s addr
  | .remRead2 p' a' => p' = p ∧ a' = a ∧ o ≠ none ∧ (∀ i < 256, 0 < i → ¬ DataBit s i p)
  | .remWrite2 p' a' v => p' = p ∧ a' = a ∧ o ≠ none ∧ (∀ i < 256, 0 < i → ¬ DataBit s i p) ∧
      v = readInt s pwmData
  | .remDel p' a' => p' = p ∧ a' = a ∧ o ≠ none ∧ (∀ i < 256, ¬ DataBit s i p)
  | .remClr p' a' => p' = p ∧ a' = a ∧ o ≠ none ∧ Clean s p
  | .remCheck p' a' => p' = p ∧ a' = a ∧ PinOk l s p (o.map fun _ => 0)
  | .remStop p' a' => p' = p ∧ a' = a ∧ PinOk l s p (o.map fun _ => 0) ∧ s.clear = []
  | .addGpio p' n => p' = p ∧ a = some n ∧ (n = 0 ∨ n = 256) ∧ Clean s p
  | .addFull p' => p' = p ∧ a = some 256 ∧ Clean s p ∧ level s p = true
  | .addRead1 p' n => p' = p ∧ a = some n ∧ (0 < n ∧ n < 256) ∧ Clean s p
  | .addWrite1 p' n v => p' = p ∧ a = some n ∧ (0 < n ∧ n < 256) ∧ Clean s p ∧
      v = readInt s pwmData
  | .addRead2 p' n => p' = p ∧ a = some n ∧ (0 < n ∧ n < 256) ∧ lookup s.clear p = none ∧
      ∀ i < 256, DataBit s i p ↔ i = 0
  | .addWrite2 p' n v => p' = p ∧ a = some n ∧ (0 < n ∧ n < 256) ∧ lookup s.clear p = none ∧
      (∀ i < 256, DataBit s i p ↔ i = 0) ∧ v = readInt s (n * cbSize + pwmData)
  | .addReg p' n => p' = p ∧ a = some n ∧ (0 < n ∧ n < 256) ∧ lookup s.clear p = none ∧
      ∀ i < 256, DataBit s i p ↔ On n i
  | .addCheck p' => p' = p ∧ ∃ n, a = some n ∧ (0 < n ∧ n < 256) ∧ PinOk l s p (some n) ∧
      s.clear ≠ []
  | .addRun p' => p' = p ∧ ∃ n, a = some n ∧ (0 < n ∧ n < 256) ∧ PinOk l s p (some n) ∧
      s.clear ≠ []

theorem PcInv.quiet {l : Nat → Bool} {s s' : PwmSt} {p : Nat} {o a : Option Nat} {pc : Pc}
    (h : PcInv l s p o a pc) (hs : Quiet s s') : PcInv l s' p o a pc := by
  have hcl : Clean s p → Clean s' p := fun h =>
    ⟨fun i hi hb => h.1 i hi ((hs.bit i p).mp hb), by rw [hs.2.1]; exact h.2⟩
  have hbit : ∀ i q, DataBit s' i q = DataBit s i q := fun i q => propext (hs.bit i q)
  cases pc with
  | idle => exact h
  | remStart => exact ⟨h.1, h.2.1, h.2.2.quiet hs⟩
  | remRead1 =>
    obtain ⟨h1, h2, n, h3, h4, h5⟩ := h
    exact ⟨h1, h2, n, h3, h4.quiet hs, h5⟩
  | remWrite1 =>
    obtain ⟨h1, h2, ⟨n, h3, h4, h5⟩, h6⟩ := h
    exact ⟨h1, h2, ⟨n, h3, h4.quiet hs, h5⟩, by rw [hs.readInt, h6]⟩
  | remRead2 => simpa only [PcInv, hbit] using h
  | remWrite2 => simpa only [PcInv, hbit, hs.readInt] using h
  | remDel => simpa only [PcInv, hbit] using h
  | remClr => exact ⟨h.1, h.2.1, h.2.2.1, hcl h.2.2.2⟩
  | remCheck => exact ⟨h.1, h.2.1, h.2.2.quiet hs⟩
  | remStop => exact ⟨h.1, h.2.1, h.2.2.1.quiet hs, by rw [hs.2.1]; exact h.2.2.2⟩
  | addGpio => exact ⟨h.1, h.2.1, h.2.2.1, hcl h.2.2.2⟩
  | addFull =>
    exact ⟨h.1, h.2.1, hcl h.2.2.1, (hs.2.2.2 p h.2.2.1.1).trans h.2.2.2⟩
  | addRead1 => exact ⟨h.1, h.2.1, h.2.2.1, hcl h.2.2.2⟩
  | addWrite1 =>
    exact ⟨h.1, h.2.1, h.2.2.1, hcl h.2.2.2.1, by rw [hs.readInt]; exact h.2.2.2.2⟩
  | addRead2 => simpa only [PcInv, hbit, hs.2.1] using h
  | addWrite2 => simpa only [PcInv, hbit, hs.2.1, hs.readInt] using h
  | addReg => simpa only [PcInv, hbit, hs.2.1] using h
  | addCheck =>
    obtain ⟨h1, n, h2, h3, h4, h5⟩ := h
    exact ⟨h1, n, h2, h3, h4.quiet hs, by rw [hs.2.1]; exact h5⟩
  | addRun =>
    obtain ⟨h1, n, h2, h3, h4, h5⟩ := h
    exact ⟨h1, n, h2, h3, h4.quiet hs, by rw [hs.2.1]; exact h5⟩

theorem regAddr_some {n addr : Nat} (hn : n ≤ 256) (h : regAddr n = some addr) :
    ∃ j < 256, addr = 32 * j + 24 ∧ (j = n ∨ n = 256 ∧ j = 0) := by
  unfold regAddr at h
  split at h
  · cases h
  · split at h
    · injection h with h; exact ⟨0, by omega, by omega, by omega⟩
    · injection h with h; exact ⟨n, by omega, by omega, by omega⟩

/-- What one step of the call does. -/
structure StepOk (b : Buf) (l : Nat → Bool) (s : PwmSt) (p : Nat) (o a : Option Nat)
    (r : PwmSt × Pc) : Prop where
  others : ∀ q, q ≠ p → Same s r.1 q
  headers : Headers b s.w.mem → Headers b r.1.w.mem
  done : r.2 = .idle → PinOk l r.1 p (target o a)
  next : r.2 ≠ .idle → PcInv l r.1 p o a r.2

theorem after_ok {b : Buf} {l : Nat → Bool} {s s' : PwmSt} {p : Nat} {o a : Option Nat}
    (ha : ∀ n, a = some n → n ≤ 256) (hp : PinOk l s p (o.map fun _ => 0))
    (hw : s'.w = s.w) (hc : s'.clear = s.clear) :
    StepOk b l s p o a (s', afterRemove p a) := by
  have hs : ∀ q, Same s s' q := fun q =>
    ⟨fun i _ => by unfold DataBit; rw [hw], by rw [hc], by unfold level; rw [hw]⟩
  have hp' : PinOk l s' p (o.map fun _ => 0) := hp.congr (hs p)
  have hcl : Clean s' p := by
    cases o with
    | none => exact ⟨hp'.1, hp'.2.1⟩
    | some n => exact ⟨fun i hi hb => not_on_0 i ((hp'.2.1 i hi).mp hb), hp'.2.2.1⟩
  refine ⟨fun q _ => hs q, fun h => by simp only; rw [hw]; exact h, ?_, ?_⟩
  · intro h
    cases a with
    | none => exact hp'
    | some n =>
      simp only [afterRemove] at h
      split at h <;> cases h
  · intro h
    cases a with
    | none => exact absurd rfl h
    | some n =>
      have := ha n rfl
      simp only [afterRemove]
      split
      · rename_i hn
        exact ⟨rfl, rfl, hn, hcl⟩
      · rename_i hn
        exact ⟨rfl, rfl, by simp only [pwmBlocks] at hn; omega, hcl⟩

theorem step_ok {b : Buf} {l : Nat → Bool} {s : PwmSt} {p : Nat} {o a : Option Nat} {pc : Pc}
    (hp : p < 32) (ha : ∀ n, a = some n → n ≤ 256) (h : PcInv l s p o a pc) :
    StepOk b l s p o a (step b pc s) := by
  cases pc with
  | idle => exact h.elim
  | remStart p' a' =>
    obtain ⟨rfl, rfl, h⟩ := h
    cases hl : lookup s.clear p' with
    | none =>
      simp only [step, hl]
      refine ⟨fun q _ => Same.refl s q, id, fun h => (by cases h), fun _ => ⟨rfl, rfl, ?_⟩⟩
      cases o with
      | none => exact h
      | some n =>
        have hn : n = 0 := by
          have := h.2.2.1
          rw [hl] at this
          unfold regAddr at this
          split at this
          · assumption
          · split at this <;> cases this
        subst hn
        exact h
    | some addr =>
      simp only [step, hl]
      refine ⟨fun q _ => Same.refl s q, id, fun h => (by cases h), fun _ => ⟨rfl, rfl, ?_⟩⟩
      cases o with
      | none => have := h.2.1; rw [hl] at this; cases this
      | some n => exact ⟨n, rfl, h, by rw [← h.2.2.1, hl]⟩
  | remRead1 p' a' addr =>
    obtain ⟨rfl, rfl, h⟩ := h
    exact ⟨fun q _ => Same.refl s q, id, fun h => (by cases h), fun _ => ⟨rfl, rfl, h, rfl⟩⟩
  | remWrite1 p' a' addr v =>
    obtain ⟨rfl, rfl, ⟨n, rfl, h, hr⟩, rfl⟩ := h
    obtain ⟨j, hj, rfl, hjn⟩ := regAddr_some h.1 hr
    refine ⟨fun q hq => ?_, fun hh => store_headers hh _ _, fun h => (by cases h),
      fun _ => ⟨rfl, rfl, by simp, fun i hi h0 hb => ?_⟩⟩
    · exact same_store (by rw [and_not_bit _ _ _ hp]; simp [hq])
    · simp only [step] at hb
      rw [store_bits] at hb
      by_cases hij : i = j
      · rw [if_pos hij, and_not_bit _ _ _ hp] at hb
        simp at hb
      · rw [if_neg hij, h.2.1 i hi] at hb
        unfold On at hb
        omega
  | remRead2 p' a' =>
    obtain ⟨rfl, rfl, h1, h2⟩ := h
    exact ⟨fun q _ => Same.refl s q, id, fun h => (by cases h), fun _ => ⟨rfl, rfl, h1, h2, rfl⟩⟩
  | remWrite2 p' a' v =>
    obtain ⟨rfl, rfl, h1, h2, rfl⟩ := h
    change StepOk b l s p' o a' (store s (32 * 0 + 24)
      (readInt s (32 * 0 + 24) &&& ~~~Gpio.bit p'), .remDel p' a')
    refine ⟨fun q hq => ?_, fun hh => store_headers hh _ _, fun h => (by cases h),
      fun _ => ⟨rfl, rfl, h1, fun i hi hb => ?_⟩⟩
    · exact same_store (by rw [and_not_bit _ _ _ hp]; simp [hq])
    · rw [store_bits] at hb
      by_cases hij : i = 0
      · rw [if_pos hij, and_not_bit _ _ _ hp] at hb
        simp at hb
      · rw [if_neg hij] at hb
        exact h2 i hi (by omega) hb
  | remDel p' a' =>
    obtain ⟨rfl, rfl, h1, h2⟩ := h
    refine ⟨fun q hq => ⟨fun _ _ => Iff.rfl, ?_, rfl⟩, id, fun h => (by cases h),
      fun _ => ⟨rfl, rfl, h1, h2, ?_⟩⟩
    · simp only [step, lookup_delete, if_neg hq]
    · simp only [step, lookup_delete, if_true]
  | remClr p' a' =>
    obtain ⟨rfl, rfl, h1, h2, h3⟩ := h
    refine ⟨fun q hq => same_clr hp hq, id, fun h => (by cases h), fun _ => ⟨rfl, rfl, ?_⟩⟩
    cases o with
    | none => exact absurd rfl h1
    | some n =>
      exact ⟨Nat.zero_le _, fun i hi => ⟨fun hb => (h2 i hi hb).elim,
        fun hb => (not_on_0 i hb).elim⟩, h3, fun h => (by cases h), fun _ => level_clr s hp⟩
  | remCheck p' a' =>
    obtain ⟨rfl, rfl, h⟩ := h
    simp only [step]
    split
    · rename_i hc
      simp only [Bool.and_eq_true, List.isEmpty_iff] at hc
      exact ⟨fun q _ => Same.refl s q, id, fun h => (by cases h), fun _ => ⟨rfl, rfl, h, hc.1⟩⟩
    · exact after_ok ha h rfl rfl
  | remStop p' a' =>
    obtain ⟨rfl, rfl, h, -⟩ := h
    exact after_ok ha h rfl rfl
  | addGpio p' n =>
    obtain ⟨rfl, rfl, h1, h2, h3⟩ := h
    simp only [step]
    by_cases hn : n = 0
    · subst hn
      rw [if_pos rfl]
      exact ⟨fun q hq => same_clr hp hq, id, fun _ => ⟨by omega,
        fun i hi => ⟨fun hb => (h2 i hi hb).elim, fun hb => (not_on_0 i hb).elim⟩, h3,
        fun h => (by omega), fun _ => level_clr s hp⟩, fun h => absurd rfl h⟩
    · have hn' : n = 256 := by omega
      subst hn'
      rw [if_neg hn]
      exact ⟨fun q hq => same_set hp hq, id, fun h => (by cases h),
        fun _ => ⟨rfl, rfl, ⟨h2, h3⟩, level_set s hp⟩⟩
  | addFull p' =>
    obtain ⟨rfl, rfl, ⟨h2, h3⟩, h4⟩ := h
    refine ⟨fun q hq => ⟨fun _ _ => Iff.rfl, ?_, rfl⟩, id, fun _ => ⟨le_refl 256,
      fun i hi => ⟨fun hb => (h2 i hi hb).elim, fun hb => (not_on_256 hi hb).elim⟩, ?_,
      fun _ => h4, fun h => (by omega)⟩, fun h => absurd rfl h⟩
    · simp only [step, lookup_insert _ _ _ _ h3, if_neg hq]
    · simp only [step, lookup_insert _ _ _ _ h3, if_true]
      rfl
  | addRead1 p' n =>
    obtain ⟨rfl, rfl, h1, h2⟩ := h
    exact ⟨fun q _ => Same.refl s q, id, fun h => (by cases h), fun _ => ⟨rfl, rfl, h1, h2, rfl⟩⟩
  | addWrite1 p' n v =>
    obtain ⟨rfl, rfl, h1, ⟨h2, h3⟩, rfl⟩ := h
    change StepOk b l s p' o (some n) (store s (32 * 0 + 24)
      (readInt s (32 * 0 + 24) ||| Gpio.bit p'), .addRead2 p' n)
    refine ⟨fun q hq => ?_, fun hh => store_headers hh _ _, fun h => (by cases h),
      fun _ => ⟨rfl, rfl, h1, h3, fun i hi => ?_⟩⟩
    · exact same_store (by rw [or_bit _ _ _ hp]; simp [hq])
    · rw [store_bits]
      by_cases hij : i = 0
      · rw [if_pos hij, or_bit _ _ _ hp]
        simp [hij]
      · rw [if_neg hij]
        exact ⟨fun hb => (h2 i hi hb).elim, fun h => absurd h hij⟩
  | addRead2 p' n =>
    obtain ⟨rfl, rfl, h1, h2, h3⟩ := h
    exact ⟨fun q _ => Same.refl s q, id, fun h => (by cases h),
      fun _ => ⟨rfl, rfl, h1, h2, h3, rfl⟩⟩
  | addWrite2 p' n v =>
    obtain ⟨rfl, rfl, h1, h2, h3, rfl⟩ := h
    have en : n * cbSize + pwmData = 32 * n + 24 := by simp only [cbSize, pwmData]; omega
    simp only [step, en]
    refine ⟨fun q hq => ?_, fun hh => store_headers hh _ _, fun h => (by cases h),
      fun _ => ⟨rfl, rfl, h1, h2, fun i hi => ?_⟩⟩
    · exact same_store (by rw [or_bit _ _ _ hp]; simp [hq])
    · rw [store_bits]
      by_cases hij : i = n
      · rw [if_pos hij, or_bit _ _ _ hp]
        simp [On, hij]
        omega
      · rw [if_neg hij, h3 i hi]
        unfold On
        omega
  | addReg p' n =>
    obtain ⟨rfl, rfl, h1, h2, h3⟩ := h
    have en : n * cbSize + pwmData = 32 * n + 24 := by simp only [cbSize, pwmData]; omega
    simp only [step, en]
    refine ⟨fun q hq => ⟨fun _ _ => Iff.rfl, ?_, rfl⟩, id, fun h => (by cases h), fun _ => ⟨rfl, n,
      rfl, h1, ⟨by omega, h3, ?_, fun h => (by omega), fun h => (by omega)⟩, insert_ne_nil _ _ _⟩⟩
    · simp only [lookup_insert _ _ _ _ h2, if_neg hq]
    · simp only [lookup_insert _ _ _ _ h2, if_true]
      rw [regAddr, if_neg (by omega), if_neg (by omega)]
  | addCheck p' =>
    obtain ⟨rfl, n, rfl, h1, h2, h3⟩ := h
    simp only [step]
    split
    · exact ⟨fun q _ => Same.refl s q, id, fun _ => h2, fun h => absurd rfl h⟩
    · exact ⟨fun q _ => Same.refl s q, id, fun h => (by cases h), fun _ => ⟨rfl, n, rfl, h1, h2, h3⟩⟩
  | addRun p' =>
    obtain ⟨rfl, n, rfl, h1, h2, h3⟩ := h
    exact ⟨fun q _ => ⟨fun _ _ => Iff.rfl, rfl, rfl⟩, id, fun _ => h2, fun h => absurd rfl h⟩

/-! ### The whole object -/

/-- The states of a call in which the dictionary may be empty although the engine runs. -/
def stopping : Pc → Bool
  | .remClr .. => true
  | .remCheck .. => true
  | .remStop .. => true
  | _ => false

theorem afterRemove_not_stopping (p : Nat) (a : Option Nat) :
    stopping (afterRemove p a) = false := by
  unfold afterRemove
  split
  · rfl
  · split <;> rfl

theorem step_active {b : Buf} {l : Nat → Bool} {s : PwmSt} {p : Nat} {o a : Option Nat} {pc : Pc}
    (h : PcInv l s p o a pc) :
    ((step b pc s).1.active = s.active ∧ (step b pc s).1.pos = s.pos) ∨
    ((step b pc s).1.active = false ∧ s.clear = [] ∧ (step b pc s).1.clear = []) ∨
    ((step b pc s).1.active = true ∧ (step b pc s).1.pos = b.base) := by
  cases pc with
  | remStart p' a' =>
    simp only [step]
    split <;> exact Or.inl ⟨rfl, rfl⟩
  | remCheck p' a' =>
    simp only [step]
    split <;> exact Or.inl ⟨rfl, rfl⟩
  | addGpio p' n =>
    simp only [step]
    split <;> exact Or.inl ⟨rfl, rfl⟩
  | addCheck p' =>
    simp only [step]
    split <;> exact Or.inl ⟨rfl, rfl⟩
  | remStop p' a' => exact Or.inr (Or.inl ⟨rfl, h.2.2.2, h.2.2.2⟩)
  | addRun p' => exact Or.inr (Or.inr ⟨rfl, rfl⟩)
  | _ => exact Or.inl ⟨rfl, rfl⟩

theorem step_stopped {b : Buf} {l : Nat → Bool} {s : PwmSt} {p : Nat} {o a : Option Nat} {pc : Pc}
    (h : PcInv l s p o a pc) (h2 : stopping pc = false → s.clear = [] → s.active = false)
    (hn : stopping (step b pc s).2 = false) (hc : (step b pc s).1.clear = []) :
    (step b pc s).1.active = false := by
  cases pc with
  | idle => exact h.elim
  | remStart p' a' =>
    revert hn hc
    simp only [step]
    split
    · exact fun _ hc => h2 rfl hc
    · exact fun hn _ => (by cases hn)
  | remRead1 => exact h2 rfl hc
  | remWrite1 => exact h2 rfl hc
  | remRead2 => exact h2 rfl hc
  | remWrite2 => exact h2 rfl hc
  | remDel => cases hn
  | remClr => cases hn
  | remCheck p' a' =>
    revert hn hc
    simp only [step]
    split
    · exact fun hn _ => (by cases hn)
    · rename_i hne
      intro _ hc
      simp only at hc
      rw [hc] at hne
      simpa using hne
  | remStop => rfl
  | addGpio p' n =>
    revert hn hc
    simp only [step]
    split
    · exact fun _ hc => h2 rfl hc
    · exact fun _ hc => h2 rfl hc
  | addFull => exact absurd hc (insert_ne_nil _ _ _)
  | addRead1 => exact h2 rfl hc
  | addWrite1 => exact h2 rfl hc
  | addRead2 => exact h2 rfl hc
  | addWrite2 => exact h2 rfl hc
  | addReg => exact absurd hc (insert_ne_nil _ _ _)
  | addCheck p' =>
    obtain ⟨-, n, -, -, -, h3⟩ := h
    revert hn hc
    simp only [step]
    split
    · exact fun _ hc => absurd hc h3
    · exact fun _ hc => absurd hc h3
  | addRun p' =>
    obtain ⟨-, n, -, -, -, h3⟩ := h
    exact absurd hc h3

theorem afterRemove_idle {p : Nat} {a : Option Nat} (h : afterRemove p a = .idle) : a = none := by
  unfold afterRemove at h
  split at h
  · rfl
  · split at h <;> cases h

theorem target_none {o : Option Nat} {n : Nat} (h : target o none = some n) : n = 0 := by
  cases o with
  | none => cases h
  | some m => injection h with h; exact h.symm

theorem step_running {b : Buf} {l : Nat → Bool} {s : PwmSt} {p : Nat} {o a : Option Nat} {pc : Pc}
    (h : PcInv l s p o a pc) (hn : (step b pc s).2 = .idle) {n : Nat}
    (ht : target o a = some n) (h0 : 0 < n) (h1 : n < 256) : (step b pc s).1.active = true := by
  cases pc with
  | idle => exact h.elim
  | remStart p' a' =>
    revert hn
    simp only [step]
    split <;> exact fun h => (by cases h)
  | remRead1 => cases hn
  | remWrite1 => cases hn
  | remRead2 => cases hn
  | remWrite2 => cases hn
  | remDel => cases hn
  | remClr => cases hn
  | remCheck p' a' =>
    obtain ⟨rfl, rfl, -⟩ := h
    revert hn
    simp only [step]
    split
    · exact fun h => (by cases h)
    · intro h
      simp only at h
      have ha := afterRemove_idle h
      subst ha
      have := target_none ht
      omega
  | remStop p' a' =>
    obtain ⟨rfl, rfl, -⟩ := h
    simp only [step] at hn
    have ha := afterRemove_idle hn
    subst ha
    have := target_none ht
    omega
  | addGpio p' m =>
    obtain ⟨rfl, rfl, -⟩ := h
    injection ht with ht
    revert hn
    simp only [step]
    split
    · intro _; omega
    · exact fun h => (by cases h)
  | addFull =>
    obtain ⟨rfl, rfl, -⟩ := h
    injection ht with ht
    omega
  | addRead1 => cases hn
  | addWrite1 => cases hn
  | addRead2 => cases hn
  | addWrite2 => cases hn
  | addReg => cases hn
  | addCheck p' =>
    revert hn
    simp only [step]
    split
    · rename_i h; exact fun _ => h
    · exact fun h => (by cases h)
  | addRun p' => rfl

/-- The slots of a call, as the code computes them. -/
noncomputable def argOf : PwmCall → Option Nat
  | .add _ d => some (⌊d * 256 / 100⌋).toNat
  | .remove _ => none

/-- The slots asked for, as natural numbers. -/
noncomputable def want (h : List PwmCall) (q : Nat) : Option Nat := (slots h q).map Int.toNat

theorem want_other {k : PwmCall} {h : List PwmCall} {q : Nat} (hq : k.pin ≠ q) :
    want (k :: h) q = want h q := by
  cases k with
  | add p d =>
    have hq : p ≠ q := hq
    simp only [want, slots, if_neg hq]
  | remove p =>
    have hq : p ≠ q := hq
    simp only [want, slots, if_neg hq]

theorem want_same {k : PwmCall} {h : List PwmCall} {q : Nat} (hq : k.pin = q) :
    want (k :: h) q = target (want h q) (argOf k) := by
  cases k with
  | add p d =>
    have hq : p = q := hq
    simp only [want, slots, if_pos hq]
    rfl
  | remove p =>
    have hq : p = q := hq
    simp only [want, slots, if_pos hq, argOf, target, Option.map_map]
    rfl

variable [PyRound]

theorem blockNumber_eq {d : ℝ} (h : 0 ≤ d) : blockNumber d = ⌊d * 256 / 100⌋ := by
  have h1 : (0 : ℝ) ≤ d * 256 / 100 := by positivity
  have e1 : ((256 : ℚ) : ℝ) = 256 := by norm_num
  have e2 : ((100 : ℚ) : ℝ) = 100 := by norm_num
  simp only [blockNumber, truncI_eq, div_eq, mul_eq, ofRat_eq, e1, e2]
  rw [if_pos h1]

theorem start_ok {k : PwmCall} {pc : Pc} (h : startCall k = .ok pc) :
    ∃ p : Nat, k.pin = p ∧ p < 32 ∧ (∀ n, argOf k = some n → n ≤ 256) ∧
      pc = .remStart p (argOf k) := by
  cases k with
  | remove p =>
    simp only [startCall, startRemove] at h
    split at h
    · rename_i hp
      injection h with h
      exact ⟨p.toNat, by simp only [PwmCall.pin]; omega, by omega, fun n hn => (by cases hn), h.symm⟩
    · cases h
  | add p d =>
    simp only [startCall, startAdd] at h
    split at h
    · rename_i hd
      split at h
      · rename_i hp
        injection h with h
        simp only [Bool.and_eq_true] at hd
        have hd0 : 0 ≤ d := by simpa using hd.1
        have hd1 : d ≤ 100 := by simpa using hd.2
        refine ⟨p.toNat, by simp only [PwmCall.pin]; omega, by omega, fun n hn => ?_, ?_⟩
        · simp only [argOf, Option.some.injEq] at hn
          have : ⌊d * 256 / 100⌋ ≤ 256 := by
            have : (⌊d * 256 / 100⌋ : ℝ) ≤ d * 256 / 100 := Int.floor_le _
            have : (⌊d * 256 / 100⌋ : ℝ) ≤ 256 := by linarith
            exact_mod_cast this
          omega
        · rw [← h, blockNumber_eq hd0]
          rfl
      · cases h
    · cases h

/-- The invariant. -/
structure Inv (b : Buf) (l : Nat → Bool) (h : List PwmCall) (c : Option PwmCall) (s : PwmSt)
    (pc : Pc) : Prop where
  headers : Headers b s.w.mem
  others : ∀ q : Nat, (∀ k, c = some k → k.pin ≠ q) → PinOk l s q (want h q)
  none : c = none → pc = .idle
  cur : ∀ k, c = some k → ∃ p : Nat, k.pin = p ∧ p < 32 ∧ (∀ n, argOf k = some n → n ≤ 256) ∧
    PcInv l s p (want h p) (argOf k) pc
  run : ∀ q : Nat, (∀ k, c = some k → k.pin ≠ q) → ∀ n, want h q = some n → 0 < n → n < 256 →
    s.active = true
  stop : stopping pc = false → s.clear = [] → s.active = false
  posn : s.active = true → ∃ i < 256, s.pos = b.base + 32 * i

theorem inv_init {b : Buf} (hb : BufOk b) {w : World} {s₀ : PwmSt} (h0 : init b w = .ok s₀) :
    Inv b w.gpio.latch [] none s₀ .idle := by
  obtain ⟨h1, h2, h3, h4, h5⟩ := init_ok hb h0
  exact ⟨h1, fun q _ => ⟨fun i hi => h2 i hi q, by rw [h3]; rfl, by rw [level, h5]⟩,
    fun _ => rfl, fun k hk => (by cases hk), fun q _ n hn => (by cases hn), fun _ _ => h4,
    fun ha => (by rw [h4] at ha; cases ha)⟩

theorem inv_start {b : Buf} {l : Nat → Bool} {h : List PwmCall} {s : PwmSt} {c : PwmCall} {pc : Pc}
    (ih : Inv b l h none s .idle) (hc : startCall c = .ok pc) : Inv b l h (some c) s pc := by
  obtain ⟨p, hp, hp32, hn, rfl⟩ := start_ok hc
  refine ⟨ih.headers, fun q _ => ih.others q (fun k hk => (by cases hk)),
    fun h => (by cases h), ?_, fun q _ => ih.run q (fun k hk => (by cases hk)),
    fun _ => ih.stop rfl, ih.posn⟩
  intro k hk
  cases hk
  exact ⟨p, hp, hp32, hn, rfl, rfl, ih.others p (fun k hk => (by cases hk))⟩

omit [PyRound] in
theorem inv_step {b : Buf} {l : Nat → Bool} {h : List PwmCall} {s : PwmSt} {c : PwmCall} {pc : Pc}
    (ih : Inv b l h (some c) s pc) (hne : (Pwm.step b pc s).2 ≠ .idle) :
    Inv b l h (some c) (Pwm.step b pc s).1 (Pwm.step b pc s).2 := by
  obtain ⟨p, hp, hp32, hn, hi⟩ := ih.cur c rfl
  have st : StepOk b l s p (want h p) (argOf c) (Pwm.step b pc s) := step_ok hp32 hn hi
  have hq : ∀ q : Nat, (∀ k, some c = some k → k.pin ≠ q) → q ≠ p := by
    intro q hq hqp
    exact hq c rfl (by rw [hp, hqp])
  refine ⟨st.headers ih.headers, fun q h' => (ih.others q h').congr (st.others q (hq q h')),
    fun h => (by cases h), ?_, ?_, fun hstop hc => ?_, ?_⟩
  · intro k hk
    cases hk
    exact ⟨p, hp, hp32, hn, st.next hne⟩
  · intro q h' n hn h0 h1
    have ha := ih.run q h' n hn h0 h1
    rcases step_active (b := b) hi with h | h | h
    · rw [h.1]; exact ha
    · exfalso
      have hpo := ih.others q h'
      rw [hn] at hpo
      have := hpo.2.2.1
      rw [h.2.1, lookup_nil, regAddr, if_neg (by omega), if_neg (by omega)] at this
      cases this
    · exact h.1
  · exact step_stopped hi ih.stop hstop hc
  · intro ha
    rcases step_active (b := b) hi with h | h | h
    · rw [h.1] at ha; rw [h.2]; exact ih.posn ha
    · rw [h.1] at ha; cases ha
    · exact ⟨0, by omega, by rw [h.2]; rfl⟩

omit [PyRound] in
theorem inv_finish {b : Buf} {l : Nat → Bool} {h : List PwmCall} {s : PwmSt} {c : PwmCall} {pc : Pc}
    (ih : Inv b l h (some c) s pc) (hne : (Pwm.step b pc s).2 = .idle) :
    Inv b l (c :: h) none (Pwm.step b pc s).1 .idle := by
  obtain ⟨p, hp, hp32, hn, hi⟩ := ih.cur c rfl
  have st : StepOk b l s p (want h p) (argOf c) (Pwm.step b pc s) := step_ok hp32 hn hi
  have hq : ∀ q : Nat, q ≠ p → ∀ k, some c = some k → k.pin ≠ q := by
    intro q hqp k hk h'
    cases hk
    rw [hp] at h'
    omega
  refine ⟨st.headers ih.headers, fun q _ => ?_, fun _ => rfl, fun k hk => (by cases hk), ?_,
    fun _ hc => ?_, ?_⟩
  · by_cases hqp : q = p
    · subst hqp
      rw [want_same hp]
      exact st.done hne
    · have h' := hq q hqp
      rw [want_other (h' c rfl)]
      exact (ih.others q h').congr (st.others q hqp)
  · intro q _ n hn h0 h1
    by_cases hqp : q = p
    · subst hqp
      rw [want_same hp] at hn
      exact step_running hi hne hn h0 h1
    · have h' := hq q hqp
      rw [want_other (h' c rfl)] at hn
      have ha := ih.run q h' n hn h0 h1
      rcases step_active (b := b) hi with h | h | h
      · rw [h.1]; exact ha
      · exfalso
        have hpo := ih.others q h'
        rw [hn] at hpo
        have := hpo.2.2.1
        rw [h.2.1, lookup_nil, regAddr, if_neg (by omega), if_neg (by omega)] at this
        cases this
      · exact h.1
  · exact step_stopped hi ih.stop (by rw [hne]; rfl) hc
  · intro ha
    rcases step_active (b := b) hi with h | h | h
    · rw [h.1] at ha; rw [h.2]; exact ih.posn ha
    · rw [h.1] at ha; cases ha
    · exact ⟨0, by omega, by rw [h.2]; rfl⟩

omit [PyRound] in
theorem inv_engine {b : Buf} (hs : 8192 ≤ b.size) {l : Nat → Bool} {h : List PwmCall}
    {c : Option PwmCall} {s : PwmSt} {pc : Pc} (ih : Inv b l h c s pc) :
    Inv b l h c (Pwm.engine b s) pc := by
  have hq := engine_quiet hs ih.headers ih.posn
  refine ⟨by rw [hq.1]; exact ih.headers, fun q h' => (ih.others q h').quiet hq, ih.none,
    fun k hk => ?_, fun q h' n hn h0 h1 => by rw [hq.2.2.1]; exact ih.run q h' n hn h0 h1,
    fun hst hc => ?_, fun ha => ?_⟩
  · obtain ⟨p, hp, hp32, hn, hi⟩ := ih.cur k hk
    exact ⟨p, hp, hp32, hn, hi.quiet hq⟩
  · rw [hq.2.1] at hc
    rw [hq.2.2.1]
    exact ih.stop hst hc
  · rw [hq.2.2.1] at ha
    obtain ⟨i, hi, hp⟩ := ih.posn ha
    obtain ⟨-, -, -, h4, -⟩ := engine_eq hs ih.headers ha hi hp
    exact ⟨(i + 1) % 256, Nat.mod_lt _ (by omega), h4⟩

theorem inv_of_use {b : Buf} (hb : BufOk b) (hs : 8192 ≤ b.size) {w : World} {s₀ : PwmSt}
    (h0 : init b w = .ok s₀) {h : List PwmCall} {c : Option PwmCall} {s : PwmSt} {pc : Pc}
    (hu : PwmUse b s₀ h c s pc) : Inv b w.gpio.latch h c s pc := by
  induction hu with
  | init => exact inv_init hb h0
  | start _ hc ih => exact inv_start ih hc
  | step _ hn ih => exact inv_step ih hn
  | finish _ hn ih => exact inv_finish ih hn
  | engine _ ih => exact inv_engine hs ih

end Pwm

end PyCNC
