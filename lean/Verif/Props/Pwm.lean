import Verif.Lemmas.PwmPar

/-!
# The PWM: waveforms, several threads, `remove_all` (C48, C49, C50)
-/

namespace PyCNC.Props

open PyCNC Spec Pwm

variable [PyRound]

/-! ### Concrete data for the examples -/

/-- A buffer. -/
def pwmBuf : Buf := ⟨0x10000, 8192⟩

theorem pwmBuf_ok : BufOk pwmBuf := ⟨by decide, by decide, by decide⟩

/-- A world in which nothing has happened. -/
def pwmWorld : World := ⟨fun _ => 0, ⟨fun _ => 0, fun _ => false, fun _ => 0, fun _ => 0⟩, [], 0⟩

/-- After `add_pin(1, 50)`. -/
theorem pwm_add1 {b : Buf} {s₀ : PwmSt} {h : List PwmCall} {s : PwmSt}
    (hu : PwmUse b s₀ h none s .idle) :
    PwmUse b s₀ (.add (1 : Nat) 50 :: h) none (finish b (.remStart 1 (some 128)) s) .idle := by
  have := finish_use hu (start_add (p := 1) (d := 50) (by decide) (by norm_num) (by norm_num))
  rw [floor_50] at this
  exact this

/-- After `remove_pin(1)`. -/
theorem pwm_rem1 {b : Buf} {s₀ : PwmSt} {h : List PwmCall} {s : PwmSt}
    (hu : PwmUse b s₀ h none s .idle) :
    PwmUse b s₀ (.remove (1 : Nat) :: h) none (finish b (.remStart 1 none) s) .idle :=
  finish_use hu (start_remove (p := 1) (by decide))

/-- What the example history asks for. -/
theorem pwm_slots1 : slots [.add (1 : Nat) 50] 1 = some 128 := by
  simp only [slots, floor_50]
  simp

/-! ### C48 -/

/-- **C48.** After any sequence of `add_pin` and `remove_pin` calls, with the engine executing
blocks at any moment in between, a pin last set to a duty cycle of `n` of 256 slots
(`n = ⌊duty·256/100⌋`, not constant) is driven by the running engine; the engine executes the
blocks `φ, φ+1, …` cyclically, and from the next cycle on the pin is high exactly while the blocks
`0 … n-1` of the cycle were the last executed, as long as no further call is made. -/
theorem C48_waveform {b : Buf} (hb : BufOk b) (hs : 8192 ≤ b.size) {w : World} {s₀ s : PwmSt}
    (h0 : Pwm.init b w = .ok s₀) {h : List PwmCall} (hu : PwmUse b s₀ h none s .idle) {q : Nat}
    {n : Int} (hq : slots h q = some n) (hn0 : 0 < n) (hn1 : n < 256) :
    s.active = true ∧ ∃ φ < 256, s.pos = b.base + 32 * φ ∧ ∀ k, 256 ≤ φ + k →
      level ((engine b)^[k + 1] s) q = decide ((((φ + k) % 256 : Nat) : Int) < n) := by
  have hi := inv_of_use hb hs h0 hu
  have hw : want h q = some n.toNat := by rw [want, hq]; rfl
  have ha := hi.run q (fun k hk => (by cases hk)) _ hw (by omega) (by omega)
  obtain ⟨φ, hφ, hp⟩ := hi.posn ha
  have hpin := hi.others q (fun k hk => (by cases hk))
  rw [hw] at hpin
  refine ⟨ha, φ, hφ, hp, fun k hk => ?_⟩
  rw [wave hs hi.headers ha hφ hp (by omega) (by omega) hpin.2.1 k hk, decide_eq_decide]
  omega

example : ∃ s₀ s, Pwm.init pwmBuf pwmWorld = .ok s₀ ∧
    PwmUse pwmBuf s₀ [.add (1 : Nat) 50] none s .idle ∧ slots [.add (1 : Nat) 50] 1 = some 128 := by
  obtain ⟨s₀, h0⟩ := init_succeeds pwmBuf_ok (by decide) pwmWorld
  exact ⟨s₀, _, h0, pwm_add1 .init, pwm_slots1⟩

/-- **C48.** The number of slots: between 0 and 256, and as close to the duty cycle as it can be. -/
theorem C48_duty {c : PwmCall} {p : Int} {d : ℝ} (hc : c = .add p d) {pc : Pc}
    (h : startCall c = .ok pc) (hist : List PwmCall) :
    ∃ q : Nat, p = q ∧ q < 32 ∧ ∃ n : Int, slots (c :: hist) q = some n ∧ 0 ≤ n ∧ n ≤ 256 ∧
      (n : ℝ) / 256 ≤ d / 100 ∧ d / 100 < (n + 1) / 256 := by
  subst hc
  simp only [startCall, startAdd] at h
  split at h
  · rename_i hd
    split at h
    · rename_i hp
      simp only [Bool.and_eq_true] at hd
      have hd0 : 0 ≤ d := by simpa using hd.1
      have hd1 : d ≤ 100 := by simpa using hd.2
      have e : p = (p.toNat : Int) := by omega
      have f1 := Int.floor_le (d * 256 / 100)
      have f2 := Int.lt_floor_add_one (d * 256 / 100)
      refine ⟨p.toNat, e, by omega, ⌊d * 256 / 100⌋, ?_, ?_, ?_, by linarith, by linarith⟩
      · simp only [slots, if_pos e]
      · exact Int.floor_nonneg.mpr (by positivity)
      · have : (⌊d * 256 / 100⌋ : ℝ) ≤ 256 := by linarith
        exact_mod_cast this
    · cases h
  · cases h

example : startCall (.add (1 : Nat) 50) = .ok (.remStart 1 (some 128)) := by
  rw [start_add (by decide) (by norm_num) (by norm_num), floor_50]
  rfl

/-- **C48.** A pin set to 256 slots is high and a pin set to 0 slots or removed is low, whatever
the engine executes and also while calls for other pins are in progress. -/
theorem C48_constant {b : Buf} (hb : BufOk b) (hs : 8192 ≤ b.size) {w : World} {s₀ s : PwmSt}
    (h0 : Pwm.init b w = .ok s₀) {h : List PwmCall} {c : Option PwmCall} {pc : Pc}
    (hu : PwmUse b s₀ h c s pc) {q : Nat} (hc : ∀ k, c = some k → k.pin ≠ q) :
    (slots h q = some 256 → level s q = true) ∧ (slots h q = some 0 → level s q = false) := by
  have hpin := (inv_of_use hb hs h0 hu).others q hc
  constructor
  · intro hq
    rw [want, hq] at hpin
    exact hpin.2.2.2.1 rfl
  · intro hq
    rw [want, hq] at hpin
    exact hpin.2.2.2.2 rfl

example : ∃ s₀ s, Pwm.init pwmBuf pwmWorld = .ok s₀ ∧
    PwmUse pwmBuf s₀ [.remove (1 : Nat), .add (1 : Nat) 50] none s .idle ∧
    slots [.remove (1 : Nat), .add (1 : Nat) 50] 1 = some 0 := by
  obtain ⟨s₀, h0⟩ := init_succeeds pwmBuf_ok (by decide) pwmWorld
  refine ⟨s₀, _, h0, pwm_rem1 (pwm_add1 .init), ?_⟩
  rw [slots, pwm_slots1]
  simp

/-- **C48.** A pin for which `add_pin` was never completed nor begun keeps its level. -/
theorem C48_untouched {b : Buf} (hb : BufOk b) (hs : 8192 ≤ b.size) {w : World} {s₀ s : PwmSt}
    (h0 : Pwm.init b w = .ok s₀) {h : List PwmCall} {c : Option PwmCall} {pc : Pc}
    (hu : PwmUse b s₀ h c s pc) {q : Nat} (hc : ∀ k, c = some k → k.pin ≠ q)
    (hq : slots h q = none) : level s q = w.gpio.latch q := by
  have hpin := (inv_of_use hb hs h0 hu).others q hc
  rw [want, hq] at hpin
  exact hpin.2.2

example : ∃ s₀ s, Pwm.init pwmBuf pwmWorld = .ok s₀ ∧
    PwmUse pwmBuf s₀ [.add (1 : Nat) 50] none s .idle ∧ slots [.add (1 : Nat) 50] 2 = none := by
  obtain ⟨s₀, h0⟩ := init_succeeds pwmBuf_ok (by decide) pwmWorld
  refine ⟨s₀, _, h0, pwm_add1 .init, ?_⟩
  simp [slots]

/-- **C48.** When no pin is left (every pin added was removed or set to 0 slots) the engine is
stopped. -/
theorem C48_stopped {b : Buf} (hb : BufOk b) (hs : 8192 ≤ b.size) {w : World} {s₀ s : PwmSt}
    (h0 : Pwm.init b w = .ok s₀) {h : List PwmCall} (hu : PwmUse b s₀ h none s .idle)
    (hq : ∀ (q : Nat) (n : Int), slots h q = some n → n = 0) : s.active = false := by
  have hi := inv_of_use hb hs h0 hu
  refine hi.stop rfl (nil_of_lookup fun q => ?_)
  have hpin := hi.others q (fun k hk => (by cases hk))
  cases hsl : slots h q with
  | none => rw [want, hsl] at hpin; exact hpin.2.1
  | some n =>
    have := hq q n hsl
    subst this
    rw [want, hsl] at hpin
    exact hpin.2.2.1

example : ∃ s₀ s, Pwm.init pwmBuf pwmWorld = .ok s₀ ∧
    PwmUse pwmBuf s₀ [.remove (1 : Nat), .add (1 : Nat) 50] none s .idle ∧
    ∀ (q : Nat) (n : Int), slots [.remove (1 : Nat), .add (1 : Nat) 50] q = some n → n = 0 := by
  obtain ⟨s₀, h0⟩ := init_succeeds pwmBuf_ok (by decide) pwmWorld
  refine ⟨s₀, _, h0, pwm_rem1 (pwm_add1 .init), fun q n hn => ?_⟩
  by_cases hq : q = 1
  · subst hq
    rw [slots, pwm_slots1] at hn
    simpa using hn.symm
  · have : ¬ ((1 : Nat) : Int) = q := by omega
    simp only [slots, if_neg this] at hn
    cases hn

/-! ### C49 -/

theorem upd_parked (t u : Nat) (x : Option (PwmCall × Pc)) (h : t ≠ u) :
    Function.update (Function.update (fun _ => none : Threads) t x) u none =
      Function.update (fun _ => none : Threads) t x := by
  funext v
  by_cases hv : v = u
  · subst hv
    rw [upd_same, upd_other _ _ (Ne.symm h)]
  · rw [upd_other _ _ hv]

/-- **C49**, refuted.  Whatever the buffer: thread 0 adds pin 1 (50 %); thread 1 starts adding
pin 2 and has read the data word of the first block; thread 0 removes pin 1; thread 1 writes the
word back.  When all calls are finished the last call for pin 1 was its removal, but the engine
drives it high, for ever. -/
theorem C49_removed_pin_driven_refuted {b : Buf} (hb : BufOk b) (hs : 8192 ≤ b.size) {w : World}
    {s₀ : PwmSt} (h0 : Pwm.init b w = .ok s₀) :
    ∃ h s, PwmPar AnyTime b s₀ h (fun _ => none) s ∧ slots h 1 = some 0 ∧ s.active = true ∧
      ∃ φ < 256, ∀ k, 256 ≤ φ + k → level ((engine b)^[k + 1] s) 1 = true := by
  -- thread 0: add pin 1
  have u1 := pwm_add1 (PwmUse.init (b := b) (s₀ := s₀))
  generalize finish b (.remStart 1 (some 128)) s₀ = s1 at u1
  have i1 := inv_of_use hb hs h0 u1
  have p1 := i1.others 1 (fun k hk => (by cases hk))
  have p2 := i1.others 2 (fun k hk => (by cases hk))
  rw [want, pwm_slots1] at p1
  have hw2 : want [.add ((1 : Nat) : Int) 50] 2 = none := by simp [want, slots]
  rw [hw2] at p2
  have a1 := par_of_use 0 u1
  simp only [Option.map_none, upd_none] at a1
  -- thread 1: start adding pin 2, up to the read
  have s2 := start_add (p := 2) (d := 50) (by decide) (by norm_num) (by norm_num)
  rw [floor_50] at s2
  have a2 := PwmPar.start 1 a1 rfl (fun u k pc' hk => (by cases hk)) s2
  have e3 : step b (.remStart 2 (some (128 : Int).toNat)) s1 = (s1, .remCheck 2 (some 128)) := by
    simp only [step, p2.2.1]; rfl
  have a3 := PwmPar.step 1 a2 (upd_same _ _ _) trivial (by rw [e3]; simp)
  rw [e3, Function.update_idem] at a3
  have hcl : s1.clear ≠ [] := by
    intro h
    have := p1.2.2.1
    rw [h] at this
    cases this
  have e4 : step b (.remCheck 2 (some 128)) s1 = (s1, .addRead1 2 128) := by
    have : s1.clear.isEmpty = false := by simpa using hcl
    simp only [step, this, Bool.false_and]; rfl
  have a4 := PwmPar.step 1 a3 (upd_same _ _ _) trivial (by rw [e4]; simp)
  rw [e4, Function.update_idem] at a4
  have a5 := PwmPar.step 1 a4 (upd_same _ _ _) trivial (by simp [step])
  rw [Function.update_idem] at a5
  change PwmPar AnyTime b s₀ _
    (Function.update _ 1 (some (_, .addWrite1 2 128 (readInt s1 (32 * 0 + 24))))) s1 at a5
  -- thread 0: remove pin 1
  have u6 := pwm_rem1 u1
  have a6 := PwmPar.start (c := .remove (1 : Nat)) 0 a5 (by
      rw [upd_other _ _ (by decide)]) (by
      intro u k pc' hk
      by_cases hu : u = 1
      · subst hu
        rw [upd_same] at hk
        cases hk
        decide
      · rw [upd_other _ _ hu] at hk
        cases hk) (start_remove (p := 1) (by decide))
  have a7 := go_par 20 _ _ (by simp [rank]) (by simp) a6
  change PwmPar AnyTime b s₀ _ _ (finish b (.remStart 1 none) s1) at a7
  generalize finish b (.remStart 1 none) s1 = s2' at u6 a7
  have i6 := inv_of_use hb hs h0 u6
  have q1 := i6.others 1 (fun k hk => (by cases hk))
  have q2 := i6.others 2 (fun k hk => (by cases hk))
  have hw1 : want [.remove ((1 : Nat) : Int), .add ((1 : Nat) : Int) 50] 1 = some 0 := by
    rw [want, slots, pwm_slots1]; simp
  have hw2' : want [.remove ((1 : Nat) : Int), .add ((1 : Nat) : Int) 50] 2 = none := by
    simp [want, slots]
  rw [hw1] at q1
  rw [hw2'] at q2
  -- thread 1: the write, and the rest
  rw [upd_parked _ _ _ (by decide)] at a7
  have a8 := PwmPar.step 1 a7 (upd_same _ _ _) trivial (by simp [step])
  rw [Function.update_idem] at a8
  change PwmPar AnyTime b s₀ _ (Function.update _ 1 (some (_, .addRead2 2 128)))
    (store s2' (32 * 0 + 24) (readInt s1 (32 * 0 + 24) ||| Gpio.bit 2)) at a8
  have a9 := go_par 20 _ _ (by simp [rank]) (by simp) a8
  rw [upd_none] at a9
  -- what the write has done
  have d1 : ∀ i < 256, DataBit (store s2' (32 * 0 + 24)
      (readInt s1 (32 * 0 + 24) ||| Gpio.bit 2)) i 1 ↔ i = 0 := by
    intro i hi
    rw [store_bits]
    by_cases hi0 : i = 0
    · rw [if_pos hi0, or_bit _ _ _ (by decide), readInt_data]
      have : DataBit s1 0 1 := (p1.2.1 0 (by omega)).mpr (Or.inl ⟨rfl, by decide, by decide⟩)
      unfold DataBit at this
      rw [this]
      simp [hi0]
    · rw [if_neg hi0]
      exact ⟨fun h => absurd ((q1.2.1 i hi).mp h) (not_on_0 i), fun h => absurd h hi0⟩
  have d2 : ∀ i < 256, DataBit (store s2' (32 * 0 + 24)
      (readInt s1 (32 * 0 + 24) ||| Gpio.bit 2)) i 2 ↔ i = 0 := by
    intro i hi
    rw [store_bits]
    by_cases hi0 : i = 0
    · rw [if_pos hi0, or_bit _ _ _ (by decide)]
      simp [hi0]
    · rw [if_neg hi0]
      exact ⟨fun h => absurd h (q2.1 i hi), fun h => absurd h hi0⟩
  have g := go_ok (b := b) (l := fun _ => false) (p := 2) (o := none) (a := some 128) (by decide)
    (fun n hn => by cases hn; decide) 20 (.addRead2 2 128)
    (store s2' (32 * 0 + 24) (readInt s1 (32 * 0 + 24) ||| Gpio.bit 2)) (by simp [rank])
    ⟨rfl, rfl, by decide, q2.2.1, d2⟩ (store_headers i6.headers _ _)
  obtain ⟨-, g2, g3, g4, g5⟩ := g
  have ga := g4 128 rfl (by decide) (by decide)
  obtain ⟨φ, hφ, hpos⟩ := g5 i6.posn ga
  refine ⟨_, _, a9, ?_, ga, φ, hφ, fun k hk => stuck hs g2 ga hφ hpos (fun i hi => ?_) k hk⟩
  · have e : slots (PwmCall.remove ((1 : Nat) : Int) :: [PwmCall.add ((1 : Nat) : Int) 50]) 1 =
        some 0 := by rw [slots, pwm_slots1]; simp
    rw [slots, if_neg (by decide)]
    exact e
  · rw [(g3 1 (by decide)).1 i hi, d1 i hi]

example : ∃ s₀, Pwm.init pwmBuf pwmWorld = .ok s₀ :=
  init_succeeds pwmBuf_ok (by decide) pwmWorld

/-- **C49**, refuted in another way.  Thread 0 removes the last pin (1) and has decided to stop
the engine; thread 1 adds pin 2 (50 %) and starts the engine; the engine executes the first block;
thread 0 stops it.  When all calls are finished pin 2 should be high half of the time but stays
high for ever. -/
theorem C49_stopped_high_refuted {b : Buf} (hb : BufOk b) (hs : 8192 ≤ b.size) {w : World}
    {s₀ : PwmSt} (h0 : Pwm.init b w = .ok s₀) :
    ∃ h s, PwmPar AnyTime b s₀ h (fun _ => none) s ∧ slots h 2 = some 128 ∧ s.active = false ∧
      ∀ k, level ((engine b)^[k] s) 2 = true := by
  -- thread 0: add pin 1
  have u1 := pwm_add1 (PwmUse.init (b := b) (s₀ := s₀))
  generalize finish b (.remStart 1 (some 128)) s₀ = s1 at u1
  have i1 := inv_of_use hb hs h0 u1
  have p1 := i1.others 1 (fun k hk => (by cases hk))
  have act := i1.run 1 (fun k hk => (by cases hk)) 128 (by rw [want, pwm_slots1]; rfl) (by decide)
    (by decide)
  rw [want, pwm_slots1] at p1
  have hnil : delete s1.clear 1 = [] := by
    refine nil_of_lookup fun q => ?_
    rw [lookup_delete]
    by_cases hq : q = 1
    · rw [if_pos hq]
    · rw [if_neg hq]
      have := i1.others q (fun k hk => (by cases hk))
      have hw : want [.add ((1 : Nat) : Int) 50] q = none := by
        have : ¬ ((1 : Nat) : Int) = q := by omega
        simp only [want, slots, if_neg this]; rfl
      rw [hw] at this
      exact this.2.1
  -- thread 0: remove pin 1, up to the decision
  have v0 := PwmUse.start u1 (start_remove (p := 1) (by decide))
  have e1 : step b (.remStart 1 none) s1 = (s1, .remRead1 1 none (32 * 128 + 24)) := by
    have : lookup s1.clear 1 = some (32 * 128 + 24) := p1.2.2.1
    simp only [step, this]
  have v1 := PwmUse.step v0 (by rw [e1]; simp)
  rw [e1] at v1
  have v2 := PwmUse.step v1 (by simp [step])
  have v3 := PwmUse.step v2 (by simp [step])
  have v4 := PwmUse.step v3 (by simp [step])
  have v5 := PwmUse.step v4 (by simp [step])
  have v6 := PwmUse.step v5 (by simp [step])
  have v7 := PwmUse.step v6 (by simp [step])
  simp only [step] at v7
  have v8 := PwmUse.step v7 (by
    simp only [step, gpioWrite, store, hnil, List.isEmpty_nil, act, Bool.and_self, if_true]
    simp)
  simp only [step, gpioWrite, store, hnil, List.isEmpty_nil, act, Bool.and_self, if_true] at v8
  have i8 := inv_of_use hb hs h0 v8
  have q2 := i8.others 2 (fun k hk => (by cases hk; decide))
  have hw2 : want [.add ((1 : Nat) : Int) 50] 2 = none := by simp [want, slots]
  rw [hw2] at q2
  have a8 := par_of_use 0 v8
  simp only [Option.map_some] at a8
  generalize hs2 : PwmSt.mk _ _ _ _ = s2 at v8 i8 q2 a8
  -- thread 1: add pin 2
  have st2 := start_add (p := 2) (d := 50) (by decide) (by norm_num) (by norm_num)
  rw [floor_50] at st2
  have a9 := PwmPar.start 1 a8 (by rw [upd_other _ _ (by decide)]) (by
      intro u k pc' hk
      by_cases hu : u = 0
      · subst hu
        rw [upd_same] at hk
        cases hk
        decide
      · rw [upd_other _ _ hu] at hk
        cases hk) st2
  have a10 := go_par 20 _ _ (by simp [rank]) (by simp) a9
  rw [upd_parked _ _ _ (by decide)] at a10
  obtain ⟨g1, g2, g3, g4, g5⟩ := go_ok (b := b) (p := 2) (o := none) (a := some 128) (by decide)
    (fun n hn => by cases hn; decide) 20 (.remStart 2 (some 128)) s2 (by simp [rank])
    ⟨rfl, rfl, q2⟩ i8.headers
  have ga := g4 128 rfl (by decide) (by decide)
  obtain ⟨φ, hφ, hpos⟩ := g5 i8.posn ga
  -- the engine executes blocks until the first one was executed
  have a11 : ∀ k, PwmPar AnyTime b s₀ [.add (2 : Nat) 50, .add (1 : Nat) 50]
      (Function.update (fun _ => none) 0 (some (.remove (1 : Nat), .remStop 1 none)))
      ((engine b)^[k] (finish.go b 20 (.remStart 2 (some 128)) s2)) := by
    intro k
    induction k with
    | zero => exact a10
    | succ k ih => rw [Function.iterate_succ_apply']; exact .engine ih
  have hlev := wave hs g2 ga hφ hpos (by decide) (by decide) g1.2.1 (256 - φ) (by omega)
  have e : (φ + (256 - φ)) % 256 = 0 := by omega
  rw [e] at hlev
  -- thread 0: stop
  have a12 := PwmPar.finish 0 (a11 (256 - φ + 1)) (upd_same _ _ _) trivial (by simp [step, afterRemove])
  rw [Function.update_idem, upd_none] at a12
  refine ⟨_, _, a12, ?_, rfl, fun k => ?_⟩
  · simp [slots, floor_50]
  · have hfix : ∀ x : PwmSt, x.active = false → ∀ k, (engine b)^[k] x = x := by
      intro x hx k
      induction k with
      | zero => rfl
      | succ k ih =>
        rw [Function.iterate_succ_apply', ih, engine, hx]
        rfl
    rw [hfix _ rfl]
    exact hlev

example : ∃ s₀, Pwm.init pwmBuf pwmWorld = .ok s₀ :=
  init_succeeds pwmBuf_ok (by decide) pwmWorld

/-- **C49**, partial.  If the sections from a read to the write depending on it (the
read-modify-write of a data word, and the test for emptiness followed by stopping the engine) are
not interleaved with steps of other threads, then all interleavings of calls for different pins
are safe: whatever is interleaved, every pin on which no thread is working behaves as its last
call asked for.  Missing: the code has no lock that would ensure this, see the refutations. -/
theorem C49_locked_partial {b : Buf} (hb : BufOk b) (hs : 8192 ≤ b.size) {w : World}
    {s₀ s : PwmSt} (h0 : Pwm.init b w = .ok s₀) {h : List PwmCall} {cs : Threads}
    (hu : PwmPar Locked b s₀ h cs s) {q : Nat} (hq : ∀ t k pc, cs t = some (k, pc) → k.pin ≠ q) :
    (slots h q = none → level s q = w.gpio.latch q) ∧
    (slots h q = some 0 → level s q = false) ∧ (slots h q = some 256 → level s q = true) ∧
    (∀ n, slots h q = some n → 0 < n → n < 256 → s.active = true ∧ ∃ φ < 256,
      s.pos = b.base + 32 * φ ∧ ∀ k, 256 ≤ φ + k →
        level ((engine b)^[k + 1] s) q = decide ((((φ + k) % 256 : Nat) : Int) < n)) := by
  have hi := inv_of_par hb hs h0 hu
  have hpin := hi.free q hq
  refine ⟨fun h' => ?_, fun h' => ?_, fun h' => ?_, fun n h' hn0 hn1 => ?_⟩
  · rw [want, h'] at hpin; exact hpin.2.2
  · rw [want, h'] at hpin; exact hpin.2.2.2.2 rfl
  · rw [want, h'] at hpin; exact hpin.2.2.2.1 rfl
  · have hw : want h q = some n.toNat := by rw [want, h']; rfl
    have ha := hi.run q hq _ hw (by omega) (by omega)
    obtain ⟨φ, hφ, hp⟩ := hi.posn ha
    rw [hw] at hpin
    refine ⟨ha, φ, hφ, hp, fun k hk => ?_⟩
    rw [wave hs hi.headers ha hφ hp (by omega) (by omega) hpin.2.1 k hk, decide_eq_decide]
    omega

/-- Two calls in progress at the same time, and one completed. -/
example : ∃ s₀ s pc, Pwm.init pwmBuf pwmWorld = .ok s₀ ∧
    PwmPar Locked pwmBuf s₀ [] (Function.update (Function.update (fun _ => none) 0
      (some (.add (1 : Nat) 50, pc))) 1 (some (.remove (2 : Nat), .remStart 2 none))) s ∧
    pc = .remCheck 1 (some 128) := by
  obtain ⟨s₀, h0⟩ := init_succeeds pwmBuf_ok (by decide) pwmWorld
  have hcl := (init_ok pwmBuf_ok h0).2.2.1
  have st := start_add (p := 1) (d := 50) (by decide) (by norm_num) (by norm_num)
  rw [floor_50] at st
  have a1 := PwmPar.start (may := Locked) (b := pwmBuf) (s₀ := s₀) 0 .init rfl
    (fun u k pc' hk => (by cases hk)) st
  have e1 : step pwmBuf (.remStart 1 (some (128 : Int).toNat)) s₀ =
      (s₀, .remCheck 1 (some 128)) := by
    simp only [step, hcl, lookup_nil]; rfl
  have a2 := PwmPar.step 0 a1 (upd_same _ _ _) (fun u k pc hu hk => by
    rw [upd_other _ _ hu] at hk; cases hk) (by rw [e1]; simp)
  rw [e1, Function.update_idem] at a2
  have a3 := PwmPar.start (c := .remove (2 : Nat)) 1 a2 (by rw [upd_other _ _ (by decide)]) (by
      intro u k pc' hk
      by_cases hu : u = 0
      · subst hu
        rw [upd_same] at hk
        cases hk
        decide
      · rw [upd_other _ _ hu] at hk
        cases hk) (start_remove (p := 2) (by decide))
  exact ⟨s₀, s₀, _, h0, a3, rfl⟩

/-! ### C50 -/

/-- **C50**, partial.  With Python 2 `remove_all` raises nothing, removes every pin, leaves every
pin that was added low and stops the engine.  Missing: Python 3, see `C50_python3_refuted`. -/
theorem C50_python2_partial {b : Buf} (hb : BufOk b) (hs : 8192 ≤ b.size) {w : World}
    {s₀ s : PwmSt} (h0 : Pwm.init b w = .ok s₀) {h : List PwmCall}
    (hu : PwmUse b s₀ h none s .idle) :
    (removeAll false b s).2 = none ∧ (removeAll false b s).1.clear = [] ∧
      (removeAll false b s).1.active = false ∧
      ∀ q : Nat, slots h q ≠ none → level (removeAll false b s).1 q = false := by
  have hkey : ∀ q, (lookup s.clear q).isSome = true → q < 32 := by
    intro q hq
    by_contra hge
    have hpin := (inv_of_use hb hs h0 hu).others q (fun k hk => (by cases hk))
    rw [want, want_lt hb hs h0 hu q (by omega)] at hpin
    rw [hpin.2.1] at hq
    cases hq
  have hloop : ∀ (ps : List Nat) (h : List PwmCall) (s : PwmSt), (∀ p ∈ ps, p < 32) →
      PwmUse b s₀ h none s .idle →
      ∃ h', PwmUse b s₀ h' none (ps.foldl (fun s p => finish b (.remStart p none) s) s) .idle ∧
        ∀ q : Nat, (slots h' q = none ↔ slots h q = none) ∧
          (q ∈ ps → slots h' q = none ∨ slots h' q = some 0) ∧
          (slots h q = some 0 → slots h' q = some 0) := by
    intro ps
    induction ps with
    | nil =>
      exact fun h s _ hu => ⟨h, hu, fun q => ⟨Iff.rfl, fun h => (by cases h), id⟩⟩
    | cons p ps ih =>
      intro h s hps hu
      have hp := hps p List.mem_cons_self
      have hu' := finish_use hu (start_remove hp)
      obtain ⟨h', hu'', hq⟩ := ih _ _ (fun x hx => hps x (List.mem_cons_of_mem _ hx)) hu'
      refine ⟨h', hu'', fun q => ?_⟩
      obtain ⟨q1, q2, q3⟩ := hq q
      by_cases hqp : p = q
      · subst hqp
        have e : slots (.remove (p : Int) :: h) p = (slots h p).map fun _ => 0 := by
          rw [slots, if_pos rfl]
        rw [e] at q1 q3
        refine ⟨q1.trans Option.map_eq_none_iff, fun _ => ?_, fun h0 => q3 (by rw [h0]; rfl)⟩
        cases hsl : slots h p with
        | none => exact Or.inl (q1.mpr (by rw [hsl]; rfl))
        | some n => exact Or.inr (q3 (by rw [hsl]; rfl))
      · have e : slots (.remove (p : Int) :: h) q = slots h q := by
          rw [slots, if_neg (by omega)]
        rw [e] at q1 q3
        refine ⟨q1, fun hm => q2 ?_, q3⟩
        rcases List.mem_cons.mp hm with h | h
        · exact absurd h.symm hqp
        · exact h
  obtain ⟨h', hu', hq⟩ := hloop (s.clear.map (·.1)) h s (fun p hp => hkey p (lookup_key hp)) hu
  have hi := inv_of_use hb hs h0 hu
  have hi' := inv_of_use hb hs h0 hu'
  -- every pin is unknown or has no slots
  have hz : ∀ q : Nat, slots h' q = none ∨ slots h' q = some 0 := by
    intro q
    by_cases hm : q ∈ s.clear.map (·.1)
    · exact (hq q).2.1 hm
    · have hl := lookup_not_key hm
      have hpin := hi.others q (fun k hk => (by cases hk))
      cases hsl : slots h q with
      | none => exact Or.inl ((hq q).1.mpr hsl)
      | some n =>
        refine Or.inr ((hq q).2.2 ?_)
        rw [want, hsl] at hpin
        obtain ⟨hle, -, hreg, -⟩ := hpin
        rw [hl] at hreg
        have : n.toNat = 0 := by
          unfold regAddr at hreg
          split at hreg
          · assumption
          · split at hreg <;> cases hreg
        have := slots_nonneg hu q n hsl
        rw [hsl]
        congr 1
        omega
  have hnil : ((s.clear.map (·.1)).foldl (fun s p => finish b (.remStart p none) s) s).clear
      = [] := by
    refine nil_of_lookup fun q => ?_
    have hpin := hi'.others q (fun k hk => (by cases hk))
    rcases hz q with h | h
    · rw [want, h] at hpin; exact hpin.2.1
    · rw [want, h] at hpin; exact hpin.2.2.1
  have hr : removeAll false b s =
      ((s.clear.map (·.1)).foldl (fun s p => finish b (.remStart p none) s) s, none) := by
    simp only [removeAll, checkEmpty, Bool.false_eq_true, if_false]
    rw [hnil]
    rfl
  rw [hr]
  refine ⟨rfl, hnil, hi'.stop rfl hnil, fun q hne => ?_⟩
  have hpin := hi'.others q (fun k hk => (by cases hk))
  rcases hz q with h | h
  · exact absurd ((hq q).1.mp h) hne
  · rw [want, h] at hpin
    exact hpin.2.2.2.2 rfl

example : ∃ s₀ s, Pwm.init pwmBuf pwmWorld = .ok s₀ ∧
    PwmUse pwmBuf s₀ [.add (1 : Nat) 50] none s .idle ∧ slots [.add (1 : Nat) 50] 1 ≠ none := by
  obtain ⟨s₀, h0⟩ := init_succeeds pwmBuf_ok (by decide) pwmWorld
  exact ⟨s₀, _, h0, pwm_add1 .init, by rw [pwm_slots1]; simp⟩

/-- **C50**, refuted.  With Python 3 `remove_all` raises `RuntimeError` whenever a pin is
registered, and it has removed one pin only. -/
theorem C50_python3_refuted {b : Buf} (hb : BufOk b) (hs : 8192 ≤ b.size) {w : World}
    {s₀ s : PwmSt} (h0 : Pwm.init b w = .ok s₀) {h : List PwmCall}
    (hu : PwmUse b s₀ h none s .idle) {q : Nat} {n : Int} (hq : slots h q = some n) (hn : 0 < n) :
    (removeAll true b s).2 = some .runtime ∧
      ∃ p : Nat, PwmUse b s₀ (.remove p :: h) none (removeAll true b s).1 .idle := by
  have hi := inv_of_use hb hs h0 hu
  have hne : s.clear ≠ [] := by
    intro hc
    have hpin := hi.others q (fun k hk => (by cases hk))
    rw [want, hq] at hpin
    have := hpin.2.2.1
    simp only [hc, lookup_nil, Option.map_some] at this
    rw [regAddr, if_neg (by omega)] at this
    split at this <;> cases this
  cases hc : s.clear with
  | nil => exact absurd hc hne
  | cons x d =>
    have hm : x.1 ∈ s.clear.map (·.1) := by rw [hc]; simp
    have hp : x.1 < 32 := by
      by_contra hge
      have hpin := hi.others x.1 (fun k hk => (by cases hk))
      rw [want, want_lt hb hs h0 hu x.1 (by omega)] at hpin
      have := lookup_key hm
      rw [hpin.2.1] at this
      cases this
    obtain ⟨addr, hl⟩ := Option.isSome_iff_exists.mp (lookup_key hm)
    have hlen : (finish b (.remStart x.1 none) s).clear.length ≠ s.clear.length := by
      rw [finish_remove_clear b s x.1 addr hl]
      exact Nat.ne_of_lt (delete_length hm)
    have hr : removeAll true b s = (finish b (.remStart x.1 none) s, some .runtime) := by
      simp only [removeAll, if_true]
      have e : s.clear.map (·.1) = x.1 :: d.map (·.1) := by rw [hc]; rfl
      rw [e, iterKeys, if_pos rfl, iterKeys_changed _ _ _ _ hlen]
      rfl
    rw [hr]
    exact ⟨rfl, x.1, finish_use hu (start_remove hp)⟩

example : ∃ s₀ s, Pwm.init pwmBuf pwmWorld = .ok s₀ ∧
    PwmUse pwmBuf s₀ [.add (1 : Nat) 50] none s .idle ∧ slots [.add (1 : Nat) 50] 1 = some 128 := by
  obtain ⟨s₀, h0⟩ := init_succeeds pwmBuf_ok (by decide) pwmWorld
  exact ⟨s₀, _, h0, pwm_add1 .init, pwm_slots1⟩

end PyCNC.Props
