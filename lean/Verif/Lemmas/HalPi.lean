import Verif.Spec.HalPi
import Verif.Lemmas.PwmPar
import Verif.Props.Gpio

/-!
# The pins of the machine: invariant
-/

namespace PyCNC

open Spec

namespace Pwm

/-! ### Other users of the GPIO registers -/

theorem PinOk.base {l l' : Nat → Bool} {s : PwmSt} {q : Nat} {o : Option Nat}
    (h : PinOk l s q o) (hl : l' q = l q) : PinOk l' s q o := by
  cases o with
  | none => exact ⟨h.1, h.2.1, h.2.2.trans hl.symm⟩
  | some n => exact h

theorem PinOk.gpio {l : Nat → Bool} {s : PwmSt} {q : Nat} {o : Option Nat}
    (h : PinOk l s q o) (f : GpioHw → GpioHw) (hf : (f s.w.gpio).latch q = s.w.gpio.latch q) :
    PinOk l (Pi.onGpio f s) q o :=
  h.congr ⟨fun _ _ => Iff.rfl, rfl, hf⟩

theorem PcInv.gpio {l l' : Nat → Bool} {s : PwmSt} {p : Nat} {o a : Option Nat} {pc : Pc}
    (h : PcInv l s p o a pc) (hl : l' p = l p) (f : GpioHw → GpioHw)
    (hf : (f s.w.gpio).latch p = s.w.gpio.latch p) : PcInv l' (Pi.onGpio f s) p o a pc := by
  have hok : ∀ o, PinOk l s p o → PinOk l' (Pi.onGpio f s) p o := fun o h => (h.base hl).gpio f hf
  cases pc with
  | idle => exact h
  | remStart => exact ⟨h.1, h.2.1, hok _ h.2.2⟩
  | remRead1 =>
    obtain ⟨h1, h2, n, h3, h4, h5⟩ := h
    exact ⟨h1, h2, n, h3, hok _ h4, h5⟩
  | remWrite1 =>
    obtain ⟨h1, h2, ⟨n, h3, h4, h5⟩, h6⟩ := h
    exact ⟨h1, h2, ⟨n, h3, hok _ h4, h5⟩, h6⟩
  | remRead2 => exact h
  | remWrite2 => exact h
  | remDel => exact h
  | remClr => exact h
  | remCheck => exact ⟨h.1, h.2.1, hok _ h.2.2⟩
  | remStop => exact ⟨h.1, h.2.1, hok _ h.2.2.1, h.2.2.2⟩
  | addGpio => exact h
  | addFull => exact ⟨h.1, h.2.1, h.2.2.1, hf.trans h.2.2.2⟩
  | addRead1 => exact h
  | addWrite1 => exact h
  | addRead2 => exact h
  | addWrite2 => exact h
  | addReg => exact h
  | addCheck =>
    obtain ⟨h1, n, h2, h3, h4, h5⟩ := h
    exact ⟨h1, n, h2, h3, hok _ h4, h5⟩
  | addRun =>
    obtain ⟨h1, n, h2, h3, h4, h5⟩ := h
    exact ⟨h1, n, h2, h3, hok _ h4, h5⟩

/-- Another user of the registers changes pins the PWM has nothing to do with. -/
theorem inv_gpio {b : Buf} {l : Nat → Bool} {h : List PwmCall} {c : Option PwmCall} {s : PwmSt}
    {pc : Pc} (ih : Inv b l h c s pc) (f : GpioHw → GpioHw) (P : Nat → Prop) [DecidablePred P]
    (hP : ∀ q, P q → want h q = none ∧ ∀ k, c = some k → k.pin ≠ (q : Int))
    (hf : ∀ q, ¬ P q → (f s.w.gpio).latch q = s.w.gpio.latch q) :
    Inv b (fun q => if P q then (f s.w.gpio).latch q else l q) h c (Pi.onGpio f s) pc := by
  refine ⟨ih.headers, fun q hq => ?_, ih.none, fun k hk => ?_, ih.run, ih.stop, ih.posn⟩
  · by_cases hp : P q
    · have := ih.others q hq
      rw [(hP q hp).1] at this ⊢
      exact ⟨this.1, this.2.1, (if_pos hp).symm⟩
    · exact ((ih.others q hq).base (if_neg hp)).gpio f (hf q hp)
  · obtain ⟨p, h1, h2, h3, h4⟩ := ih.cur k hk
    have hp : ¬ P p := fun hp => (hP p hp).2 k hk h1
    exact ⟨p, h1, h2, h3, h4.gpio (if_neg hp) f (hf p hp)⟩

variable [PyRound]

/-! ### Whole calls -/

theorem inv_go {b : Buf} {l : Nat → Bool} {h : List PwmCall} {c : PwmCall} :
    ∀ (n : Nat) (pc : Pc) (s : PwmSt), rank pc ≤ n → pc ≠ .idle → Inv b l h (some c) s pc →
      Inv b l (c :: h) none (finish.go b n pc s) .idle
  | 0, pc, s, hr, hne, hu => by
    exfalso
    have := rank_step b pc s hne
    omega
  | n + 1, pc, s, hr, hne, hu => by
    have hlt := rank_step b pc s hne
    rw [finish.go, if_neg hne]
    by_cases hd : (step b pc s).2 = .idle
    · have hf := inv_finish hu hd
      rw [hd]
      cases n with
      | zero => exact hf
      | succ n => rw [finish.go, if_pos rfl]; exact hf
    · exact inv_go n _ _ (by omega) hd (inv_step hu hd)

theorem inv_whole {b : Buf} {l : Nat → Bool} {h : List PwmCall} {c : PwmCall} {s : PwmSt} {pc : Pc}
    (hu : Inv b l h none s .idle) (hc : startCall c = .ok pc) :
    Inv b l (c :: h) none (finish b pc s) .idle := by
  have hu' := inv_start hu hc
  obtain ⟨p, -, -, -, rfl⟩ := start_ok hc
  exact inv_go 20 _ _ (by simp only [rank]; omega) (by simp) hu'

/-- `remove_all` with Python 2. -/
theorem removeAll2_inv {b : Buf} {l : Nat → Bool} {h : List PwmCall} {s : PwmSt}
    (hi : Inv b l h none s .idle) (hlt : ∀ q, 32 ≤ q → want h q = none) :
    (removeAll false b s).2 = none ∧ (removeAll false b s).1.clear = [] ∧
      (removeAll false b s).1.active = false ∧
      ∃ h', Inv b l h' none (removeAll false b s).1 .idle ∧
        ∀ q, (want h' q = none ↔ want h q = none) ∧ (want h' q = none ∨ want h' q = some 0) := by
  have hkey : ∀ q, (lookup s.clear q).isSome = true → q < 32 := by
    intro q hq
    by_contra hge
    have hpin := hi.others q (fun k hk => (by cases hk))
    rw [hlt q (by omega)] at hpin
    rw [hpin.2.1] at hq
    cases hq
  have hloop : ∀ (ps : List Nat) (h : List PwmCall) (s : PwmSt), (∀ p ∈ ps, p < 32) →
      Inv b l h none s .idle →
      ∃ h', Inv b l h' none (ps.foldl (fun s p => finish b (.remStart p none) s) s) .idle ∧
        ∀ q : Nat, (want h' q = none ↔ want h q = none) ∧
          (q ∈ ps → want h' q = none ∨ want h' q = some 0) ∧
          (want h q = some 0 → want h' q = some 0) := by
    intro ps
    induction ps with
    | nil =>
      exact fun h s _ hu => ⟨h, hu, fun q => ⟨Iff.rfl, fun h => (by cases h), id⟩⟩
    | cons p ps ih =>
      intro h s hps hu
      have hp := hps p List.mem_cons_self
      have hu' := inv_whole hu (start_remove hp)
      obtain ⟨h', hu'', hq⟩ := ih _ _ (fun x hx => hps x (List.mem_cons_of_mem _ hx)) hu'
      refine ⟨h', hu'', fun q => ?_⟩
      obtain ⟨q1, q2, q3⟩ := hq q
      by_cases hqp : p = q
      · subst hqp
        have e : want (.remove (p : Int) :: h) p = (want h p).map fun _ => 0 :=
          want_same (k := .remove (p : Int)) rfl
        rw [e] at q1 q3
        refine ⟨q1.trans Option.map_eq_none_iff, fun _ => ?_, fun h0 => q3 (by rw [h0]; rfl)⟩
        cases hsl : want h p with
        | none => exact Or.inl (q1.mpr (by rw [hsl]; rfl))
        | some n => exact Or.inr (q3 (by rw [hsl]; rfl))
      · have e : want (.remove (p : Int) :: h) q = want h q :=
          want_other (k := .remove (p : Int)) (by simp only [PwmCall.pin]; omega)
        rw [e] at q1 q3
        refine ⟨q1, fun hm => q2 ?_, q3⟩
        rcases List.mem_cons.mp hm with h | h
        · exact absurd h.symm hqp
        · exact h
  obtain ⟨h', hi', hq⟩ := hloop (s.clear.map (·.1)) h s (fun p hp => hkey p (lookup_key hp)) hi
  have hz : ∀ q : Nat, want h' q = none ∨ want h' q = some 0 := by
    intro q
    by_cases hm : q ∈ s.clear.map (·.1)
    · exact (hq q).2.1 hm
    · have hl := lookup_not_key hm
      have hpin := hi.others q (fun k hk => (by cases hk))
      cases hsl : want h q with
      | none => exact Or.inl ((hq q).1.mpr hsl)
      | some n =>
        refine Or.inr ((hq q).2.2 ?_)
        rw [hsl] at hpin
        obtain ⟨hle, -, hreg, -⟩ := hpin
        rw [hl] at hreg
        have : n = 0 := by
          unfold regAddr at hreg
          split at hreg
          · assumption
          · split at hreg <;> cases hreg
        rw [hsl, this]
  have hnil : ((s.clear.map (·.1)).foldl (fun s p => finish b (.remStart p none) s) s).clear
      = [] := by
    refine nil_of_lookup fun q => ?_
    have hpin := hi'.others q (fun k hk => (by cases hk))
    rcases hz q with h | h
    · rw [h] at hpin; exact hpin.2.1
    · rw [h] at hpin; exact hpin.2.2.1
  have hr : removeAll false b s =
      ((s.clear.map (·.1)).foldl (fun s p => finish b (.remStart p none) s) s, none) := by
    simp only [removeAll, checkEmpty, Bool.false_eq_true, if_false]
    rw [hnil]
    rfl
  rw [hr]
  exact ⟨rfl, hnil, hi'.stop rfl hnil, h', hi', fun q => ⟨(hq q).1, hz q⟩⟩

/-- `remove_all` when nothing is registered. -/
theorem removeAll_nil (py3 : Bool) (b : Buf) {s : PwmSt} (h : s.clear = []) :
    removeAll py3 b s = (s, none) := by
  cases py3 <;> simp [removeAll, h, iterKeys, checkEmpty]

/-- `remove_all` with Python 3 when something is registered. -/
theorem removeAll3_some {b : Buf} {l : Nat → Bool} {h : List PwmCall} {s : PwmSt}
    (hi : Inv b l h none s .idle) (hlt : ∀ q, 32 ≤ q → want h q = none) {q n : Nat}
    (hq : want h q = some n) (hn : 0 < n) :
    (removeAll true b s).2 = some .runtime ∧
      ∃ p : Nat, Inv b l (.remove p :: h) none (removeAll true b s).1 .idle := by
  have hne : s.clear ≠ [] := by
    intro hc
    have hpin := hi.others q (fun k hk => (by cases hk))
    rw [hq] at hpin
    have := hpin.2.2.1
    simp only [hc, lookup_nil] at this
    rw [regAddr, if_neg (by omega)] at this
    split at this <;> cases this
  cases hc : s.clear with
  | nil => exact absurd hc hne
  | cons x d =>
    have hm : x.1 ∈ s.clear.map (·.1) := by rw [hc]; simp
    have hp : x.1 < 32 := by
      by_contra hge
      have hpin := hi.others x.1 (fun k hk => (by cases hk))
      rw [hlt x.1 (by omega)] at hpin
      have := lookup_key hm
      rw [hpin.2.1] at this
      cases this
    obtain ⟨addr, hl⟩ := Option.isSome_iff_exists.mp (lookup_key hm)
    have hlen : (finish b (.remStart x.1 none) s).clear.length ≠ s.clear.length := by
      rw [finish_remove_clear b s x.1 addr hl]
      exact Nat.ne_of_lt (delete_length hm)
    have hr : removeAll true b s = (finish b (.remStart x.1 none) s, some .runtime) := by
      simp only [removeAll, if_true]
      have e : s.clear.map (·.1) = x.1 :: d.map (·.1) := by rw [hc]; rfl
      rw [e, iterKeys, if_pos rfl, iterKeys_changed _ _ _ _ hlen]
      rfl
    rw [hr]
    exact ⟨rfl, x.1, inv_whole hi (start_remove hp)⟩

end Pwm

namespace Pi

open Pwm

/-! ### Pins -/

theorem mem_all {p : Pins} {q : Nat} :
    q ∈ allPins p ↔ q ∈ motorPins p ∨ q ∈ stopPins p ∨ q ∈ powerPins p ∨ q = p.enable := by
  simp only [allPins, List.mem_append, List.mem_singleton]
  tauto

theorem act_power (p : Pins) (a : Act) : a.pin p ∈ powerPins p := by
  cases a <;> simp [Act.pin, powerPins]

theorem apart {p : Pins} (hp : Wired p) :
    (∀ a a' : Act, a.pin p = a'.pin p → a = a') ∧ (∀ a : Act, a.pin p ≠ p.fan) ∧
      (∀ q ∈ powerPins p, q ≠ p.enable) ∧
      ∀ q ∈ motorPins p, q ∉ powerPins p ∧ q ≠ p.enable := by
  have h := hp.once
  simp only [allPins, List.nodup_append, List.mem_append] at h
  obtain ⟨⟨⟨-, -, -⟩, hpow, hd⟩, -, he⟩ := h
  have hpow' := hpow
  simp only [powerPins, List.nodup_cons, List.mem_cons, List.not_mem_nil, or_false, not_or,
    List.nodup_nil] at hpow'
  refine ⟨fun a a' => ?_, fun a => ?_, fun q hq => he q (.inr hq) _ (List.mem_singleton_self _),
    fun q hq => ⟨fun hq' => hd q (.inl hq) q hq' rfl,
      he q (.inl (.inl hq)) _ (List.mem_singleton_self _)⟩⟩
  · cases a <;> cases a' <;> first
      | exact fun _ => rfl
      | (intro h'; exfalso; simp only [Act.pin] at h'; omega)
  · cases a <;> simp only [Act.pin] <;> omega

theorem power_lt {p : Pins} (hp : Wired p) {q : Nat} (h : q ∈ powerPins p) : q < 32 :=
  hp.bank q (mem_all.2 (.inr (.inr (.inl h))))

theorem fan_lt {p : Pins} (hp : Wired p) : p.fan < 32 :=
  power_lt hp (by simp [powerPins])

theorem enable_lt {p : Pins} (hp : Wired p) : p.enable < 32 :=
  hp.bank _ (mem_all.2 (.inr (.inr (.inr rfl))))

/-! ### Histories -/

/-- The call of the PWM object made by a control function. -/
noncomputable def call (p : Pins) (c : Act × ℝ) : PwmCall :=
  if 0 < c.2 then .add (c.1.pin p) c.2 else .remove (c.1.pin p)

theorem call_pin (p : Pins) (c : Act × ℝ) : (call p c).pin = (c.1.pin p : Int) := by
  unfold call; split <;> rfl

/-- The calls of the PWM object in a history. -/
noncomputable def hist (p : Pins) : List PiCall → List PwmCall
  | [] => []
  | .power a x :: h => call p (a, x) :: hist p h
  | _ :: h => hist p h

theorem want_hist_none {p : Pins} {q : Nat} (hq : ∀ a : Act, a.pin p ≠ q) (h : List PiCall) :
    want (hist p h) q = none := by
  induction h with
  | nil => rfl
  | cons c h ih =>
    cases c with
    | power a x =>
      rw [hist, want_other, ih]
      rw [call_pin]
      exact fun h' => hq a (by exact_mod_cast h')
    | fan => exact ih
    | steppers => exact ih

theorem slots_hist {p : Pins} (hp : Wired p) (a : Act) (h : List PiCall) :
    (0 < lastPower a h → slots (hist p h) (a.pin p) = some ⌊lastPower a h * 256 / 100⌋) ∧
      (lastPower a h ≤ 0 →
        slots (hist p h) (a.pin p) = none ∨ slots (hist p h) (a.pin p) = some 0) := by
  induction h with
  | nil => exact ⟨fun h => absurd h (by simp [lastPower]), fun _ => .inl rfl⟩
  | cons c h ih =>
    cases c with
    | power a' x =>
      by_cases ha : a' = a
      · subst ha
        simp only [lastPower, if_true]
        refine ⟨fun hx => ?_, fun hx => ?_⟩
        · simp [hist, call, hx, slots]
        · rw [hist, call, if_neg (not_lt.2 hx), slots, if_pos rfl]
          cases slots (hist p h) (a'.pin p) with
          | none => exact .inl rfl
          | some n => exact .inr rfl
      · have e : slots (hist p (.power a' x :: h)) (a.pin p) = slots (hist p h) (a.pin p) := by
          have hne : ((a'.pin p : Nat) : Int) ≠ (a.pin p : Nat) := fun h' =>
            ha ((apart hp).1 _ _ (by omega))
          rw [hist, call]
          split <;> rw [slots, if_neg hne]
        rw [e]
        simpa only [lastPower, if_neg ha] using ih
    | fan => exact ih
    | steppers => exact ih

/-! ### `init` -/

/-- Does nothing to the latches. -/
def KeepsLatch (f : GpioHw → GpioHw) : Prop := ∀ g, (f g).latch = g.latch

theorem keeps_init {q : Nat} (hq : q < 32) (m : PinMode) : KeepsLatch (Gpio.init q m) :=
  fun g => (Props.C47_init q (by omega) m g).2.2.2.1

theorem runCalls_append (fs gs : List (GpioHw → GpioHw)) (g : GpioHw) :
    runCalls (fs ++ gs) g = runCalls gs (runCalls fs g) := by
  simp [runCalls]

theorem runCalls_cons (f : GpioHw → GpioHw) (fs : List (GpioHw → GpioHw)) (g : GpioHw) :
    runCalls (f :: fs) g = runCalls fs (f g) := rfl

theorem latch_clear {q : Nat} (hq : q < 32) (g : GpioHw) (r : Nat) :
    (Gpio.clear q g).latch r = if r = q then false else g.latch r := by
  rw [Props.C47_clear q (by omega)]

theorem latch_set' {q : Nat} (hq : q < 32) (g : GpioHw) (r : Nat) :
    (Gpio.set q g).latch r = if r = q then true else g.latch r := by
  rw [Props.C47_set q (by omega)]

theorem latch_clears (qs : List Nat) (hq : ∀ q ∈ qs, q < 32) (g : GpioHw) (r : Nat) :
    (runCalls (qs.map Gpio.clear) g).latch r = if r ∈ qs then false else g.latch r := by
  induction qs generalizing g with
  | nil => simp [runCalls]
  | cons q qs ih =>
    rw [List.map_cons, runCalls_cons, ih (fun q h => hq q (List.mem_cons_of_mem _ h)),
      latch_clear (hq q List.mem_cons_self)]
    by_cases h1 : r = q <;> by_cases h2 : r ∈ qs <;> simp [h1, h2]

theorem reg_clears (qs : List Nat) (hq : ∀ q ∈ qs, q < 32) (g : GpioHw) :
    (runCalls (qs.map Gpio.clear) g).reg = g.reg ∧ (runCalls (qs.map Gpio.clear) g).pull = g.pull := by
  induction qs generalizing g with
  | nil => exact ⟨rfl, rfl⟩
  | cons q qs ih =>
    rw [List.map_cons, runCalls_cons]
    have := ih (fun q h => hq q (List.mem_cons_of_mem _ h)) (Gpio.clear q g)
    rw [this.1, this.2, Props.C47_clear q (by have := hq q List.mem_cons_self; omega)]
    exact ⟨rfl, rfl⟩

/-- The pins and modes of `init`. -/
def modes (p : Pins) : List (Nat × PinMode) :=
  (motorPins p).map (·, .output) ++ (stopPins p).map (·, .pullup) ++
    (powerPins p).map (·, .output) ++ [(p.enable, .output)]

theorem initCalls_eq (p : Pins) : initCalls p =
    (modes p).map (fun x => Gpio.init x.1 x.2) ++ (powerPins p ++ [p.enable]).map Gpio.clear := rfl

theorem latch_inits (l : List (Nat × PinMode)) (hl : ∀ x ∈ l, x.1 < 32) (g : GpioHw) :
    (runCalls (l.map fun x => Gpio.init x.1 x.2) g).latch = g.latch := by
  induction l generalizing g with
  | nil => rfl
  | cons x l ih =>
    rw [List.map_cons, runCalls_cons, ih (fun y h => hl y (List.mem_cons_of_mem _ h)),
      keeps_init (hl x List.mem_cons_self)]

theorem modes_lt {p : Pins} (hp : Wired p) : ∀ x ∈ modes p, x.1 < 32 := by
  intro x hx
  refine hp.bank _ (mem_all.2 ?_)
  simp only [modes, List.mem_append, List.mem_map, List.mem_singleton] at hx
  rcases hx with ((⟨q, h, rfl⟩ | ⟨q, h, rfl⟩) | ⟨q, h, rfl⟩) | rfl
  · exact .inl h
  · exact .inr (.inl h)
  · exact .inr (.inr (.inl h))
  · exact .inr (.inr (.inr rfl))

theorem latch_init {p : Pins} (hp : Wired p) (g : GpioHw) (q : Nat) :
    (runCalls (initCalls p) g).latch q =
      if q ∈ powerPins p ∨ q = p.enable then false else g.latch q := by
  rw [initCalls_eq, runCalls_append, latch_clears, latch_inits _ (modes_lt hp)]
  · simp
  · intro q hq
    rcases List.mem_append.1 hq with h | h
    · exact power_lt hp h
    · rw [List.mem_singleton.1 h]; exact enable_lt hp

/-! ### Writes keep the other registers -/

theorem write_out (g : GpioHw) {off : Nat} (ho : off = 0x1C ∨ off = 0x28) (m : Word) :
    (g.write off m).reg = g.reg ∧ (g.write off m).pull = g.pull ∧
      ∀ q, m.getLsbD (q % 32) = false → (g.write off m).latch q = g.latch q := by
  rcases ho with rfl | rfl
  · refine ⟨rfl, rfl, fun q hq => ?_⟩
    simp only [GpioHw.write]
    simp [hq]
  · refine ⟨rfl, rfl, fun q hq => ?_⟩
    simp only [GpioHw.write]
    simp [hq]

variable [PyRound]

theorem control_call {p : Pins} {a : Act} {x : ℝ} {pc : Pc} (h : powerControl p a x = .ok pc) :
    startCall (call p (a, x)) = .ok pc := by
  have e : ((PyNum.ofRat 0 : ℝ) <ₚ x) = decide (0 < x) := by
    change decide (((0 : ℚ) : ℝ) < x) = _
    norm_num
  by_cases hx : 0 < x
  · cases a <;> simp only [powerControl, spindleControl, extruderHeaterControl, bedHeaterControl, e,
      decide_eq_true hx, if_true, Bool.false_eq_true] at h <;> simpa [call, hx, startCall, Act.pin] using h
  · cases a <;> simp only [powerControl, spindleControl, extruderHeaterControl, bedHeaterControl, e,
      decide_eq_false hx, if_false, Bool.false_eq_true] at h <;>
      simpa [call, hx, startCall, Act.pin] using h

theorem engine_reg {b : Buf} (hs : 8192 ≤ b.size) {s : PwmSt} (hh : Headers b s.w.mem)
    (hp : s.active = true → ∃ i < 256, s.pos = b.base + 32 * i) :
    (Pwm.engine b s).w.gpio.reg = s.w.gpio.reg := by
  unfold Pwm.engine
  split
  · rename_i ha
    obtain ⟨i, hi, e⟩ := hp ha
    rw [e, exec_pwm hs hh hi]
    simp only
    split
    · exact (write_out _ (.inl rfl) _).1
    · exact (write_out _ (.inr rfl) _).1
  · rfl

theorem step_reg (b : Buf) (pc : Pc) (s : PwmSt) :
    (Pwm.step b pc s).1.w.gpio.reg = s.w.gpio.reg := by
  cases pc <;> simp only [Pwm.step]
  case remStart => split <;> rfl
  case remClr => exact (write_out _ (.inr rfl) _).1
  case remCheck => split <;> rfl
  case addGpio =>
    split
    · exact (write_out _ (.inr rfl) _).1
    · exact (write_out _ (.inl rfl) _).1
  case addCheck => split <;> rfl
  all_goals rfl

/-! ### The invariant -/

/-- What is known at every moment. -/
structure PInv (p : Pins) (b : Buf) (w : World) (h : List PiCall) (c : Option (Act × ℝ)) (s : PwmSt)
    (pc : Pc) (l : Nat → Bool) : Prop where
  inv : Inv b l (hist p h) (c.map (call p)) s pc
  acts : ∀ a : Act, l (a.pin p) = false
  fan : l p.fan = fanOn h
  enable : l p.enable = !steppersOn h
  reg : s.w.gpio.reg = (runCalls (initCalls p) w.gpio).reg

theorem init_gpio {b : Buf} {w : World} {s : PwmSt} (h0 : Pwm.init b w = .ok s) (f : GpioHw → GpioHw) :
    Pwm.init b { w with gpio := f w.gpio } = .ok (onGpio f s) := by
  unfold Pwm.init at h0 ⊢
  simp only at h0 ⊢
  cases h1 : Pwm.addControlBlock b 0 gpioSet w.mem with
  | error e => rw [h1] at h0; cases h0
  | ok m =>
    rw [h1] at h0
    simp only [bind, Except.bind] at h0 ⊢
    cases h2 : Pwm.fill b (pwmBlocks - 1) 1 m with
    | error e => rw [h2] at h0; cases h0
    | ok m' =>
      rw [h2] at h0
      cases h0
      rfl

theorem pinv {p : Pins} (hp : Wired p) {b : Buf} (hb : BufOk b) (hs : 8192 ≤ b.size) {w : World}
    {h : List PiCall} {c : Option (Act × ℝ)} {s : PwmSt} {pc : Pc} (hu : PiUse p b w h c s pc) :
    ∃ l, PInv p b w h c s pc l := by
  have hA := apart hp
  have hfan : ∀ h : List PiCall, want (hist p h) p.fan = none := want_hist_none hA.2.1
  have hen : ∀ h : List PiCall, want (hist p h) p.enable = none :=
    want_hist_none fun a => hA.2.2.1 _ (act_power p a)
  have hfe : p.fan ≠ p.enable := hA.2.2.1 _ (by simp [powerPins])
  have hcall : ∀ (c : Option (Act × ℝ)) (q : Nat), (∀ a : Act, a.pin p ≠ q) →
      ∀ k, c.map (call p) = some k → k.pin ≠ (q : Int) := by
    intro c q hq k hk
    cases c with
    | none => cases hk
    | some c =>
      cases hk
      rw [call_pin]
      exact fun h' => hq c.1 (by exact_mod_cast h')
  induction hu with
  | @boot s h0 dog =>
    refine ⟨_, inv_init hb (init_gpio h0 (runCalls (initCalls p))), fun a => ?_, ?_, ?_, ?_⟩
    · simp only [latch_init hp, act_power, true_or, if_true]
    · simp [latch_init hp, powerPins, fanOn]
    · simp [latch_init hp, steppersOn]
    · obtain ⟨-, -, -, -, h5⟩ := init_ok hb h0
      simp only [init, onGpio]
      rw [h5]
  | start _ hc ih =>
    obtain ⟨l, hi⟩ := ih
    exact ⟨l, inv_start hi.inv (control_call hc), hi.acts, hi.fan, hi.enable, hi.reg⟩
  | step _ hn ih =>
    obtain ⟨l, hi⟩ := ih
    exact ⟨l, inv_step hi.inv hn, hi.acts, hi.fan, hi.enable, (step_reg ..).trans hi.reg⟩
  | @finish h s c pc _ hn ih =>
    obtain ⟨l, hi⟩ := ih
    exact ⟨l, inv_finish hi.inv hn, hi.acts, hi.fan, hi.enable, (step_reg ..).trans hi.reg⟩
  | engine _ ih =>
    obtain ⟨l, hi⟩ := ih
    exact ⟨l, inv_engine hs hi.inv, hi.acts, hi.fan, hi.enable,
      (engine_reg hs hi.inv.headers hi.inv.posn).trans hi.reg⟩
  | @fan h c s pc _ on ih =>
    obtain ⟨l, hi⟩ := ih
    have hl : ∀ q, (fanControl p on s.w.gpio).latch q =
        if q = p.fan then on else s.w.gpio.latch q := by
      intro q
      unfold fanControl
      cases on
      · exact latch_clear (fan_lt hp) _ _
      · exact latch_set' (fan_lt hp) _ _
    refine ⟨_, inv_gpio hi.inv (fanControl p on) (· = p.fan) ?_ ?_, fun a => ?_, ?_, ?_, ?_⟩
    · rintro q rfl; exact ⟨hfan h, hcall c _ hA.2.1⟩
    · intro q hq; rw [hl, if_neg hq]
    · simp only [if_neg (hA.2.1 a)]; exact hi.acts a
    · simp [hl, fanOn]
    · simp only [if_neg hfe.symm]; exact hi.enable
    · simp only [onGpio]
      rw [← hi.reg]
      unfold fanControl
      split
      · rw [Props.C47_set _ (by have := fan_lt hp; omega)]
      · rw [Props.C47_clear _ (by have := fan_lt hp; omega)]
  | @enable h c s pc _ ih =>
    obtain ⟨l, hi⟩ := ih
    have hl := latch_clear (enable_lt hp) s.w.gpio
    refine ⟨_, inv_gpio hi.inv (enableSteppers p) (· = p.enable) ?_ ?_, fun a => ?_, ?_, ?_, ?_⟩
    · rintro q rfl; exact ⟨hen h, hcall c _ fun a => hA.2.2.1 _ (act_power p a)⟩
    · intro q hq; exact (hl q).trans (if_neg hq)
    · simp only [if_neg (hA.2.2.1 _ (act_power p a))]; exact hi.acts a
    · simp only [if_neg hfe]; exact hi.fan
    · simp only [if_true]; exact (hl p.enable).trans (by simp [steppersOn])
    · simp only [onGpio, enableSteppers]
      rw [Props.C47_clear _ (by have := enable_lt hp; omega)]
      exact hi.reg
  | @disable h c s pc _ ih =>
    obtain ⟨l, hi⟩ := ih
    have hl := latch_set' (enable_lt hp) s.w.gpio
    refine ⟨_, inv_gpio hi.inv (disableSteppers p) (· = p.enable) ?_ ?_, fun a => ?_, ?_, ?_, ?_⟩
    · rintro q rfl; exact ⟨hen h, hcall c _ fun a => hA.2.2.1 _ (act_power p a)⟩
    · intro q hq; exact (hl q).trans (if_neg hq)
    · simp only [if_neg (hA.2.2.1 _ (act_power p a))]; exact hi.acts a
    · simp only [if_neg hfe]; exact hi.fan
    · simp only [if_true]; exact (hl p.enable).trans (by simp [steppersOn])
    · simp only [onGpio, disableSteppers]
      rw [Props.C47_set _ (by have := enable_lt hp; omega)]
      exact hi.reg
  | @motor h c s pc _ off m ho hm ih =>
    obtain ⟨l, hi⟩ := ih
    have hw := write_out s.w.gpio ho m
    have hmot : ∀ q ∈ motorPins p, (∀ a : Act, a.pin p ≠ q) := fun q hq a h =>
      (hA.2.2.2 q hq).1 (h ▸ act_power p a)
    refine ⟨_, inv_gpio hi.inv (fun g => g.write off m)
      (fun q => q ∈ motorPins p ∨ (32 ≤ q ∧ q % 32 ∈ motorPins p)) ?_ ?_, fun a => ?_, ?_, ?_, ?_⟩
    · rintro q (hq | ⟨hq, -⟩)
      · exact ⟨want_hist_none (hmot q hq) h, hcall c _ (hmot q hq)⟩
      · have : ∀ a : Act, a.pin p ≠ q := fun a => by
          have := power_lt hp (act_power p a); omega
        exact ⟨want_hist_none this h, hcall c _ this⟩
    · intro q hq
      refine hw.2.2 q ?_
      by_contra hc
      have := hm (q % 32) (by simpa using hc)
      by_cases h32 : q < 32
      · rw [Nat.mod_eq_of_lt h32] at this; exact hq (.inl this)
      · exact hq (.inr ⟨by omega, this⟩)
    · have h1 : ¬ (a.pin p ∈ motorPins p ∨ (32 ≤ a.pin p ∧ a.pin p % 32 ∈ motorPins p)) := by
        have := power_lt hp (act_power p a)
        rintro (h | ⟨h, -⟩)
        · exact hmot _ h a rfl
        · omega
      simp only [if_neg h1]; exact hi.acts a
    · have h1 : ¬ (p.fan ∈ motorPins p ∨ (32 ≤ p.fan ∧ p.fan % 32 ∈ motorPins p)) := by
        have := fan_lt hp
        rintro (h | ⟨h, -⟩)
        · exact (hA.2.2.2 _ h).1 (by simp [powerPins])
        · omega
      simp only [if_neg h1]; exact hi.fan
    · have h1 : ¬ (p.enable ∈ motorPins p ∨ (32 ≤ p.enable ∧ p.enable % 32 ∈ motorPins p)) := by
        have := enable_lt hp
        rintro (h | ⟨h, -⟩)
        · exact (hA.2.2.2 _ h).2 rfl
        · omega
      simp only [if_neg h1]; exact hi.enable
    · exact hw.1.trans hi.reg

end Pi

end PyCNC
