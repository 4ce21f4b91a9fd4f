import Verif.Props.Calibrate

/-!
# Property C105: how long a calibration looks for the endstops

Exact arithmetic.
-/

namespace PyCNC.Props

open PyCNC Spec

section generic

variable {F : Type} [PyNum F]

theorem pass_late {c : Cfg} {b : Buf} {p : Pins} {env : CalEnv F} {inv : XYZ Bool}
    {endTime : F} {delay : Int} {pins : Nat} {last : Int} {s s' : CalSt}
    (h : Cal.pass c p b env inv endTime delay pins last s = (s', .stop (.ret false))) :
    (env.clock s'.k <ₚ endTime) = false := by
  unfold Cal.pass at h
  simp only [] at h
  split at h
  · exfalso
    revert h
    generalize Cal.lookAll p b env inv _ = r3
    generalize (if r3.1.x = true then Cal.without pins (2 ^ p.step.x) else pins) = px
    generalize (if r3.1.y = true then Cal.without px (2 ^ p.step.y) else px) = py
    generalize (if r3.1.z = true then Cal.without py (2 ^ p.step.z) else py) = pz
    split
    · split
      · simp
      · split
        · simp
        · split <;> simp
    · split <;> simp
  · rename_i hc
    cases h
    simpa using hc

theorem loop_late {c : Cfg} {b : Buf} (hb : b.Ok) {p : Pins} (hp : CalPins p)
    {req : XYZ Bool} {want : Ax3 → Bool} {d ops0 : List CalOp} (env : CalEnv F) (endTime : F)
    (delay : Int) (n : Nat) :
    ∀ {pins : Nat} {last : Int} {h : List CalOp} {s s' : CalSt},
      Cal.K b p req want d ops0 pins last h s →
      Cal.loop c p b env ⟨want .x, want .y, want .z⟩ endTime delay n pins last s = (s', .ret false) →
      s.k < s'.k ∧ (env.clock s'.k <ₚ endTime) = false := by
  induction n with
  | zero => intro _ _ _ _ _ _ h; cases h
  | succ n ih =>
    intro pins last h s s' hk hl
    have hps := Cal.pass_ok (c := c) hb hp env hk endTime delay
    rw [Cal.loop] at hl
    revert hps hl
    generalize hr : Cal.pass c p b env ⟨want .x, want .y, want .z⟩ endTime delay pins last s = r
    obtain ⟨s1, r⟩ := r
    cases r with
    | stop r =>
      intro hl hps
      simp only [] at hl
      cases hl
      exact ⟨hps.1, pass_late hr⟩
    | again pins' last' =>
      rintro hl ⟨h1, h', hk'⟩
      simp only [] at hl h1
      obtain ⟨h2, h3⟩ := ih hk' hl
      have h4 : s1.k < s'.k := h2
      exact ⟨by omega, h3⟩

theorem loop_k {c : Cfg} {b : Buf} (hb : b.Ok) {p : Pins} (hp : CalPins p)
    {req : XYZ Bool} {want : Ax3 → Bool} {d ops0 : List CalOp} (env : CalEnv F) (endTime : F)
    (delay : Int) (n : Nat) :
    ∀ {pins : Nat} {last : Int} {h : List CalOp} {s : CalSt},
      Cal.K b p req want d ops0 pins last h s →
      s.k ≤ (Cal.loop c p b env ⟨want .x, want .y, want .z⟩ endTime delay n pins last s).1.k := by
  induction n with
  | zero => intro _ _ _ _ _; exact le_rfl
  | succ n ih =>
    intro pins last h s hk
    have hps := Cal.pass_ok (c := c) hb hp env hk endTime delay
    rw [Cal.loop]
    revert hps
    generalize Cal.pass c p b env ⟨want .x, want .y, want .z⟩ endTime delay pins last s = r
    obtain ⟨s1, r⟩ := r
    cases r with
    | stop r => exact fun hps => hps.1.le
    | again pins' last' =>
      rintro ⟨h1, h', hk'⟩
      exact h1.le.trans (ih hk')

theorem phase_k {c : Cfg} {cc : CalCfg} {p : Pins} (hp : CalPins p) {b : Buf}
    (hb : b.Ok) {env : CalEnv F} {fuel : Nat} {req : XYZ Bool} {invert : Bool} {s : CalSt}
    (h : s.cb = 0) : s.k ≤ (Cal.phase c cc p b env fuel req invert s).1.k := by
  have hk := Cal.before_K (c := c) (cc := cc) hp (b := b) (env := env) (req := req)
    (invert := invert) h
  obtain ⟨-, -, hbk⟩ := Cal.before_idle (c := c) (p := p) (b := b) (env := env) (invert := invert) h
  rw [Cal.phase_eq]
  split
  · exact le_trans (by omega) (loop_k hb hp env _ _ fuel hk)
  · change s.k ≤ (Cal.before c p b env invert s).k
    omega

end generic

variable [PyRound]

/-- The way from one end of the table to the other, in steps. -/
def tableSteps (c : Cfg) : Ax3 → ℚ
  | .x => c.tableX * c.ppm.x
  | .y => c.tableY * c.ppm.y
  | .z => c.tableZ * c.ppm.z

/-- Steps per second: the calibration velocity at the mean number of steps per mm. -/
def calRate (c : Cfg) (cc : CalCfg) : ℚ := cc.vel / 60 * ((c.ppm.x + c.ppm.y + c.ppm.z) / 3)

theorem maxSize_le {c : Cfg} {req : XYZ Bool} {a : Ax3} (ha : at3 req a = true) :
    ((tableSteps c a : ℚ) : ℝ) ≤ Cal.maxSize c req := by
  simp only [Cal.maxSize, ofRat_eq, mul_eq, pmax_eq]
  cases a <;> simp only [at3] at ha <;> simp only [tableSteps, ha, if_true] <;> push_cast
  · split <;> split
    · exact ((le_max_right _ _).trans (le_max_left _ _)).trans (le_max_left _ _)
    · exact (le_max_right _ _).trans (le_max_left _ _)
    · exact (le_max_right _ _).trans (le_max_left _ _)
    · exact le_max_right _ _
  · split
    · exact (le_max_right _ _).trans (le_max_left _ _)
    · exact le_max_right _ _
  · exact le_max_right _ _

theorem phase_late {c : Cfg} {cc : CalCfg} (hr : 0 < calRate c cc) {p : Pins} (hp : CalPins p) {b : Buf}
    (hb : b.Ok) {env : CalEnv ℝ} {fuel : Nat} {req : XYZ Bool} {invert : Bool} {s s' : CalSt}
    (h : s.cb = 0) (hf : Cal.phase c cc p b env fuel req invert s = (s', .ret false)) :
    s.k < s'.k ∧ ∃ k, s.k < k ∧ k < s'.k ∧ ∀ a, at3 req a = true →
      ((6 / 5 * tableSteps c a : ℚ) : ℝ) ≤ (env.clock s'.k - env.clock k) * (calRate c cc : ℚ) := by
  have hk := Cal.before_K (c := c) (cc := cc) hp (b := b) (env := env) (req := req)
    (invert := invert) h
  obtain ⟨-, -, hbk⟩ := Cal.before_idle (c := c) (p := p) (b := b) (env := env) (invert := invert) h
  have hpp : (Cal.pulsesPerSec c cc : ℝ) = (calRate c cc : ℚ) := by
    simp only [Cal.pulsesPerSec, calRate, ofRat_eq, mul_eq, div_eq, add_eq]
    push_cast
    rfl
  have hr' : (0 : ℝ) < (calRate c cc : ℚ) := by exact_mod_cast hr
  rw [Cal.phase_eq, hpp, pdiv_ok hr'.ne', pdiv_ok hr'.ne'] at hf
  simp only [] at hf
  obtain ⟨h1, h2⟩ := loop_late hb hp env _ _ fuel hk hf
  refine ⟨by omega, _, by omega, h1, fun a ha => ?_⟩
  rw [lt_false_iff, add_eq] at h2
  have h3 : (PyNum.ofRat (12 / 10) *ₚ Cal.maxSize c req : ℝ) / (calRate c cc : ℚ) ≤
      env.clock s'.k - env.clock (Cal.before c p b env invert s).k := by linarith
  rw [div_le_iff₀ hr', mul_eq, ofRat_eq] at h3
  refine le_trans ?_ h3
  have := maxSize_le (c := c) ha
  push_cast
  norm_num
  linarith

/-- **C105.** A calibration reports failure only if, since some moment `k` during it, so much time has passed
that at its pulse rate 1.2 times the pulses of the whole table could be sent along each requested axis. -/
theorem C105_patience {c : Cfg} {cc : CalCfg} (hr : 0 < calRate c cc) {p : Pins} (hp : CalPins p) {b : Buf}
    (hb : BufOk b) {env : CalEnv ℝ} {fuel : Nat} {req : XYZ Bool} {s s' : CalSt} (h : s.cb = 0)
    (hf : Cal.calibrate c cc p b env fuel req s = (s', .ret false)) :
    ∃ k, s.k < k ∧ k < s'.k ∧ ∀ a, at3 req a = true →
      ((6 / 5 * tableSteps c a : ℚ) : ℝ) ≤ (env.clock s'.k - env.clock k) * (calRate c cc : ℚ) := by
  have hb' := bufOk_ok hb
  obtain ⟨k1, -, k3⟩ := Cal.direct_idle (b := b) (env := env) (pin := p.enable) (inverted := true) h
  rw [Cal.direct, if_pos rfl] at k1 k3
  unfold Cal.calibrate at hf
  simp only [] at hf
  obtain ⟨h1, f1⟩ := Cal.phase_fin (c := c) (cc := cc) hp hb' (env := env) (fuel := fuel)
    (req := req) (invert := true) k1
  have ha := f1.all
  have hk1 := phase_k (c := c) (cc := cc) hp hb' (env := env) (fuel := fuel) (req := req) (invert := true) k1
  have hl1 := fun s' => phase_late (s' := s') hr hp hb' (env := env) (fuel := fuel) (req := req)
    (invert := true) k1
  revert hf ha hk1 hl1
  generalize Cal.phase c cc p b env fuel req true (Cal.clearPin b env p.enable s) = q
  obtain ⟨s1, e1⟩ := q
  intro hf ha hk1 hl1
  have hk1' : (Cal.clearPin b env p.enable s).k ≤ s1.k := hk1
  by_cases he : e1 = .ret true
  · subst he
    obtain ⟨-, k, h2, h3, h4⟩ := phase_late hr hp hb' (ha rfl).1 hf
    exact ⟨k, by omega, h3, h4⟩
  · have hq : (s1, e1) = (s', CalEnd.ret false) := by
      rw [← hf]
      cases e1 with
      | ret x => cases x with
        | true => exact absurd rfl he
        | false => rfl
      | raised e => rfl
      | running => rfl
    obtain ⟨-, k, h2, h3, h4⟩ := hl1 s' hq
    exact ⟨k, by omega, h3, h4⟩

/-- The pulses of the calibration are `delay + STEPPER_PULSE_LENGTH_US` apart (`hal.py:155,187-189`), more than the
rate says. If the pulse is no longer than a fifth of the time between two pulses, the time before the calibration
gives up is still enough for the pulses of the whole table along each requested axis. -/
theorem C105_pulses {c : Cfg} {cc : CalCfg} (hr : 0 < calRate c cc) {len : ℕ}
    (hl : len * calRate c cc ≤ 200000) {p : Pins} (hp : CalPins p) {b : Buf}
    (hb : BufOk b) {env : CalEnv ℝ} {fuel : Nat} {req : XYZ Bool} {s s' : CalSt} (h : s.cb = 0)
    (hf : Cal.calibrate c cc p b env fuel req s = (s', .ret false)) :
    ∃ k, s.k < k ∧ k < s'.k ∧ ∀ a, at3 req a = true → 0 ≤ tableSteps c a →
      ((tableSteps c a * (⌊1000000 / calRate c cc⌋ + len) : ℚ) : ℝ) ≤
        (env.clock s'.k - env.clock k) * 1000000 := by
  obtain ⟨k, h1, h2, h3⟩ := C105_patience hr hp hb h hf
  refine ⟨k, h1, h2, fun a ha h0 => ?_⟩
  have h4 := h3 a ha
  have hr' : (0 : ℝ) < (calRate c cc : ℚ) := by exact_mod_cast hr
  have h5 : ((⌊1000000 / calRate c cc⌋ : ℚ) + len) * calRate c cc ≤ 1200000 := by
    have := Int.floor_le (1000000 / calRate c cc)
    rw [le_div_iff₀ hr] at this
    linarith
  have h6 := mul_le_mul_of_nonneg_left h5 h0
  have h7 : ((tableSteps c a * (⌊1000000 / calRate c cc⌋ + len) : ℚ) : ℝ) * (calRate c cc : ℚ) ≤
      ((tableSteps c a * 1200000 : ℚ) : ℝ) := by
    rw [← Rat.cast_mul]
    exact Rat.cast_le.2 (by rw [mul_assoc]; exact h6)
  refine le_of_mul_le_mul_right (le_trans h7 ?_) hr'
  push_cast at h4 ⊢
  linarith

/-- The further hypothesis of `C105_pulses` is met by the settings of `config.py`: 1000 pulses per second of 2 us. -/
example : ((2 : ℕ) : ℚ) * calRate Cfg.default CalCfg.default ≤ 200000 ∧ ∀ a, 0 ≤ tableSteps Cfg.default a :=
  ⟨by norm_num [calRate, Cfg.default, CalCfg.default], by rintro (_ | _ | _) <;> norm_num [tableSteps, Cfg.default]⟩

/-- The hypotheses of `C105_patience` are met: the settings of `config.py` give 1000 steps per second and 20000 steps
along X, so X is sought for 24 s.  When the clock jumps, a calibration does give up. -/
example : calRate Cfg.default CalCfg.default = 1000 ∧ tableSteps Cfg.default .x = 20000 ∧
    CalPins Pins.default ∧ BufOk exBuf ∧
    ∃ (env : CalEnv ℝ) (s s' : CalSt), s.cb = 0 ∧
      Cal.calibrate Cfg.default CalCfg.default Pins.default exBuf env 1 exReqX s = (s', .ret false) := by
  refine ⟨by norm_num [calRate, Cfg.default, CalCfg.default], by norm_num [tableSteps, Cfg.default],
    exCalPins, exBuf_ok, ⟨fun k => if k ≤ 5 then 0 else 1000000, fun _ _ => true, fun _ => 0⟩,
    exCalSt ⟨fun _ => 0#32, fun _ => false, fun _ => 0#2, fun _ => 0#32⟩, ?_⟩
  generalize henv : (⟨fun k => if k ≤ 5 then 0 else 1000000, fun _ _ => true, fun _ => 0⟩ : CalEnv ℝ) = env
  have hclk : ∀ k, env.clock k = if k ≤ 5 then 0 else 1000000 := by rw [← henv]; intro k; rfl
  generalize hs0 : exCalSt ⟨fun _ => 0#32, fun _ => false, fun _ => 0#2, fun _ => 0#32⟩ = s0
  obtain ⟨c1, -, k1⟩ := Cal.direct_idle (b := exBuf) (env := env) (pin := Pins.default.enable)
    (inverted := true) (s := s0) (by rw [← hs0]; rfl)
  rw [Cal.direct, if_pos rfl] at c1 k1
  rw [show s0.k = 0 by rw [← hs0]; rfl] at k1
  obtain ⟨c2, -, k2⟩ := Cal.before_idle (c := Cfg.default) (p := Pins.default) (b := exBuf)
    (env := env) (invert := true) c1
  rw [k1] at k2
  have hcb : s0.cb = 0 := by rw [← hs0]; rfl
  suffices h : ∃ s', Cal.calibrate Cfg.default CalCfg.default Pins.default exBuf env 1 exReqX s0 =
      (s', .ret false) from h.imp fun _ h => ⟨hcb, h⟩
  unfold Cal.calibrate
  simp only [exPhase]
  generalize Cal.before Cfg.default Pins.default exBuf env true
    (Cal.clearPin exBuf env Pins.default.enable s0) = s2 at *
  have hpass : Cal.pass Cfg.default Pins.default exBuf env
      ⟨Cal.wantOf CalCfg.default true .x, Cal.wantOf CalCfg.default true .y,
        Cal.wantOf CalCfg.default true .z⟩ (env.clock s2.k + 24) 1000 (2 ^ 21) (-(2 ^ 21) - 1) s2 =
      (Cal.sync exBuf env s2, .stop (.ret false)) := by
    unfold Cal.pass
    have hk : (Cal.sync exBuf env s2).k = s2.k + 1 := rfl
    simp only []
    rw [if_neg]
    rw [lt_iff, hk, hclk, hclk, k2]
    norm_num
  rw [Cal.loop, hpass]
  exact ⟨_, rfl⟩

end PyCNC.Props
