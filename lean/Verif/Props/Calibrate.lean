import Verif.Lemmas.Calibrate
import Verif.Lemmas.Exact
import Verif.Lemmas.LinearNew
import Verif.Props.Dma

/-!
# Endstop calibration
-/

namespace PyCNC.Props

open PyCNC Spec

section Examples

theorem exCalPins : CalPins Pins.default where
  step_inj := by intro a a'; cases a <;> cases a' <;> simp [stepPin, Pins.default]
  dir_inj := by intro a a'; cases a <;> cases a' <;> simp [dirPin, Pins.default]
  stop_inj := by intro a a'; cases a <;> cases a' <;> simp [stopPin, Pins.default]
  step_dir := by intro a a'; cases a <;> cases a' <;> simp [stepPin, dirPin, Pins.default]
  step_enable := by intro a; cases a <;> simp [stepPin, Pins.default]
  dir_enable := by intro a; cases a <;> simp [dirPin, Pins.default]
  step_lt := by intro a; cases a <;> simp [stepPin, Pins.default]
  dir_lt := by intro a; cases a <;> simp [dirPin, Pins.default]
  enable_lt := by decide

/-- A machine at rest. -/
def exCalSt (g : GpioHw) : CalSt := ⟨⟨fun _ => 0#32, g, [], 0⟩, 0, 0, 0, []⟩

/-- Only X is to be calibrated. -/
abbrev exReqX : XYZ Bool := ⟨true, false, false⟩

/-- The blocks of a program for X: pulses, 1.002 ms apart. -/
def exProg (N : Nat) : List Blk := (List.replicate N (Cal.unit (2 ^ 21) 2 1000)).flatten

theorem exProg_length (N : Nat) : (exProg N).length = 4 * N := by
  induction N with
  | zero => rfl
  | succ N ih =>
    rw [exProg, List.replicate_succ, List.flatten_cons, List.length_append]
    rw [exProg] at ih
    rw [ih, Cal.unit]
    simp only [List.length_cons, List.length_nil]
    omega

/-- The engine is started. -/
theorem start_prog {F : Type} {b : Buf} {env : CalEnv F} {s : CalSt} (h : s.cb = 0)
    (ha : s.addr ≠ 0) : ∃ s', Cal.runIfIdle b env (Cal.finalize b env s) = .ok s' ∧
      s'.cb = b.base ∧ s'.w.mem = (DmaGpio.finalize ⟨s.w.mem, s.addr⟩).mem ∧ s.k ≤ s'.k ∧
      s'.w.gpio = s.w.gpio := by
  have hf : ∀ s : CalSt, s.cb = 0 → Cal.finalize b env s =
      { s with w := { s.w with mem := (DmaGpio.finalize ⟨s.w.mem, s.addr⟩).mem, log := [] },
               k := s.k + 1 } := by
    intro s h
    unfold Cal.finalize
    rw [Cal.sync_idle h]
  rw [hf s h]
  unfold Cal.runIfIdle
  rw [Cal.sync_idle (by exact h)]
  simp only [h, if_true, ha, if_false]
  rw [hf _ (by rfl), Cal.sync_idle (by rfl)]
  simp only []
  exact ⟨_, rfl, rfl, finalize_idem ⟨s.w.mem, s.addr⟩, by simp only []; omega, rfl⟩

/-- The first pass of the loop, when the endstop has not been reached yet. -/
theorem first_pass {F : Type} [PyNum F] {env : CalEnv F} {inv : XYZ Bool} {endTime : F} {s : CalSt}
    {N : Nat} (hN : N = 999) (h : s.cb = 0) (hclk : (env.clock (s.k + 1) <ₚ endTime) = true)
    (hlev : (env.level (s.k + 2) 23 == inv.x) = false) :
    ∃ s' d, Cal.pass Cfg.default Pins.default exBuf env inv endTime 1000 (2 ^ 21) (-(2 ^ 21) - 1) s =
        (s', .again (2 ^ 21) (2 ^ 21)) ∧ s'.cb = exBuf.base ∧ Holds exBuf d (exProg N) ∧
      s'.w.mem = (DmaGpio.finalize d).mem ∧ s.k + 2 < s'.k ∧ s'.w.gpio = s.w.gpio := by
  have e1 : ((2 ^ Pins.default.step.x &&& 2 ^ 21 != 0 : Bool)) = true := by decide
  have e2 : ((2 ^ Pins.default.step.y &&& 2 ^ 21 != 0 : Bool)) = false := by decide
  have e3 : ((2 ^ Pins.default.step.z &&& 2 ^ 21 != 0 : Bool)) = false := by decide
  unfold Cal.pass
  obtain ⟨fuel, hf⟩ : ∃ n, n = 1000000 + exBuf.size := ⟨_, rfl⟩
  rw [← hf]
  rw [Cal.sync_idle h]
  simp only [hclk, if_true]
  simp only [e1, e2, e3, Cal.lookAll, Cal.look, if_true, Bool.false_eq_true, if_false]
  rw [Cal.sync_idle (by exact h)]
  simp only [show Pins.default.stopX = 23 from rfl]
  simp only [show s.k + 1 + 1 = s.k + 2 from rfl, hlev, Bool.false_eq_true, if_false]
  rw [if_pos (by norm_num), if_neg (by norm_num)]
  unfold Cal.stop
  rw [Cal.sync_idle (by exact h)]
  simp only []
  have hlen : Cfg.default.pulseLenUs = 2 := rfl
  obtain ⟨s1, hs1, hc1, -, hk1, hg1, hh1⟩ := Cal.fill_exact (c := Cfg.default) (env := env)
    (b := exBuf) (delay := 1000) (pins := 2 ^ 21) (by norm_num) (by norm_num) (by norm_num)
    (by norm_num) (by norm_num [hlen]) N fuel 1000000
    ⟨{ s.w with log := [] }, 0, 0, s.k + 1 + 1 + 1, .stop :: .read 23 (env.level (s.k + 2) 23) :: s.ops⟩
    [] rfl ⟨rfl, by simp, fun i hi => absurd hi (Nat.not_lt_zero _)⟩
    (by omega) (by rw [hlen]; push_cast; omega) (by rw [hlen]; push_cast; omega)
    (by simp only []; omega)
  rw [hs1]
  simp only []
  rw [List.nil_append] at hh1
  have ha : s1.addr ≠ 0 := by
    have := hh1.1
    change s1.addr = 32 * (exProg N).length at this
    rw [exProg_length] at this
    omega
  obtain ⟨s2, h1, h2, h3, h4, h5⟩ := start_prog (b := exBuf) (env := env) hc1 ha
  rw [h1]
  refine ⟨s2, ⟨s1.w.mem, s1.addr⟩, rfl, h2, hh1, h3, ?_, h5.trans hg1⟩
  simp only [] at hk1
  omega

/-- The engine completes one block before each action. -/
theorem sync_one {F : Type} {b : Buf} (hb : b.Ok) {env : CalEnv F} {s : CalSt} {d : DmaSt}
    {l : List Blk} (hh : Holds b d l) (hbl : env.blocks s.k = 1) {i : Nat} (hi : i + 1 < l.length)
    (hm : s.w.mem = (DmaGpio.finalize d).mem) (hcb : s.cb = b.base + 32 * i) :
    (Cal.sync b env s).w.mem = (DmaGpio.finalize d).mem ∧
    (Cal.sync b env s).cb = b.base + 32 * (i + 1) ∧ (Cal.sync b env s).k = s.k + 1 ∧
    (Cal.sync b env s).w.gpio = (Blk.eff { s.w with log := [] } l[i]).gpio := by
  unfold Cal.sync
  simp only [hcb, hbl]
  rw [run_fin hb hh 1 i { s.w with log := [] } (by omega) hm, if_pos (by omega), List.drop_eq_getElem_cons (by omega),
    List.take_succ_cons, List.take_zero]
  exact ⟨by rw [List.foldl_cons, List.foldl_nil, eff_mem, hm], by trivial, by trivial, by trivial⟩

/-- The endstop of X is at the wanted level. -/
theorem look_hit {F : Type} {b : Buf} (hb : b.Ok) {env : CalEnv F} {s : CalSt} {d : DmaSt}
    {l : List Blk} (hh : Holds b d l) (hbl : env.blocks s.k = 1) {i : Nat} (hi : i + 1 < l.length)
    (hm : s.w.mem = (DmaGpio.finalize d).mem) (hcb : s.cb = b.base + 32 * i) {inv : Bool}
    {p : Pins} (hlev : env.level (s.k + 1) p.stopX = inv) {v : XYZ Bool} (hv : v.x = true)
    (hy : v.y = false) (hz : v.z = false) :
    (Cal.lookAll p b env ⟨inv, y, z⟩ (v, s)).1 = ⟨true, false, false⟩ ∧
    (Cal.lookAll p b env ⟨inv, y, z⟩ (v, s)).2.w.mem = (DmaGpio.finalize d).mem ∧
    (Cal.lookAll p b env ⟨inv, y, z⟩ (v, s)).2.cb = b.base + 32 * (i + 1) ∧
    (Cal.lookAll p b env ⟨inv, y, z⟩ (v, s)).2.k = s.k + 1 := by
  obtain ⟨h1, h2, h3, -⟩ := sync_one hb hh hbl hi hm hcb
  simp only [Cal.lookAll, Cal.look, hv, hy, hz, if_true, Bool.false_eq_true, if_false, h3, hlev, h1,
    h2, beq_self_eq_true]
  trivial

/-- A pass in which the endstop of X is found at the wanted level, while the engine is at work and
completes one block before each action of the CPU: it is stopped just after it has raised the step
pin. -/
theorem last_pass {F : Type} [PyNum F] {env : CalEnv F} {inv : XYZ Bool} {endTime : F} {s : CalSt}
    {N : Nat} (hN : N = 999) {d : DmaSt} (hh : Holds exBuf d (exProg N))
    (hcb : s.cb = exBuf.base) (hm : s.w.mem = (DmaGpio.finalize d).mem)
    (hbl : ∀ k, env.blocks k = 1) (hclk : (env.clock (s.k + 1) <ₚ endTime) = true)
    (hlev : ∀ k ≥ s.k, env.level k 23 = inv.x) :
    ∃ s', Cal.pass Cfg.default Pins.default exBuf env inv endTime 1000 (2 ^ 21) (2 ^ 21) s =
      (s', .stop (.ret true)) ∧ s'.w.gpio.latch 21 = true := by
  have hb := bufOk_ok exBuf_ok
  have hl := exProg_length N
  have e1 : ((2 ^ Pins.default.step.x &&& 2 ^ 21 != 0 : Bool)) = true := by decide
  have e2 : ((2 ^ Pins.default.step.y &&& 2 ^ 21 != 0 : Bool)) = false := by decide
  have e3 : ((2 ^ Pins.default.step.z &&& 2 ^ 21 != 0 : Bool)) = false := by decide
  unfold Cal.pass
  obtain ⟨fuel, hf⟩ : ∃ n, n = 1000000 + exBuf.size := ⟨_, rfl⟩
  rw [← hf]
  obtain ⟨m1, c1, k1, -⟩ := sync_one hb hh (hbl s.k) (i := 0) (by omega) hm hcb
  simp only [k1, hclk, if_true, e1, e2, e3]
  obtain ⟨v2, m2, c2, k2⟩ := look_hit (y := inv.y) (z := inv.z) hb hh (hbl _) (i := 1)
    (by omega) m1 c1 (inv := inv.x)
    (p := Pins.default) (by rw [k1]; exact hlev _ (by omega)) (v := ⟨true, false, false⟩) rfl rfl rfl
  generalize Cal.lookAll Pins.default exBuf env ⟨inv.x, inv.y, inv.z⟩ (⟨true, false, false⟩, Cal.sync exBuf env s) = r2 at *
  obtain ⟨w2, s2⟩ := r2
  simp only [] at v2 m2 c2 k2
  subst v2
  obtain ⟨v3, m3, c3, k3⟩ := look_hit (y := inv.y) (z := inv.z) hb hh (hbl _) (i := 2)
    (by omega) m2 c2 (inv := inv.x)
    (p := Pins.default) (by rw [k2, k1]; exact hlev _ (by omega)) (v := ⟨true, false, false⟩)
    rfl rfl rfl
  generalize Cal.lookAll Pins.default exBuf env ⟨inv.x, inv.y, inv.z⟩ (⟨true, false, false⟩, s2) = r3 at *
  obtain ⟨w3, s3⟩ := r3
  simp only [] at v3 m3 c3 k3
  subst v3
  obtain ⟨v4, m4, c4, k4⟩ := look_hit (y := inv.y) (z := inv.z) hb hh (hbl _) (i := 3)
    (by omega) m3 c3 (inv := inv.x)
    (p := Pins.default) (by rw [k3, k2, k1]; exact hlev _ (by omega)) (v := ⟨true, false, false⟩)
    rfl rfl rfl
  generalize Cal.lookAll Pins.default exBuf env ⟨inv.x, inv.y, inv.z⟩ (⟨true, false, false⟩, s3) = r4 at *
  obtain ⟨w4, s4⟩ := r4
  simp only [] at v4 m4 c4 k4
  subst v4
  obtain ⟨m5, c5, k5, g5⟩ := sync_one hb hh (hbl s4.k) (i := 4) (by omega) m4 c4
  have e4 : Cal.without (2 ^ 21) (2 ^ Pins.default.step.x) = 0 := by decide
  simp only [e4, if_true, Bool.false_eq_true, if_false, Cal.stop]
  rw [if_pos (by norm_num)]
  refine ⟨_, rfl, ?_⟩
  simp only [g5]
  have e5 : (exProg N)[4]'(by omega) = .sc (2 ^ 21) 0 := by
    obtain ⟨M, rfl⟩ : ∃ M, N = M + 2 := ⟨N - 2, by omega⟩
    simp only [exProg, List.replicate_succ, List.flatten_cons, Cal.unit, List.cons_append,
      List.nil_append, List.getElem_cons_succ, List.getElem_cons_zero]
  rw [e5]
  simp [Blk.eff, GpioHw.write, gpioSet, gpioClear]

/-- A pass in which the endstop of X is found at the wanted level at once. -/
theorem idle_pass {F : Type} [PyNum F] {env : CalEnv F} {inv : XYZ Bool} {endTime : F} {s : CalSt}
    (h : s.cb = 0) (hclk : (env.clock (s.k + 1) <ₚ endTime) = true)
    (hlev : ∀ k ≤ s.k + 4, env.level k 23 = inv.x) :
    ∃ s', Cal.pass Cfg.default Pins.default exBuf env inv endTime 1000 (2 ^ 21) (-(2 ^ 21) - 1) s =
      (s', .stop (.ret true)) ∧ s'.cb = 0 ∧ s'.k = s.k + 5 ∧ s'.w.gpio = s.w.gpio := by
  have e1 : ((2 ^ Pins.default.step.x &&& 2 ^ 21 != 0 : Bool)) = true := by decide
  have e2 : ((2 ^ Pins.default.step.y &&& 2 ^ 21 != 0 : Bool)) = false := by decide
  have e3 : ((2 ^ Pins.default.step.z &&& 2 ^ 21 != 0 : Bool)) = false := by decide
  have e4 : Cal.without (2 ^ 21) (2 ^ Pins.default.step.x) = 0 := by decide
  have hx : Pins.default.stopX = 23 := rfl
  unfold Cal.pass
  obtain ⟨fuel, hf⟩ : ∃ n, n = 1000000 + exBuf.size := ⟨_, rfl⟩
  rw [← hf, Cal.sync_idle h]
  simp only [hclk, if_true]
  simp only [e1, e2, e3, Cal.lookAll, Cal.look, if_true, Bool.false_eq_true, if_false]
  rw [Cal.sync_idle (by exact h)]
  simp only [hx, hlev (s.k + 1 + 1) (by omega), beq_self_eq_true, if_true]
  rw [Cal.sync_idle (by exact h)]
  simp only [hlev (s.k + 1 + 1 + 1) (by omega), beq_self_eq_true, if_true]
  rw [Cal.sync_idle (by exact h)]
  simp only [hlev (s.k + 1 + 1 + 1 + 1) (by omega), beq_self_eq_true, if_true, e4, Cal.stop]
  rw [if_pos (by norm_num), Cal.sync_idle (by exact h)]
  exact ⟨_, rfl, rfl, rfl, rfl⟩

end Examples

variable {F : Type} [PyNum F]

/-- **C52.** A calibration that starts while the engine is at rest enables the motors and has one or
two phases: the first drives the requested axes away from their endstops until these show the
opposite of the level of the zero position, the second back until they show it.  In either phase
only the step pins of the requested axes are written after the directions, only their endstops are
read, the engine is stopped as soon as an endstop was read as wanted three times in a row, and from
that stop on the axis gets no more steps.  The second phase starts only after all requested axes have
completed the first.  `True` is returned only after all requested axes have completed both, and
then the engine is at rest. -/
theorem C52_calibrate {c : Cfg} {cc : CalCfg} {p : Pins} (hp : CalPins p) {b : Buf} (hb : BufOk b)
    (env : CalEnv F) (fuel : Nat) (req : XYZ Bool) {s : CalSt} (h : s.cb = 0) :
    let r := Cal.calibrate c cc p b env fuel req s
    ∃ e h1 h2, r.1.ops = h2 ++ (h1 ++ e :: s.ops) ∧
      Lowers3 p.enable e ∧ Touches (fun q => q = p.enable) e ∧
      Phase p req (fun a => !zeroLevel cc a) (fun a => invertedAx c a) h1 ∧
      (h2 = [] ∧ r.2 ≠ .ret true ∨
        Phase p req (zeroLevel cc) (fun a => !invertedAx c a) h2 ∧
        ∀ a, at3 req a = true → Thrice (stopPin p a) (!zeroLevel cc a) h1) ∧
      (r.2 = .ret true → r.1.cb = 0 ∧
        ∀ a, at3 req a = true → Thrice (stopPin p a) (zeroLevel cc a) h2) := by
  intro r
  have hb' := bufOk_ok hb
  obtain ⟨k1, k2, -⟩ := Cal.direct_idle (b := b) (env := env) (pin := p.enable) (inverted := true) h
  rw [Cal.direct, if_pos rfl] at k1 k2
  have w1 : Cal.wantOf cc true = fun a => !zeroLevel cc a := by
    funext a; simp [Cal.wantOf, zeroLevel]
  have w2 : Cal.wantOf cc false = zeroLevel cc := by
    funext a; simp [Cal.wantOf, zeroLevel]
  have d1 : (fun a => !(invertedAx c a ^^ true)) = fun a => invertedAx c a := by
    funext a; simp
  have d2 : (fun a => !(invertedAx c a ^^ false)) = fun a => !invertedAx c a := by
    funext a; simp
  obtain ⟨h1, f1⟩ := Cal.phase_fin (c := c) (cc := cc) hp hb' (env := env) (fuel := fuel)
    (req := req) (invert := true) k1
  have p1 := Cal.fin_phase hp f1
  rw [w1, d1] at p1
  have hr : r = match Cal.phase c cc p b env fuel req true (Cal.clearPin b env p.enable s) with
    | (s, .ret true) => Cal.phase c cc p b env fuel req false s
    | r => r := rfl
  have hl : Lowers3 p.enable (Cal.dirOp p.enable true) := Cal.dirOp_lowers hp.enable_lt
  have ht : Touches (fun q => q = p.enable) (Cal.dirOp p.enable true) :=
    Cal.dirOp_touches hp.enable_lt _ _ rfl
  have ho := f1.ops
  rw [k2] at ho
  have ha := f1.all
  revert hr ho ha
  generalize Cal.phase c cc p b env fuel req true (Cal.clearPin b env p.enable s) = q
  obtain ⟨s1, e1⟩ := q
  intro hr ho ha
  by_cases he : e1 = .ret true
  · subst he
    obtain ⟨c1, t1⟩ := ha rfl
    obtain ⟨h2, f2⟩ := Cal.phase_fin (c := c) (cc := cc) hp hb' (env := env) (fuel := fuel)
      (req := req) (invert := false) c1
    have p2 := Cal.fin_phase hp f2
    rw [w2, d2] at p2
    have hq : r = Cal.phase c cc p b env fuel req false s1 := hr
    refine ⟨Cal.dirOp p.enable true, h1, h2, ?_, hl, ht, p1, Or.inr ⟨p2, ?_⟩, ?_⟩
    · rw [hq, f2.ops]
      simp only [] at ho
      rw [ho]
    · intro a hra
      have := t1 a hra
      rw [w1] at this
      exact this
    · rw [hq]
      intro hc
      obtain ⟨c2, t2⟩ := f2.all hc
      refine ⟨c2, fun a hra => ?_⟩
      have := t2 a hra
      rw [w2] at this
      exact this
  · have hq : r = (s1, e1) := by
      rw [hr]
      cases e1 with
      | ret x => cases x with
        | true => exact absurd rfl he
        | false => rfl
      | raised e => rfl
      | running => rfl
    exact ⟨Cal.dirOp p.enable true, h1, [], by rw [hq]; exact ho, hl, ht, p1,
      Or.inl ⟨rfl, by rw [hq]; exact he⟩, fun hc => absurd (by rw [hq] at hc; exact hc) he⟩

example : CalPins Pins.default ∧ BufOk exBuf := ⟨exCalPins, exBuf_ok⟩

/-- **C52.** A calibration ends, provided that the clock goes on. -/
theorem C52_terminates {c : Cfg} {cc : CalCfg} {p : Pins} (hp : CalPins p) {b : Buf} (hb : BufOk b)
    {env : CalEnv F} (hclk : ∀ T, ∃ k0, ∀ k ≥ k0, ¬ (env.clock k <ₚ T) = true) (req : XYZ Bool)
    {s : CalSt} (h : s.cb = 0) :
    ∃ n, ∀ fuel ≥ n, (Cal.calibrate c cc p b env fuel req s).2 ≠ .running ∧
      Cal.calibrate c cc p b env fuel req s = Cal.calibrate c cc p b env n req s := by
  have hb' := bufOk_ok hb
  obtain ⟨k1, -, -⟩ := Cal.direct_idle (b := b) (env := env) (pin := p.enable) (inverted := true) h
  rw [Cal.direct, if_pos rfl] at k1
  obtain ⟨n1, hn1, hm1⟩ := Cal.phase_ends (c := c) (cc := cc) hp hb' (req := req) (invert := true)
    k1 hclk
  obtain ⟨h1, f1⟩ := Cal.phase_fin (c := c) (cc := cc) hp hb' (env := env) (fuel := n1)
    (req := req) (invert := true) k1
  have ha := f1.all
  unfold Cal.calibrate
  simp only []
  cases hq : Cal.phase c cc p b env n1 req true (Cal.clearPin b env p.enable s) with
  | mk s1 e1 =>
    rw [hq] at hn1 ha
    by_cases he : e1 = .ret true
    · subst he
      obtain ⟨n2, hn2, hm2⟩ := Cal.phase_ends (c := c) (cc := cc) hp hb' (req := req)
        (invert := false) (ha rfl).1 hclk
      refine ⟨max n1 n2, fun fuel hf => ?_⟩
      rw [hm1 fuel (le_trans (le_max_left _ _) hf), hm1 (max n1 n2) (le_max_left _ _), hq]
      simp only [] at hm2 hn2 ⊢
      rw [hm2 fuel (le_trans (le_max_right _ _) hf), hm2 (max n1 n2) (le_max_right _ _)]
      exact ⟨hn2, rfl⟩
    · refine ⟨n1, fun fuel hf => ?_⟩
      rw [hm1 fuel hf, hq]
      cases e1 with
      | ret x => cases x with
        | true => exact absurd rfl he
        | false => exact ⟨by simp, rfl⟩
      | raised e => exact ⟨by simp, rfl⟩
      | running => exact absurd rfl hn1

variable [PyRound]

theorem exPps : (Cal.pulsesPerSec Cfg.default CalCfg.default : ℝ) = 1000 := by
  simp only [Cal.pulsesPerSec, Cfg.default, CalCfg.default, ofRat_eq, mul_eq, div_eq, add_eq]
  norm_num

theorem exMaxSize : (Cal.maxSize Cfg.default exReqX : ℝ) = 20000 := by
  simp only [Cal.maxSize, Cfg.default, ofRat_eq, mul_eq, pmax_eq, if_true, Bool.false_eq_true,
    if_false]
  norm_num

/-- A phase of the calibration of X with the settings of `config.py`. -/
theorem exPhase (env : CalEnv ℝ) (fuel : Nat) (invert : Bool) (s : CalSt) :
    Cal.phase Cfg.default CalCfg.default Pins.default exBuf env fuel exReqX invert s =
      Cal.loop Cfg.default Pins.default exBuf env
        ⟨Cal.wantOf CalCfg.default invert .x, Cal.wantOf CalCfg.default invert .y,
          Cal.wantOf CalCfg.default invert .z⟩
        (env.clock (Cal.before Cfg.default Pins.default exBuf env invert s).k + 24) 1000 fuel
        (2 ^ 21) (-(2 ^ 21) - 1) (Cal.before Cfg.default Pins.default exBuf env invert s) := by
  rw [Cal.phase_eq, exPps, exMaxSize, pdiv_ok (by norm_num), pdiv_ok (by norm_num)]
  have h1 : PyNum.truncI ((PyNum.ofRat 1000000 : ℝ) / 1000) = 1000 := by
    rw [truncI_eq, ofRat_eq, show (((1000000 : ℚ) : ℝ) / 1000) = ((1000 : ℤ) : ℝ) by norm_num,
      if_pos (by norm_num), Int.floor_intCast]
  have h2 : Cal.pinsOf Pins.default exReqX = 2 ^ 21 := by decide
  simp only [h2, add_eq, ofRat_eq, mul_eq]
  norm_num

/-- **C52, the part that fails.** When a calibration gives up, it does not stop the engine: it
returns `False` while the engine still has a second of pulses for an axis to send. -/
theorem C52_stopped_refuted : ¬ ∀ (env : CalEnv ℝ) (fuel : Nat) (s : CalSt), s.cb = 0 →
    (Cal.calibrate Cfg.default CalCfg.default Pins.default exBuf env fuel exReqX s).2 ≠ .running →
    ∀ n, ((Dma.run exBuf n
      (Cal.calibrate Cfg.default CalCfg.default Pins.default exBuf env fuel exReqX s).1.cb
      { (Cal.calibrate Cfg.default CalCfg.default Pins.default exBuf env fuel exReqX s).1.w with
        log := [] }).1.log.countP fun e => e.2.1 == 0x1C && e.2.2.getLsbD 21) < 999 := by
  intro hall
  obtain ⟨N, hN⟩ : ∃ n, n = 999 := ⟨_, rfl⟩
  have hb := bufOk_ok exBuf_ok
  have hall := hall ⟨fun k => if k ≤ 6 then 0 else 1000000, fun _ _ => true, fun _ => 0⟩ 2
    (exCalSt ⟨fun _ => 0#32, fun _ => false, fun _ => 0#2, fun _ => 0#32⟩) rfl
  generalize henv : (⟨fun k => if k ≤ 6 then 0 else 1000000, fun _ _ => true, fun _ => 0⟩ :
    CalEnv ℝ) = env at hall
  have hclk : ∀ k, env.clock k = if k ≤ 6 then 0 else 1000000 := by rw [← henv]; intro k; rfl
  have hlev : ∀ k pin, env.level k pin = true := by rw [← henv]; intro k pin; rfl
  have hblk : ∀ k, env.blocks k = 0 := by rw [← henv]; intro k; rfl
  generalize hs0 : exCalSt ⟨fun _ => 0#32, fun _ => false, fun _ => 0#2, fun _ => 0#32⟩ = s0 at hall
  obtain ⟨c1, -, k1⟩ := Cal.direct_idle (b := exBuf) (env := env) (pin := Pins.default.enable)
    (inverted := true) (s := s0) (by rw [← hs0]; rfl)
  rw [Cal.direct, if_pos rfl] at c1 k1
  rw [show s0.k = 0 by rw [← hs0]; rfl] at k1
  obtain ⟨c2, -, k2⟩ := Cal.before_idle (c := Cfg.default) (p := Pins.default) (b := exBuf)
    (env := env) (invert := true) c1
  rw [k1] at k2
  have hcal : ∃ s, Cal.calibrate Cfg.default CalCfg.default Pins.default exBuf env 2 exReqX s0 =
      (s, .ret false) ∧ ∃ d, s.cb = exBuf.base ∧ Holds exBuf d (exProg N) ∧
        s.w.mem = (DmaGpio.finalize d).mem := by
    unfold Cal.calibrate
    simp only [exPhase]
    generalize Cal.before Cfg.default Pins.default exBuf env true
      (Cal.clearPin exBuf env Pins.default.enable s0) = s2 at *
    rw [Cal.loop]
    obtain ⟨s3, d, h1, h2, h3, h4, h5, -⟩ := first_pass (env := env) (s := s2)
      (inv := ⟨Cal.wantOf CalCfg.default true .x, Cal.wantOf CalCfg.default true .y,
        Cal.wantOf CalCfg.default true .z⟩) (endTime := env.clock s2.k + 24) hN c2
      (by rw [lt_iff, hclk, hclk, k2]; norm_num) (by rw [hlev]; rfl)
    rw [h1]
    simp only []
    rw [Cal.loop]
    have hsync : Cal.sync exBuf env s3 =
        { s3 with w := { s3.w with log := [] }, k := s3.k + 1 } := by
      unfold Cal.sync
      rw [hblk]
      rfl
    have hpass : Cal.pass Cfg.default Pins.default exBuf env
        ⟨Cal.wantOf CalCfg.default true .x, Cal.wantOf CalCfg.default true .y,
          Cal.wantOf CalCfg.default true .z⟩ (env.clock s2.k + 24) 1000 (2 ^ 21) (2 ^ 21) s3 =
        ({ s3 with w := { s3.w with log := [] }, k := s3.k + 1 }, .stop (.ret false)) := by
      unfold Cal.pass
      rw [hsync]
      simp only []
      rw [if_neg]
      rw [lt_iff, hclk, hclk, k2, if_neg (by omega)]
      norm_num
    rw [hpass]
    exact ⟨_, rfl, d, h2, h3, h4⟩
  obtain ⟨s, hs, d, h2, h3, h4⟩ := hcal
  rw [hs] at hall
  have := hall (by simp) (4 * N)
  change ((Dma.run exBuf (4 * N) s.cb { s.w with log := [] }).1.log.countP _) < 999 at this
  rw [h2, show exBuf.base = exBuf.base + 32 * 0 from rfl,
    run_fin hb h3 (4 * N) 0 { s.w with log := [] } (by rw [exProg_length]; omega) h4,
    foldl_log, List.drop_zero, ← exProg_length, List.take_length, List.append_nil,
    List.countP_reverse, exProg, Cal.count_unit _ _ _ _ (by decide)] at this
  omega

/-- **C52, another part that fails.** The engine can be stopped in the middle of a pulse.  A
calibration that succeeds can therefore leave a step pin high; the next pulse then has no edge and
is lost. -/
theorem C52_pins_low_refuted : ¬ ∀ (env : CalEnv ℝ) (fuel : Nat) (s : CalSt), s.cb = 0 →
    s.w.gpio.latch Pins.default.step.x = false →
    (Cal.calibrate Cfg.default CalCfg.default Pins.default exBuf env fuel exReqX s).2 = .ret true →
    (Cal.calibrate Cfg.default CalCfg.default Pins.default exBuf env fuel exReqX s).1.w.gpio.latch
      Pins.default.step.x = false := by
  intro hall
  obtain ⟨N, hN⟩ : ∃ n, n = 999 := ⟨_, rfl⟩
  have hall := hall ⟨fun k => 0, fun k _ => decide (16 < k), fun _ => 1⟩ 2
    (exCalSt ⟨fun _ => 0#32, fun _ => false, fun _ => 0#2, fun _ => 0#32⟩) rfl rfl
  generalize henv : (⟨fun k => 0, fun k _ => decide (16 < k), fun _ => 1⟩ : CalEnv ℝ) = env at hall
  have hclk : ∀ k, env.clock k = 0 := by rw [← henv]; intro k; rfl
  have hlev : ∀ k pin, env.level k pin = decide (16 < k) := by rw [← henv]; intro k pin; rfl
  have hblk : ∀ k, env.blocks k = 1 := by rw [← henv]; intro k; rfl
  generalize hs0 : exCalSt ⟨fun _ => 0#32, fun _ => false, fun _ => 0#2, fun _ => 0#32⟩ = s0 at hall
  obtain ⟨c1, -, k1⟩ := Cal.direct_idle (b := exBuf) (env := env) (pin := Pins.default.enable)
    (inverted := true) (s := s0) (by rw [← hs0]; rfl)
  rw [Cal.direct, if_pos rfl] at c1 k1
  rw [show s0.k = 0 by rw [← hs0]; rfl] at k1
  obtain ⟨c2, -, k2⟩ := Cal.before_idle (c := Cfg.default) (p := Pins.default) (b := exBuf)
    (env := env) (invert := true) c1
  rw [k1] at k2
  have hcal : ∃ s, Cal.calibrate Cfg.default CalCfg.default Pins.default exBuf env 2 exReqX s0 =
      (s, .ret true) ∧ s.w.gpio.latch 21 = true := by
    unfold Cal.calibrate
    simp only [exPhase]
    generalize Cal.before Cfg.default Pins.default exBuf env true
      (Cal.clearPin exBuf env Pins.default.enable s0) = s2 at *
    obtain ⟨s3, h1, h2, h3, -⟩ := idle_pass (env := env) (s := s2)
      (inv := ⟨Cal.wantOf CalCfg.default true .x, Cal.wantOf CalCfg.default true .y,
        Cal.wantOf CalCfg.default true .z⟩) (endTime := env.clock s2.k + 24) c2
      (by rw [lt_iff, hclk, hclk]; norm_num)
      (by intro k hk; rw [hlev, show decide (16 < k) = false from decide_eq_false (by omega)]; rfl)
    rw [Cal.loop, h1]
    simp only []
    obtain ⟨c4, -, k4⟩ := Cal.before_idle (c := Cfg.default) (p := Pins.default) (b := exBuf)
      (env := env) (invert := false) h2
    rw [h3, k2] at k4
    generalize Cal.before Cfg.default Pins.default exBuf env false s3 = s4 at *
    obtain ⟨s5, d, g1, g2, g3, g4, g5, -⟩ := first_pass (env := env) (s := s4)
      (inv := ⟨Cal.wantOf CalCfg.default false .x, Cal.wantOf CalCfg.default false .y,
        Cal.wantOf CalCfg.default false .z⟩) (endTime := env.clock s4.k + 24) hN c4
      (by rw [lt_iff, hclk, hclk]; norm_num) (by rw [hlev, k4]; rfl)
    rw [Cal.loop, g1]
    simp only []
    obtain ⟨s6, f1, f2⟩ := last_pass (env := env) (s := s5)
      (inv := ⟨Cal.wantOf CalCfg.default false .x, Cal.wantOf CalCfg.default false .y,
        Cal.wantOf CalCfg.default false .z⟩) (endTime := env.clock s4.k + 24) hN g3 g2 g4 hblk
      (by rw [lt_iff, hclk, hclk]; norm_num)
      (by intro k hk; rw [hlev, show decide (16 < k) = true from decide_eq_true (by omega)]; rfl)
    rw [Cal.loop, f1]
    exact ⟨_, rfl, f2⟩
  obtain ⟨s, hs, h2⟩ := hcal
  rw [hs] at hall
  have := hall rfl
  rw [show s.w.gpio.latch Pins.default.step.x = true from h2] at this
  cases this

/-- **C52.** A calibration does not fail with an error if the buffer has room for the pulses of a
second, `N` of them. -/
theorem C52_no_error {c : Cfg} {cc : CalCfg} {p : Pins} (hp : CalPins p) {b : Buf} (hb : BufOk b)
    (env : CalEnv ℝ) (fuel : Nat) (req : XYZ Bool) {s : CalSt} (h : s.cb = 0) {pps : ℝ}
    (hpps : pps = cc.vel / 60 * ((c.ppm.x + c.ppm.y + c.ppm.z) / 3)) (hpos : 0 < pps)
    (hslow : 1000000 / pps < 2 ^ 28) (hlen : c.pulseLenUs < 2 ^ 28) {N : Nat}
    (h1 : 1000000 ≤ N * (⌊1000000 / pps⌋ + c.pulseLenUs))
    (h2 : N * (⌊1000000 / pps⌋ + c.pulseLenUs) < 1000000 + (⌊1000000 / pps⌋ + (c.pulseLenUs : Int)))
    (h3 : 128 * N ≤ b.size) (e : PyErr) :
    (Cal.calibrate c cc p b env fuel req s).2 ≠ .raised e := by
  have hb' := bufOk_ok hb
  have hq : (Cal.pulsesPerSec c cc : ℝ) = pps := by
    simp only [Cal.pulsesPerSec, ofRat_eq, mul_eq, div_eq, add_eq, hpps]
    norm_num
  have hd : 0 ≤ 1000000 / pps := by positivity
  have ht : PyNum.truncI ((PyNum.ofRat 1000000 : ℝ) / pps) = ⌊1000000 / pps⌋ := by
    rw [truncI_eq, ofRat_eq, show ((1000000 : ℚ) : ℝ) = 1000000 by norm_num, if_pos hd]
  have hfill : Cal.FillOk c p b env req ⌊1000000 / pps⌋ :=
    Cal.fillOk_of hp hb.top (Int.floor_nonneg.2 hd) (by rw [Int.floor_lt]; push_cast; exact lt_of_lt_of_le hslow (by norm_num))
      hlen N h1 h2 h3
  have key : ∀ invert (s : CalSt), s.cb = 0 →
      (Cal.phase c cc p b env fuel req invert s).2 ≠ .raised e := by
    intro invert s hs hc
    have hk := Cal.before_K (c := c) (cc := cc) hp (b := b) (env := env) (req := req)
      (invert := invert) hs
    rw [Cal.phase_eq, hq, pdiv_ok hpos.ne', pdiv_ok hpos.ne'] at hc
    simp only [ht] at hc
    exact (Cal.loop_ok hb' hp env _ _ fuel hk).1 e hc hfill
  obtain ⟨k1, -, -⟩ := Cal.direct_idle (b := b) (env := env) (pin := p.enable) (inverted := true) h
  rw [Cal.direct, if_pos rfl] at k1
  have g1 := key true _ k1
  obtain ⟨h1, f1⟩ := Cal.phase_fin (c := c) (cc := cc) hp hb' (env := env) (fuel := fuel)
    (req := req) (invert := true) k1
  have ha := f1.all
  unfold Cal.calibrate
  revert g1 ha
  simp only []
  generalize Cal.phase c cc p b env fuel req true (Cal.clearPin b env p.enable s) = q
  obtain ⟨s1, e1⟩ := q
  intro g1 ha
  cases e1 with
  | ret x => cases x with
    | true => exact key false _ (ha rfl).1
    | false => exact g1
  | raised e => exact g1
  | running => exact g1

example : (1000 : ℝ) = CalCfg.default.vel / 60 *
      ((Cfg.default.ppm.x + Cfg.default.ppm.y + Cfg.default.ppm.z) / 3) ∧
    (1000000 : ℝ) / 1000 < 2 ^ 28 ∧ Cfg.default.pulseLenUs < 2 ^ 28 ∧
    1000000 ≤ (999 : Nat) * (⌊(1000000 : ℝ) / 1000⌋ + Cfg.default.pulseLenUs) ∧
    (999 : Nat) * (⌊(1000000 : ℝ) / 1000⌋ + Cfg.default.pulseLenUs) <
      1000000 + (⌊(1000000 : ℝ) / 1000⌋ + (Cfg.default.pulseLenUs : Int)) ∧
    128 * 999 ≤ exBuf.size := by
  have : ⌊(1000000 : ℝ) / 1000⌋ = 1000 := by
    rw [show ((1000000 : ℝ) / 1000) = ((1000 : ℤ) : ℝ) by norm_num, Int.floor_intCast]
  rw [this]
  simp only [Cfg.default, CalCfg.default]
  norm_num

end PyCNC.Props
