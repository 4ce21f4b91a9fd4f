import Verif.Lemmas.Pins64
import Verif.Props.Interp64
import Verif.Props.Pins

/-!
# Property C72: from the text of a program to the microsteps of the motors, in binary64

C66 for the arithmetic that the program really uses.  The vocabulary is that of `Spec/Motor.lean`,
`Spec/Interp.lean` and `Spec/Interp64.lean`.
-/

namespace PyCNC.Props

open PyCNC Spec

variable [PyRound] {c : Cfg} {env : Env F64} {p : Pins} {b : Buf}

/-- **C72, one move.** A straight move computed in binary64, from one step to another, with at least
ten steps per millimetre on every axis: `move` returns without an exception if the buffer has room
for 128 bytes per step, and whenever the engine then runs, each driver makes exactly the steps of the
move. -/
theorem C72_move {menv : MoveEnv} {fuel N : Nat} (hc : FloatMachine c)
    (hppm : ∀ ax, 10 ≤ c.ppm.get ax) (hb : BufOk b) (hp : PinsOk p) (ha : PinsApart p)
    (hlen : c.pulseLenUs < 2 ^ 26) (hN : IdleAfter menv N) (h1 : 1 ≤ fuel) (hf : N ≤ fuel)
    {d : V4 F64} {n : V4 ℤ} {v : F64} (hn : ∀ ax, |(n.get ax : ℝ)| ≤ 10 ^ 4 * c.ppm.get ax)
    (hd : ∀ ax, |(d.get ax).1 * c.ppm.get ax - n.get ax| ≤ 499 / 1000) (h0 : ∃ ax, n.get ax ≠ 0)
    (hv : 1 ≤ v.1)
    (hsz : 32 + 128 * ((n.x).natAbs + (n.y).natAbs + (n.z).natAbs + (n.e).natAbs) ≤ b.size)
    (mem : Nat → Word) {w₀ : World} (hl : w₀.log = []) (ht : w₀.time = 0) :
    ∃ lg evs s, LinearGen.new c (roundToSteps c d) v = .ok lg ∧ Emits c (.linear lg) evs ∧
      Hal.move c p b menv fuel evs .done mem = (s, .done) ∧
      (∃ ns, Behind (b.size / 32) s.live.reverse ns 0) ∧
      ∀ ns, Behind (b.size / 32) s.live.reverse ns 0 →
        ∃ w, Dma.runLive b s.live.reverse ns b.base w₀ = (w, 0) ∧
          ∀ (ax : Axis) (d : Driver), d.step = false →
            (d.sees p ax (edges w.log.reverse)).step = false ∧
            along c ax (d.sees p ax (edges w.log.reverse)).pos = along c ax d.pos + n.get ax := by
  have hS := roundToSteps64 hc.plain.sane.cfg hn hd
  obtain ⟨lg, hnew, -⟩ := linear64_new hc.plain.sane.cfg hS h0 hv
  obtain ⟨evs, s, h2, h3⟩ := linear_ends64 (p := p) hc.plain.sane.cfg hc.plain.limits hc.fast
    hc.plain.auto hppm hb hp hlen hN h1 hf hS h0 hv hnew hsz mem
  obtain ⟨ns, w, h4, -⟩ := edges_exist hb hp hlen h3 hl ht
  refine ⟨lg, evs, s, hnew, h2, h3, ⟨ns, h4⟩, fun ns hns => ?_⟩
  obtain ⟨w, Ts, h5, h6⟩ := move_plays hb hp hlen h3 hl ht hns
  refine ⟨w, h5, fun ax d h0 => ?_⟩
  obtain ⟨j1, j2⟩ := plays_driver (c := c) hp ha ax h6
    (emits_dirsKnown (linear_unitDirs hnew) h2) h0
  refine ⟨j1, ?_⟩
  rw [j2, netFrom_announced (emits_announced h2 (List.prefix_refl _))]
  congr 1
  exact train64 hc.plain.sane.cfg hS hnew h2 ax

/-- **C72.** A program of straight moves, modes, units and offsets, given as text and executed in
binary64: its moves can be carried out by the Raspberry Pi back end, and whenever they have been, the
driver of each motor has made exactly the steps of the reference interpreter, which computes with real
numbers.  `m` is the longest extrusion that a line asks for. -/
theorem C72_program [PyText] (hc : FloatMachine c) (hppm : ∀ ax, 10 ≤ c.ppm.get ax)
    (hb : BufOk b) (hp : PinsOk p) (ha : PinsApart p) (hlen : c.pulseLenUs < 2 ^ 26) {m : ℚ}
    (hsz : longestMove c m ≤ b.size) (henv : ∀ tr, env.move tr = none)
    (prog : List (List Char × Line))
    (hpr : ∀ q ∈ prog, ∃ g, parseLine q.1 = .ok (some g) ∧ Says g q.2)
    (hx : TameRun c (Ref.init c) (prog.map (·.2)))
    (he : Extrudes c m (Ref.init c) (prog.map (·.2))) :
    ∃ s, machineRun c env (MState.init c) (prog.map (·.1)) =
        some (((Ref.init c).run c (prog.map (·.2))).1, s) ∧
      (∃ es, Played c p b s.trace es) ∧
      ∀ es, Played c p b s.trace es → ∀ (ax : Axis) (dir : Bool),
        ((Driver.mk false dir 0).sees p ax es).step = false ∧
        along c ax ((Driver.mk false dir 0).sees p ax es).pos =
          ((Ref.init c).run c (prog.map (·.2))).2.steps ax := by
  obtain ⟨s, h1, h3, -, h4⟩ := program_matches64 hc (carries_of henv) prog hpr
    (Q := fun tr => ∀ g, HalCall.move g ∈ tr → Doable64 c m g)
    (fun _ _ h hg => grown_doable64 h hg) (refOk_init hc) matches_init64 hx he (by
      intro g hg
      have : g ∈ movesOf (MState.init (F := F64) c).trace := mem_movesOf.2 hg
      cases this)
  refine ⟨s, h1, played_of_ends hb hp hlen fun g hg => doable_ends64 (N := 0) hc.plain.sane.cfg
    hc.plain.limits hc.fast hc.plain.auto hppm hb hp hlen hsz (fun _ _ => rfl) le_rfl (by omega)
    (h4 g hg) _, fun es hes ax dir => ?_⟩
  obtain ⟨evs, he, hn⟩ := h3.motors
  have h5 := played_steps hb hp ha hlen (fun g hg => by
    obtain ⟨lg, d, v, n, rfl, -, -, -, hnew, -⟩ := h4 g hg
    exact linear_unitDirs hnew) hes ax (d := ⟨false, dir, 0⟩) rfl he
  refine ⟨h5.1, ?_⟩
  rw [h5.2, hn]
  unfold along
  split <;> simp

/-- **C72, the position.** After such a program, carried out, the position that the machine holds for
X, Y and Z is the binary64 number nearest to the place where the motor is. -/
theorem C72_position [PyText] (hc : FloatMachine c) (hppm : ∀ ax, 10 ≤ c.ppm.get ax)
    (hb : BufOk b) (hp : PinsOk p) (ha : PinsApart p) (hlen : c.pulseLenUs < 2 ^ 26) {m : ℚ}
    (hsz : longestMove c m ≤ b.size) (henv : ∀ tr, env.move tr = none)
    (prog : List (List Char × Line))
    (hpr : ∀ q ∈ prog, ∃ g, parseLine q.1 = .ok (some g) ∧ Says g q.2)
    (hx : TameRun c (Ref.init c) (prog.map (·.2)))
    (he : Extrudes c m (Ref.init c) (prog.map (·.2))) :
    ∃ l s, machineRun c env (MState.init c) (prog.map (·.1)) = some (l, s) ∧
      (∃ es, Played c p b s.trace es) ∧
      ∀ es, Played c p b s.trace es → ∀ (ax : Axis) (dir : Bool), ax ≠ .e →
        s.pos.get ax =
          F64.of (along c ax ((Driver.mk false dir 0).sees p ax es).pos / c.ppm.get ax) := by
  obtain ⟨s, h1, h2, h3⟩ := C72_program hc hppm hb hp ha hlen hsz henv prog hpr hx he
  obtain ⟨s', h1', h4⟩ := C71_program hc henv prog hpr hx
  rw [h1] at h1'
  cases h1'
  refine ⟨_, s, h1, h2, fun es hes ax dir hax => ?_⟩
  rw [(h3 es hes ax dir).2, h4.pos, at_steps hax]

/-- The default configuration and the program of C57, in binary64: the driver of X has made 750 steps,
backwards as it sees them because that motor is inverted, and so is that of the extruder, which has
made 15. -/
theorem C72_example [PyText] (henv : ∀ tr, env.move tr = none) : ∃ s es,
    machineRun Cfg.default env (MState.init Cfg.default) (refProgram.map (·.1)) =
      some ([true, true, true, false], s) ∧
    Played Cfg.default Pins.default exBuf s.trace es ∧
    ((Driver.mk false false 0).sees Pins.default .x es).pos = -750 ∧
    ((Driver.mk false false 0).sees Pins.default .e es).pos = -15 := by
  obtain ⟨s, h1, ⟨es, h2⟩, h3⟩ := C72_program default_float default_ppm10 exBuf_ok exPins_ok
    exPins_apart (by decide) default_fits henv refProgram refProgram_says refProgram_tame
    refProgram_780
  obtain ⟨r1, r2, r3, -⟩ := refProgram_run
  refine ⟨s, es, by rw [h1, r1], h2, ?_⟩
  have h4 := (h3 es h2 .x false).2
  have h5 := (h3 es h2 .e false).2
  rw [r2] at h4
  rw [r3] at h5
  simp only [along, Cfg.default, V4.get, if_true] at h4 h5
  change -((Driver.mk false false 0).sees Pins.default .x es).pos = 750 at h4
  change -((Driver.mk false false 0).sees Pins.default .e es).pos = 15 at h5
  omega

/-- A move by 1/3 mm of X at 600 mm/min meets the hypotheses of `C72_move`: 33 steps. -/
example : ∃ (d : V4 F64) (n : V4 ℤ) (v : F64), n.x = 33 ∧ (∃ ax, n.get ax ≠ 0) ∧ 1 ≤ v.1 ∧
    (∀ ax, |(n.get ax : ℝ)| ≤ 10 ^ 4 * Cfg.default.ppm.get ax) ∧
    (∀ ax, |(d.get ax).1 * Cfg.default.ppm.get ax - n.get ax| ≤ 499 / 1000) ∧
    32 + 128 * ((n.x).natAbs + (n.y).natAbs + (n.z).natAbs + (n.e).natAbs) ≤ exBuf.size := by
  refine ⟨⟨F64.of (1 / 3), F64.of 0, F64.of 0, F64.of 0⟩, ⟨33, 0, 0, 0⟩, F64.of 600, rfl,
    ⟨.x, by decide⟩, ?_, fun ax => ?_, fun ax => ?_, by decide⟩
  · rw [val_of]
    exact le_fl_of_le fl_one (by norm_num)
  · cases ax <;> norm_num [V4.get, Cfg.default]
  · cases ax
    · simp only [V4.get, val_of]
      have h1 := fl_lo (show (0 : ℝ) ≤ 1 / 3 by norm_num)
      have h2 := fl_hi (show (0 : ℝ) ≤ 1 / 3 by norm_num)
      generalize fl (1 / 3 : ℝ) = x at *
      rw [abs_le]
      norm_num [Cfg.default] at *
      constructor <;> linarith
    all_goals simp [V4.get, val_of, fl_zero]; norm_num

end PyCNC.Props
