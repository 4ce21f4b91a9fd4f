import Verif.Lemmas.Pins
import Verif.Lemmas.HeadPlane
import Verif.Props.Dma
import Verif.Props.Interp

/-!
# Properties C65 and C66: from the G-code to the microsteps of the motors

The chain through the Raspberry Pi back end: generators, `move`, control blocks, DMA engine, pin
levels, stepper drivers.  `Spec/Motor.lean` has the driver and says what it means that the moves of
a history are carried out (`Played`).  The theorems of this file are about exact arithmetic, for
every nearest-integer rounding (`PyRound`), except where they say otherwise; `Props/Pins64.lean` has
C66 in binary64.
-/

namespace PyCNC.Props

open PyCNC Spec

variable [PyRound] {c : Cfg} {env : Env ℝ} {p : Pins} {b : Buf}

omit [PyRound] in
/-- **C65.** Whatever the arithmetic, and whatever history of G-code the machine has executed,
straight moves and arcs: when the moves have been carried out, with or without the engine started
before the writer has finished, each driver has made the steps that the generators emitted, forward
minus reverse, and its step input is low. -/
theorem C65_steps {F : Type} [PyNum F] {env : Env F} (hb : BufOk b) (hp : PinsOk p)
    (ha : PinsApart p) (hlen : c.pulseLenUs < 2 ^ 26) {s : MState F} (hs : Reachable c env s)
    {es : List Edge} (h : Played c p b s.trace es) :
    ∃ evs, Sends c s.trace evs ∧ ∀ (ax : Axis) (d : Driver), d.step = false →
      (d.sees p ax es).step = false ∧
      along c ax (d.sees p ax es).pos = along c ax d.pos + netSteps c ax evs := by
  have hx : ∀ (tr : List (HalCall F)) es, Played c p b tr es → ∃ evs, Sends c tr evs := by
    intro tr es h
    clear hs
    induction h with
    | nil => exact ⟨_, .nil⟩
    | move em _ _ _ _ _ _ ih => obtain ⟨evs, h⟩ := ih; exact ⟨_, .move em h⟩
    | other hc _ ih => obtain ⟨evs, h⟩ := ih; exact ⟨_, .other hc h⟩
  obtain ⟨evs, he⟩ := hx _ _ h
  exact ⟨evs, he, fun ax d h0 => played_steps hb hp ha hlen (reachable_unitDirs hs) h ax h0 he⟩

/-- **C65, the position of the machine** is where the drivers are, for an axis with a decimal step,
as long as the hardware reports no error in a move and the arcs are on steps and do not end, in the
sense of clockwise motion, before their start in the same quarter (as in C11). -/
theorem C65_position (henv : ∀ tr, env.move tr = none) (hb : BufOk b) (hp : PinsOk p)
    (ha : PinsApart p) (hlen : c.pulseLenUs < 2 ^ 26) {ax : Axis} (hd : DecimalStep c ax)
    (hpp : 0 < c.ppm.get ax) {s : MState ℝ} (hs : Reachable c env s)
    (harc : Always (fun call _ => ∀ g, call = .move (.circular g) →
      ∃ radius plane, ArcOf c g radius plane) s.trace)
    {es : List Edge} (h : Played c p b s.trace es) (dir : Bool) :
    s.pos.get ax * c.ppm.get ax = along c ax ((Driver.mk false dir 0).sees p ax es).pos := by
  obtain ⟨evs, he, h1⟩ := C65_steps hb hp ha hlen hs h
  have h2 := (h1 ax ⟨false, dir, 0⟩ rfl).2
  rw [position_net henv hd hpp hs harc he, h2]
  unfold along
  split <;> simp

/-- **C66.** A straight move of ordinary size, with at least ten steps per millimetre on every axis:
`move` returns without an exception if the buffer has room for 128 bytes per step, whatever is left
in the buffer and whatever the engine does meanwhile, as long as the earlier program comes to its
end.  There is then a schedule of the engine, and in every schedule each driver makes
the steps of the move. -/
theorem C66_move {menv : MoveEnv} {fuel N : Nat} (hc : SaneCfg c)
    (hppm : ∀ ax, 10 ≤ c.ppm.get ax) (hb : BufOk b) (hp : PinsOk p) (ha : PinsApart p)
    (hlen : c.pulseLenUs < 2 ^ 26) (hN : IdleAfter menv N) (h1 : 1 ≤ fuel) (hf : N ≤ fuel)
    {delta : V4 ℝ} {v : ℝ} (hm : OrdinaryMove delta v)
    (hsz : 32 + 128 * ((|delta.get .x| * c.ppm.get .x + 1) + (|delta.get .y| * c.ppm.get .y + 1) +
      (|delta.get .z| * c.ppm.get .z + 1) + (|delta.get .e| * c.ppm.get .e + 1)) ≤ b.size) {lg : LinearGen ℝ}
    (hnew : LinearGen.new c delta v = .ok lg) (mem : Nat → Word) {w₀ : World} (hl : w₀.log = [])
    (ht : w₀.time = 0) :
    ∃ evs s, Emits c (.linear lg) evs ∧ Hal.move c p b menv fuel evs .done mem = (s, .done) ∧
      (∃ ns, Behind (b.size / 32) s.live.reverse ns 0) ∧
      ∀ ns, Behind (b.size / 32) s.live.reverse ns 0 →
        ∃ w, Dma.runLive b s.live.reverse ns b.base w₀ = (w, 0) ∧
          ∀ (ax : Axis) (d : Driver), d.step = false →
            (d.sees p ax (edges w.log.reverse)).step = false ∧
            along c ax (d.sees p ax (edges w.log.reverse)).pos =
              along c ax d.pos + netSteps c ax evs := by
  have htot : ∀ ax, ((lg.total.get ax).toNat : ℝ) ≤ |delta.get ax| * c.ppm.get ax + 1 := by
    intro ax
    have hP : (0 : ℝ) < c.ppm.get ax := by exact_mod_cast hc.ppm_pos ax
    have h0 : 0 ≤ |delta.get ax| * c.ppm.get ax := mul_nonneg (abs_nonneg _) hP.le
    obtain ⟨g', w, q, h7, -, -, htot, -⟩ := linear_new hc hm
    rw [hnew] at h7
    cases h7
    have h8 := rnd_le (|delta.get ax| * c.ppm.get ax)
    rw [← htot ax] at h8
    rcases le_total 0 (lg.total.get ax) with h9 | h9
    · have : ((lg.total.get ax).toNat : ℝ) = (lg.total.get ax : ℝ) := by
        exact_mod_cast Int.toNat_of_nonneg h9
      rw [this]; linarith
    · rw [Int.toNat_of_nonpos h9]
      push_cast
      linarith
  obtain ⟨evs, s, h2, h3⟩ := linear_ends (p := p) hc hppm hb hp hlen hN h1 hf hm hnew
    (B := fun ax => |delta.get ax| * c.ppm.get ax + 1) htot hsz mem
  obtain ⟨ns, w, h4, -⟩ := edges_exist hb hp hlen h3 hl ht
  refine ⟨evs, s, h2, h3, ⟨ns, h4⟩, fun ns hns => ?_⟩
  obtain ⟨w, Ts, h5, h6⟩ := move_plays hb hp hlen h3 hl ht hns
  refine ⟨w, h5, fun ax d h0 => ?_⟩
  obtain ⟨j1, j2⟩ := plays_driver (c := c) hp ha ax h6
    (emits_dirsKnown (linear_unitDirs hnew) h2) h0
  refine ⟨j1, ?_⟩
  rw [j2, netFrom_announced (emits_announced h2 (List.prefix_refl _))]

/-- **C66, whole programs.** A program of straight moves, modes, units and offsets, given as text:
its moves can be carried out by the Raspberry Pi back end, and whenever they have been, the driver of
each motor has made exactly the steps of the reference interpreter.  `m` is the longest extrusion that
a line asks for.  Missing, as in C57: extrusions of more than 9999 mm. -/
theorem C66_program_partial [PyText] (hc : PlainMachine c) (hppm : ∀ ax, 10 ≤ c.ppm.get ax)
    (hb : BufOk b) (hp : PinsOk p) (ha : PinsApart p) (hlen : c.pulseLenUs < 2 ^ 26)
    {m : ℚ} (hm0 : 0 ≤ m) (hm4 : m ≤ 9999)
    (hsz : longestMove c m ≤ b.size) (henv : ∀ tr, env.move tr = none)
    (prog : List (List Char × Line))
    (hpr : ∀ q ∈ prog, ∃ g, parseLine q.1 = .ok (some g) ∧ Says g q.2)
    (hx : Extrudes c m (Ref.init c) (prog.map (·.2))) :
    ∃ s, machineRun c env (MState.init c) (prog.map (·.1)) =
        some (((Ref.init c).run c (prog.map (·.2))).1, s) ∧
      (∃ es, Played c p b s.trace es) ∧
      ∀ es, Played c p b s.trace es → ∀ (ax : Axis) (dir : Bool),
        along c ax ((Driver.mk false dir 0).sees p ax es).pos =
          ((Ref.init c).run c (prog.map (·.2))).2.steps ax := by
  obtain ⟨s, h1, h2, h3, h4⟩ := program_matches hc henv prog hpr hm4
    (Q := fun tr => ∀ g, HalCall.move g ∈ tr → Doable c m g)
    (fun _ _ h hg => grown_doable h hg) .init matches_init hx (by
      intro g hg
      have : g ∈ movesOf (MState.init (F := ℝ) c).trace := mem_movesOf.2 hg
      cases this)
  have ht3 : 0 ≤ c.tableX ∧ 0 ≤ c.tableY ∧ 0 ≤ c.tableZ :=
    ⟨hc.sane.table.1.1, hc.sane.table.2.1.1, hc.sane.table.2.2.1⟩
  refine ⟨s, h1, played_exists hc.sane.cfg ht3 hppm hb hp hlen hm0 hsz h4, fun es hes ax dir => ?_⟩
  obtain ⟨evs, he, hn⟩ := h3.motors
  have h5 := (played_steps hb hp ha hlen (reachable_unitDirs h2) hes ax
    (d := ⟨false, dir, 0⟩) rfl he).2
  rw [h5, hn]
  unfold along
  split <;> simp

omit [PyRound] in
theorem exPins_apart : PinsApart Pins.default := by
  constructor <;> intro ax ax' <;> cases ax <;> cases ax' <;> decide

omit [PyRound] in
theorem default_ppm10 : ∀ ax, 10 ≤ Cfg.default.ppm.get ax := by
  intro ax; cases ax <;> decide +kernel

omit [PyRound] in
/-- The buffer of the real back end has room for 780 mm of extrusion beside a move over the whole
table. -/
theorem default_fits : longestMove Cfg.default 780 ≤ exBuf.size := by decide +kernel

theorem refProgram_780 : Extrudes Cfg.default 780 (Ref.init Cfg.default) (refProgram.map (·.2)) :=
  extrudes_mono (by norm_num) default_plain.sane.cfg refProgram_run.2.2.2

/-- The default configuration and the program of C57: the driver of X has made 750 steps, backwards
as it sees them because that motor is inverted, and so is that of the extruder, which has made
15. -/
theorem C66_example [PyText] (henv : ∀ tr, env.move tr = none) : ∃ s es,
    machineRun Cfg.default env (MState.init Cfg.default) (refProgram.map (·.1)) =
      some ([true, true, true, false], s) ∧
    Played Cfg.default Pins.default exBuf s.trace es ∧
    ((Driver.mk false false 0).sees Pins.default .x es).pos = -750 ∧
    ((Driver.mk false false 0).sees Pins.default .e es).pos = -15 := by
  obtain ⟨s, h1, ⟨es, h2⟩, h3⟩ := C66_program_partial default_plain default_ppm10 exBuf_ok exPins_ok
    exPins_apart (by decide) (by norm_num) (by norm_num) default_fits henv refProgram refProgram_says refProgram_780
  obtain ⟨r1, r2, r3, -⟩ := refProgram_run
  refine ⟨s, es, by rw [h1, r1], h2, ?_⟩
  have h4 := h3 es h2 .x false
  have h5 := h3 es h2 .e false
  rw [r2] at h4
  rw [r3] at h5
  simp only [along, Cfg.default, V4.get, if_true] at h4 h5
  change -((Driver.mk false false 0).sees Pins.default .x es).pos = 750 at h4
  change -((Driver.mk false false 0).sees Pins.default .e es).pos = 15 at h5
  omega

/-- C65 applies to that history, and so does its conclusion about the position. -/
example [PyText] (henv : ∀ tr, env.move tr = none) : ∃ s es, Reachable Cfg.default env s ∧
    Played Cfg.default Pins.default exBuf s.trace es ∧ s.pos.x * 100 = 750 ∧
    (∀ g, HalCall.move (.circular g) ∉ s.trace) := by
  obtain ⟨s, h1, h2, h3, h4⟩ := program_matches default_plain henv refProgram refProgram_says
    (m := 780) (by norm_num)
    (Q := fun tr => ∀ g, HalCall.move g ∈ tr → Doable Cfg.default 780 g)
    (fun _ _ h hg => grown_doable h hg) .init matches_init refProgram_780 (by
      intro g hg
      have : g ∈ movesOf (MState.init (F := ℝ) Cfg.default).trace := mem_movesOf.2 hg
      cases this)
  have ht := default_plain.sane.table
  obtain ⟨es, hes⟩ := played_exists (p := Pins.default) (b := exBuf) default_plain.sane.cfg
    ⟨ht.1.1, ht.2.1.1, ht.2.2.1⟩ default_ppm10 exBuf_ok exPins_ok (by decide) (by norm_num) default_fits h4
  refine ⟨s, es, h2, hes, ?_, fun g hg => ?_⟩
  · have h5 := h3.pos .x
    rw [at_steps (by decide), refProgram_run.2.1] at h5
    simp only [V4.get] at h5
    rw [h5]
    norm_num [Cfg.default]
  · obtain ⟨lg, _, _, e, _⟩ := h4 _ hg
    cases e

/-- The move by 30, 40 mm at 3000 mm/min meets the hypotheses of C66, with an engine that is busy for
the first five looks. -/
example : SaneCfg Cfg.default ∧ OrdinaryMove diag 3000 ∧
    (∃ lg, LinearGen.new Cfg.default diag 3000 = .ok lg) ∧
    (32 + 128 * ((|diag.get .x| * Cfg.default.ppm.get .x + 1) +
      (|diag.get .y| * Cfg.default.ppm.get .y + 1) + (|diag.get .z| * Cfg.default.ppm.get .z + 1) +
      (|diag.get .e| * Cfg.default.ppm.get .e + 1)) ≤ (exBuf.size : ℝ)) ∧
    IdleAfter ⟨fun tr => if 5 ≤ polls tr then none else some 0, fun _ => true⟩ 5 := by
  refine ⟨default_sane true, diag_ordinary, ?_, ?_, fun tr h => if_pos h⟩
  · obtain ⟨g, _, _, h, _⟩ := linear_new (default_sane true) diag_ordinary
    exact ⟨g, h⟩
  · norm_num [diag, V4.get, Cfg.default]

end PyCNC.Props
