import Verif.Lemmas.ArcEnds
import Verif.Props.ArcInterp
import Verif.Props.Pins

/-!
# Property C85: arcs, from the G-code to the microsteps of the motors

What C66 says of straight moves, for arcs and for programs with arcs.  `Spec/Motor.lean` has the
stepper driver and says what it means that the moves of a history are carried out (`Played`).  All
theorems of this file are about exact arithmetic, for every nearest-integer rounding (`PyRound`).
-/

namespace PyCNC.Props

open PyCNC Spec

variable [PyRound] {c : Cfg} {env : Env ℝ} {p : Pins} {b : Buf}

/-- **C85, the times of the pulses.** An arc of ordinary size, flat or helical, that does not end, in
the sense of clockwise motion, before its start in the same quarter, on a machine with at least 50 steps
per millimetre on every axis and an acceleration of at least 200 mm/s²: between two pulses, and before
the first, there is never more than the 67 seconds that a delay of the DMA engine can last, however slow
the feed is, from 1 mm/min. -/
theorem C85_stream (hc : SaneCfg c) (hppm : ∀ ax, 50 ≤ c.ppm.get ax) (hacc : 200 ≤ c.accel)
    {delta radius : V4 ℝ} {plane : Plane} {rot : Rot} {v : ℝ} (h : OrdinaryArc c delta radius plane v)
    (hnb : ¬ BackInQuarter plane delta radius) {g : CircGen ℝ}
    (hg : CircGen.new c delta radius plane rot v = .ok g) :
    ∃ evs ks, Emits c (.circular g) evs ∧ Stamps evs ks ∧ ShortGaps c.pulseLenUs 0 ks := by
  obtain ⟨evs, ks, h1, h2, h3, -⟩ := arc_stream hc h hnb hppm hacc hg
  exact ⟨evs, ks, h1, h2, h3⟩

/-- **C85.** Such an arc, on the Raspberry Pi: `move` returns without an exception if the buffer has
room for 128 bytes per step of a whole circle and of the other two axes, whatever is left in the buffer
and whatever the engine does meanwhile, as long as the earlier program comes to its end.  There is then a
schedule of the engine, and in every schedule each driver makes the steps of the arc. -/
theorem C85_move {menv : MoveEnv} {fuel N : Nat} (hc : SaneCfg c) (hppm : ∀ ax, 50 ≤ c.ppm.get ax)
    (hacc : 200 ≤ c.accel) (hb : BufOk b) (hp : PinsOk p) (ha : PinsApart p)
    (hlen : c.pulseLenUs < 2 ^ 26) (hN : IdleAfter menv N) (h1 : 1 ≤ fuel) (hf : N ≤ fuel)
    {delta radius : V4 ℝ} {plane : Plane} {rot : Rot} {v : ℝ} (h : OrdinaryArc c delta radius plane v)
    (hnb : ¬ BackInQuarter plane delta radius)
    (hsz : 992 + 128 * (4 * startDist plane radius * (c.ppm.get (axisA plane) + c.ppm.get (axisB plane)) +
      |delta.get (axis3 plane)| * c.ppm.get (axis3 plane) + |delta.e| * c.ppm.e) ≤ b.size) {g : CircGen ℝ}
    (hg : CircGen.new c delta radius plane rot v = .ok g) (mem : Nat → Word) {w₀ : World}
    (hl : w₀.log = []) (ht : w₀.time = 0) :
    ∃ evs s, Emits c (.circular g) evs ∧ Hal.move c p b menv fuel evs .done mem = (s, .done) ∧
      (∃ ns, Behind (b.size / 32) s.live.reverse ns 0) ∧
      ∀ ns, Behind (b.size / 32) s.live.reverse ns 0 →
        ∃ w, Dma.runLive b s.live.reverse ns b.base w₀ = (w, 0) ∧
          ∀ (ax : Axis) (d : Driver), d.step = false →
            (d.sees p ax (edges w.log.reverse)).step = false ∧
            along c ax (d.sees p ax (edges w.log.reverse)).pos =
              along c ax d.pos + netSteps c ax evs := by
  obtain ⟨evs, s, h2, h3⟩ := arc_ends hc h hnb hppm hacc hb hp hlen hN h1 hf hg hsz mem
  obtain ⟨ns, w, h4, -⟩ := edges_exist hb hp hlen h3 hl ht
  refine ⟨evs, s, h2, h3, ⟨ns, h4⟩, fun ns hns => ?_⟩
  obtain ⟨w, Ts, h5, h6⟩ := move_plays hb hp hlen h3 hl ht hns
  refine ⟨w, h5, fun ax d h0 => ?_⟩
  obtain ⟨j1, j2⟩ := plays_driver (c := c) hp ha ax h6 (emits_dirsKnown (circ_unitDirs hg) h2) h0
  refine ⟨j1, ?_⟩
  rw [j2, netFrom_announced (emits_announced h2 (List.prefix_refl _))]

/-- **C85, whole programs.** A program of straight moves, arcs, planes, modes, units and offsets, given
as text: its moves can be carried out by the Raspberry Pi back end, and whenever they have been, the
driver of each motor has made exactly the steps of the reference interpreter.  `m` is the longest
extrusion that a line asks for.  Missing, as in C78: programs with arcs that are not `RightArc`s
(`C78_refuted`), and lines that ask for more than 9999 mm of extrusion. -/
theorem C85_program_partial [PyText] (hc : PlainMachine c) (hppm : ∀ ax, 50 ≤ c.ppm.get ax)
    (hacc : 200 ≤ c.accel) (hb : BufOk b) (hp : PinsOk p) (ha : PinsApart p)
    (hlen : c.pulseLenUs < 2 ^ 26) {m : ℚ} (hm0 : 0 ≤ m) (hm4 : m ≤ 9999)
    (hsz : longestMove c m ≤ b.size) (hsa : ∀ plane, longestArc c plane ≤ b.size)
    (henv : ∀ tr, env.move tr = none) (prog : List (List Char × ArcLine))
    (hpr : ∀ q ∈ prog, ∃ g, parseLine q.1 = .ok (some g) ∧ ArcSays g q.2)
    (hx : RightArcs c m (ArcRef.init c) (prog.map (·.2))) :
    ∃ s, machineRun c env (MState.init c) (prog.map (·.1)) =
        some (((ArcRef.init c).run c (prog.map (·.2))).1, s) ∧
      (∃ es, Played c p b s.trace es) ∧
      ∀ es, Played c p b s.trace es → ∀ (ax : Axis) (dir : Bool),
        along c ax ((Driver.mk false dir 0).sees p ax es).pos =
          ((ArcRef.init c).run c (prog.map (·.2))).2.base.steps ax := by
  obtain ⟨s, h1, h2, h3, h4⟩ := arcProgram_matches hc henv prog hpr hm4
    (Q := fun tr => ∀ g, HalCall.move g ∈ tr → Doable c m g ∨ ∃ cg, g = .circular cg ∧ TableArc c cg)
    (by
      rintro tr tr' hq ((rfl | ⟨lg, d, v, rfl, hg⟩) | ⟨cg, radius, plane, rfl, -, -, hg⟩) g hm
      · exact hq g hm
      · rcases List.mem_cons.1 hm with e | e
        · cases e
          exact .inl ⟨lg, d, v, rfl, hg⟩
        · exact hq g e
      · rcases List.mem_cons.1 hm with e | e
        · cases e
          exact .inr ⟨cg, rfl, hg⟩
        · exact hq g e) .init arcMatches_init hx (by
      intro g hg
      have : g ∈ movesOf (MState.init (F := ℝ) c).trace := mem_movesOf.2 hg
      cases this)
  have ht3 : 0 ≤ c.tableX ∧ 0 ≤ c.tableY ∧ 0 ≤ c.tableZ :=
    ⟨hc.sane.table.1.1, hc.sane.table.2.1.1, hc.sane.table.2.2.1⟩
  have hppm10 : ∀ ax, 10 ≤ c.ppm.get ax := fun ax => (by norm_num : (10 : ℚ) ≤ 50).trans (hppm ax)
  refine ⟨s, h1, played_of_ends hb hp hlen fun g hg => ?_, fun es hes ax dir => ?_⟩
  · rcases h4 g hg with h | ⟨cg, rfl, h⟩
    · exact doable_ends (N := 0) hc.sane.cfg ht3 hppm10 hb hp hlen hm0 hsz (fun _ _ => rfl) le_rfl
        (by omega) h _
    · exact tableArc_ends (N := 0) hc.sane.cfg hppm hacc hb hp hlen (fun _ _ => rfl) le_rfl (by omega)
        hsa h _
  · obtain ⟨evs, he, hn⟩ := h3.base.motors
    have h5 := (played_steps hb hp ha hlen (reachable_unitDirs h2) hes ax
      (d := ⟨false, dir, 0⟩) rfl he).2
    rw [h5, hn]
    unfold along
    split <;> simp

omit [PyRound] in
theorem default_ppm50 : ∀ ax, 50 ≤ Cfg.default.ppm.get ax := by
  intro ax; cases ax <;> decide +kernel

omit [PyRound] in
/-- The buffer of the real back end has room for every arc on the default table. -/
theorem default_arcs_fit : ∀ plane, longestArc Cfg.default plane ≤ exBuf.size := by
  intro plane; cases plane <;> decide +kernel

/-- The default configuration and the program of C78, with a quarter of a circle: the drivers of X and Y
have made 11000 steps each, backwards as that of X sees them because that motor is inverted. -/
theorem C85_example [PyText] (henv : ∀ tr, env.move tr = none) : ∃ s es,
    machineRun Cfg.default env (MState.init Cfg.default) (arcProgram.map (·.1)) =
      some ([true, true, true, false], s) ∧
    Played Cfg.default Pins.default exBuf s.trace es ∧
    ((Driver.mk false false 0).sees Pins.default .x es).pos = -11000 ∧
    ((Driver.mk false false 0).sees Pins.default .y es).pos = 11000 := by
  obtain ⟨s, h1, ⟨es, h2⟩, h3⟩ := C85_program_partial default_plain default_ppm50
    (by decide +kernel) exBuf_ok exPins_ok exPins_apart (by decide) (m := 780) (by norm_num)
    (by norm_num) default_fits default_arcs_fit henv arcProgram arcProgram_says
    (arcProgram_right (by norm_num))
  obtain ⟨r1, r2, -⟩ := arcProgram_run
  refine ⟨s, es, by rw [h1, r1], h2, ?_⟩
  have h4 := h3 es h2 .x false
  have h5 := h3 es h2 .y false
  rw [r2] at h4 h5
  simp only [along, Cfg.default, V4.get, if_true] at h4 h5
  change -((Driver.mk false false 0).sees Pins.default .x es).pos = 11000 at h4
  change ((Driver.mk false false 0).sees Pins.default .y es).pos = 11000 at h5
  omega

/-- **C85, the room is needed**: for a whole circle of `R` steps in radius, `move` is never done with a
buffer of less than `96 (4 R - 1)` bytes, whatever was in it and whatever the engine does meanwhile. -/
theorem C85_room {menv : MoveEnv} {fuel : Nat} (hc : SaneCfg c) {delta radius : V4 ℝ} {plane : Plane}
    {rot : Rot} {v : ℝ} (h : OrdinaryArc c delta radius plane v) (hA : delta.get (axisA plane) = 0)
    (hB : delta.get (axisB plane) = 0) {g : CircGen ℝ} (hg : CircGen.new c delta radius plane rot v = .ok g)
    {evs : List (Event ℝ)} (he : Emits c (.circular g) evs) {re : RunEnd} {mem : Nat → Word} {s : MoveSt}
    (hm : Hal.move c p b menv fuel evs re mem = (s, .done)) :
    96 * (4 * PyRound.rnd (startDist plane radius * c.ppm.get (axisA plane)) - 1) ≤ (b.size : ℤ) :=
  whole_room hc h hA hB hg he hm

/-- A machine with 1000 steps per millimetre. -/
def fineCfg : Cfg := { Cfg.default with ppm := ⟨1000, 1000, 1000, 1000⟩ }

omit [PyRound] in
theorem fine_sane : SaneCfg fineCfg := by
  constructor <;> first
    | (intro ax; cases ax <;> norm_num [fineCfg, Cfg.default, V4.get])
    | norm_num [fineCfg, Cfg.default]

/-- The biggest circle on the table. -/
theorem big_arc : OrdinaryArc fineCfg ⟨0, 0, 0, 0⟩ ⟨100, 0, 0, 0⟩ .xy 600 := by
  have h5 : √(10000 : ℝ) = 100 := by
    rw [show (10000 : ℝ) = 100 ^ 2 by norm_num]; exact Real.sqrt_sq (by norm_num)
  have hs : startDist .xy ⟨100, 0, 0, 0⟩ = 100 := by
    simp only [startDist, startA, startB, axisA, axisB, V4.get]; norm_num; exact h5
  have hd : endDist .xy ⟨0, 0, 0, 0⟩ ⟨100, 0, 0, 0⟩ = 100 := by
    simp only [endDist, endA, endB, axisA, axisB, V4.get]; norm_num; exact h5
  refine ⟨⟨?_, ?_, ⟨100000, ?_⟩, ⟨0, ?_⟩, ⟨0, ?_⟩, ⟨0, ?_⟩, .inl rfl⟩, ?_, ?_, ?_, ?_, ?_, ?_,
    ?_, .inl ⟨rfl, rfl⟩, ?_⟩
  any_goals first
    | (rw [hs]; norm_num; done)
    | rw [hs, hd]
    | (simp [axisA, axisB, axis3, V4.get, fineCfg]; done)
    | (simp only [axisA, V4.get, fineCfg]; norm_num)

/-- **C85 is false without the condition on the buffer**: on a machine with 1000 steps per millimetre the
biggest circle on the 200 mm table, with its centre in the middle, does not fit into the 30 MB of the back
end, although its generator is made and works. -/
theorem C85_room_refuted : ∃ (g : CircGen ℝ) (evs : List (Event ℝ)),
    CircGen.new fineCfg ⟨0, 0, 0, 0⟩ ⟨100, 0, 0, 0⟩ .xy .cw 600 = .ok g ∧
    Emits fineCfg (.circular g) evs ∧
    ∀ (menv : MoveEnv) (fuel : Nat) (mem : Nat → Word) (s : MoveSt),
      Hal.move fineCfg Pins.default exBuf menv fuel evs .done mem ≠ (s, .done) := by
  obtain ⟨g, hg, hgood, -⟩ := arc_good fine_sane big_arc .cw
  obtain ⟨evs, he⟩ := circ_emits hgood
  refine ⟨g, evs, hg, he, fun menv fuel mem s hm => ?_⟩
  have h := C85_room fine_sane big_arc rfl rfl hg he hm
  have h5 : √(10000 : ℝ) = 100 := by
    rw [show (10000 : ℝ) = 100 ^ 2 by norm_num]; exact Real.sqrt_sq (by norm_num)
  have hs : startDist .xy ⟨100, 0, 0, 0⟩ = 100 := by
    simp only [startDist, startA, startB, axisA, axisB, V4.get]; norm_num; exact h5
  rw [hs, rnd_unique (n := 100000) (by norm_num [fineCfg, V4.get, axisA])] at h
  change _ ≤ ((31457280 : ℕ) : ℤ) at h
  omega

/-- The quarter of a circle from (-10, 0) to (0, 10) meets the hypotheses of C85, with an engine that is
busy for the first five looks. -/
example : SaneCfg Cfg.default ∧ (200 ≤ Cfg.default.accel) ∧
    OrdinaryArc Cfg.default ⟨10, 10, 0, 0⟩ ⟨10, 0, 0, 0⟩ .xy 600 ∧
    ¬ BackInQuarter .xy (⟨10, 10, 0, 0⟩ : V4 ℝ) ⟨10, 0, 0, 0⟩ ∧
    (∃ g, CircGen.new Cfg.default (⟨10, 10, 0, 0⟩ : V4 ℝ) ⟨10, 0, 0, 0⟩ .xy .cw 600 = .ok g) ∧
    (992 + 128 * (4 * startDist .xy ⟨10, 0, 0, 0⟩ * (Cfg.default.ppm.get (axisA .xy) +
      Cfg.default.ppm.get (axisB .xy)) + |(⟨10, 10, 0, 0⟩ : V4 ℝ).get (axis3 .xy)| *
      Cfg.default.ppm.get (axis3 .xy) + |(⟨10, 10, 0, 0⟩ : V4 ℝ).e| * Cfg.default.ppm.e) ≤
      (exBuf.size : ℝ)) ∧
    IdleAfter ⟨fun tr => if 5 ≤ polls tr then none else some 0, fun _ => true⟩ 5 := by
  have h := quarter_arc 0 (.inl rfl) (by simp)
  have h5 : √(100 : ℝ) = 10 := by
    rw [show (100 : ℝ) = 10 ^ 2 by norm_num]; exact Real.sqrt_sq (by norm_num)
  have hs : startDist .xy ⟨10, 0, 0, 0⟩ = 10 := by
    simp only [startDist, startA, startB, axisA, axisB, V4.get]; norm_num; exact h5
  refine ⟨sane_cfg, by decide +kernel, h, quarter_arc_ahead 0, ?_, ?_, fun tr h => if_pos h⟩
  · obtain ⟨g, hg, -⟩ := arc_good sane_cfg h .cw
    exact ⟨g, hg⟩
  · rw [hs]
    change _ ≤ ((31457280 : ℕ) : ℝ)
    norm_num [axisA, axisB, axis3, V4.get, Cfg.default]

end PyCNC.Props
