import Verif.Props.Jobs64
import Verif.Props.Pins64

/-!
# Property C99: programs with homing, from their text to the steps of the drivers, in floating point

Binary64 arithmetic, for every nearest-integer rounding (`PyRound`).
-/

namespace PyCNC.Props

open PyCNC Spec

variable [PyRound] {c : Cfg} {env : Env F64} {p : Pins} {b : Buf}

theorem home_doable64 (hc : FloatMachine c) {m : ℚ} (hm : 0 ≤ m) {g : Gen F64} (h : HomeCall c (.move g)) :
    Doable64 c m g := by
  obtain ⟨lg, d, v, n, h0, h1, h2, h3, h4, h5⟩ := h
  cases h0
  refine ⟨lg, d, v, n, rfl, h1, h2, h3, h4, fun ax => (h5 ax).trans ?_⟩
  have hP : (0 : ℝ) < c.ppm.get ax := by exact_mod_cast hc.plain.sane.cfg.ppm_pos ax
  refine mul_le_mul_of_nonneg_right ?_ hP.le
  cases ax
  · exact le_refl _
  · exact le_refl _
  · exact le_refl _
  · change ((0 : ℚ) : ℝ) ≤ (m : ℝ)
    exact_mod_cast hm

/-- A program with homing: also every move in the trace is one that the back end can carry out. -/
theorem job_doable64 [PyText] (hc : FloatMachine c) (henv : ∀ tr, env.move tr = none) {sw : Bool}
    (hcal : ∀ tr, env.calibrate tr = sw) {m : ℚ} (hm0 : 0 ≤ m) (prog : List (List Char × JobLine))
    (hp : ∀ p ∈ prog, ∃ g, parseLine p.1 = .ok (some g) ∧ JobSays g p.2) :
    ∀ {s : MState F64} {r : Ref}, RefOk c r → Matches64 c s r → TameJob c r (prog.map (·.2)) →
      ExtrudesJob c m r (prog.map (·.2)) → (∀ g, HalCall.move g ∈ s.trace → Doable64 c m g) →
      ∃ done s', machineRun c env s (prog.map (·.1)) = some (done, s') ∧
        (sw = true → done = (r.job c (prog.map (·.2))).1) ∧
        Matches64 c s' (r.job c (prog.map (·.2))).2 ∧
        ∀ g, HalCall.move g ∈ s'.trace → Doable64 c m g := by
  induction prog with
  | nil => exact fun ho hm _ _ hd => ⟨_, _, rfl, fun _ => rfl, hm, hd⟩
  | cons p ps ih =>
    intro s r ho hm hx he hd
    obtain ⟨g, hpar, hg⟩ := hp p (by simp)
    have ih' := @ih (fun q hq => hp q (by simp [hq]))
    obtain ⟨t, l | axes⟩ := p
    · obtain ⟨hx1, hx2⟩ := hx
      obtain ⟨he1, he2⟩ := he
      obtain ⟨k1, k2⟩ := line_matches64 hc (carries_of henv) (m := m) ho hm hg hx1 he1
      simp only [List.map_cons, machineRun, Ref.job]
      cases hr : r.step c l with
      | none =>
        obtain ⟨e, he, h⟩ := k2 hr
        have hl : doLine c env t s = (.ok (.error e), s) := by
          unfold doLine
          rw [hpar]
          simp only [h]
          unfold Reported at he
          unfold catchLine
          split at he <;> simp_all
        simp only [hl]
        obtain ⟨done, s', h1, h0, h2⟩ := ih' ho hm (by rw [hr] at hx2; exact hx2)
          (by rw [hr] at he2; exact he2) hd
        exact ⟨_, s', by rw [h1]; rfl, fun h => congrArg (false :: ·) (h0 h), h2⟩
      | some r' =>
        obtain ⟨a, s1, h, h', h'', h3⟩ := k1 r' hr
        have hl : doLine c env t s = (.ok (.ok a), s1) := by
          unfold doLine
          rw [hpar]
          simp only [h]
        simp only [hl]
        obtain ⟨done, s', h1, h0, h2⟩ := ih' h'' h' (by rw [hr] at hx2; exact hx2)
          (by rw [hr] at he2; exact he2) (grown_doable64 hd h3)
        exact ⟨_, s', by rw [h1]; rfl, fun h => congrArg (true :: ·) (h0 h), h2⟩
    · obtain ⟨⟨hx1, hx3⟩, hx2⟩ := hx
      obtain ⟨g1, g2, g3, g4⟩ := hg
      have hA : Homes g = axes := funext fun ax => propext (g4 ax)
      obtain ⟨s1, moves, x, y, z, k1, k2, k4, k5, -⟩ := home64 hc henv hm ho.table (by
        obtain ⟨k, hk⟩ := ho.extruded
        exact ⟨k, by rw [hk, e10_val]⟩) hx3 g1 g2 g3 (by
        rw [hm.vel, val_of]; exact fl_mono hx1)
      rw [hcal] at k1
      rw [hA] at k2
      have hd1 : ∀ g, HalCall.move g ∈ s1.trace → Doable64 c m g := by
        intro g hg
        rw [k4] at hg
        simp only [List.cons_append, List.mem_cons, List.mem_append, reduceCtorEq, false_or] at hg
        rcases hg with hg | hg
        · exact home_doable64 hc hm0 (k5 _ hg)
        · exact hd g hg
      obtain ⟨done, s', h1, h0, h2⟩ := ih' (r := r.zeroed axes) ⟨zeroed_on ho.table
        (fun ax => (hc.plain.sane.cfg.ppm_pos ax).le)
        (fun ax => by have := (tableSize_le hc.plain.sane ax).1; exact_mod_cast this) _, ho.extruded,
        ho.origin, ho.unit, ho.feed⟩ k2 hx2 he hd1
      simp only [List.map_cons, machineRun, Ref.job]
      cases sw with
      | true =>
        rw [if_pos rfl] at k1
        have hl : doLine c env t s = (.ok (.ok none), s1) := by
          unfold doLine
          rw [hpar]
          simp only [k1]
        simp only [hl]
        exact ⟨_, s', by rw [h1]; rfl, fun _ => congrArg (true :: ·) (h0 rfl), h2⟩
      | false =>
        rw [if_neg (by simp)] at k1
        have hl : doLine c env t s = (.ok (.error (.gmachine "failed to calibrate")), s1) := by
          unfold doLine
          rw [hpar]
          simp only [k1]
          rfl
        simp only [hl]
        refine ⟨_, s', by rw [h1]; rfl, fun h => ?_, h2⟩
        simp at h

/-- **C99.** A program of straight moves, modes, units, offsets and homing, given as text and executed in
binary64: its moves can be carried out by the Raspberry Pi back end, those of homing too, and whenever they
have been, the driver of each motor has made exactly the steps of the reference interpreter, which computes
with real numbers, and the position that the machine holds is the binary64 number nearest to the place where
the motor is.  What the calibration itself does to the motors is not counted.  `m` is the longest extrusion
that a line asks for. -/
theorem C99_program [PyText] (hc : FloatMachine c) (hppm : ∀ ax, 10 ≤ c.ppm.get ax)
    (hb : BufOk b) (hp : PinsOk p) (ha : PinsApart p) (hlen : c.pulseLenUs < 2 ^ 26) {m : ℚ} (hm0 : 0 ≤ m)
    (hsz : longestMove c m ≤ b.size) (henv : ∀ tr, env.move tr = none) {sw : Bool}
    (hcal : ∀ tr, env.calibrate tr = sw) (prog : List (List Char × JobLine))
    (hpr : ∀ q ∈ prog, ∃ g, parseLine q.1 = .ok (some g) ∧ JobSays g q.2)
    (hx : TameJob c (Ref.init c) (prog.map (·.2)))
    (he : ExtrudesJob c m (Ref.init c) (prog.map (·.2))) :
    ∃ done s, machineRun c env (MState.init c) (prog.map (·.1)) = some (done, s) ∧
      (sw = true → done = ((Ref.init c).job c (prog.map (·.2))).1) ∧
      (∃ es, Played c p b s.trace es) ∧
      ∀ es, Played c p b s.trace es → ∀ (ax : Axis) (dir : Bool),
        ((Driver.mk false dir 0).sees p ax es).step = false ∧
        along c ax ((Driver.mk false dir 0).sees p ax es).pos =
          ((Ref.init c).job c (prog.map (·.2))).2.steps ax ∧
        (ax ≠ .e → s.pos.get ax =
          F64.of (along c ax ((Driver.mk false dir 0).sees p ax es).pos / c.ppm.get ax)) := by
  obtain ⟨done, s, h1, h0, h3, h4⟩ := job_doable64 hc henv hcal hm0 prog hpr (refOk_init hc) matches_init64
    hx he (by
      intro g hg
      have : g ∈ movesOf (MState.init (F := F64) c).trace := mem_movesOf.2 hg
      cases this)
  refine ⟨done, s, h1, h0, played_of_ends hb hp hlen fun g hg => doable_ends64 (N := 0) hc.plain.sane.cfg
    hc.plain.limits hc.fast hc.plain.auto hppm hb hp hlen hsz (fun _ _ => rfl) (le_refl _) (by omega)
    (h4 g hg) _, fun es hes ax dir => ?_⟩
  obtain ⟨evs, he, hn⟩ := h3.motors
  have h5 := played_steps hb hp ha hlen (fun g hg => by
    obtain ⟨lg, d, v, n, rfl, -, -, -, hnew, -⟩ := h4 g hg
    exact linear_unitDirs hnew) hes ax (d := ⟨false, dir, 0⟩) rfl he
  have h6 : along c ax ((Driver.mk false dir 0).sees p ax es).pos =
      ((Ref.init c).job c (prog.map (·.2))).2.steps ax := by
    rw [h5.2, hn]
    unfold along
    split <;> simp
  refine ⟨h5.1, h6, fun hax => ?_⟩
  rw [h6, h3.pos, at_steps hax]

/-- The default configuration and the program of C97: out, home, and out again.  The driver of X has made 1000
steps in all, backwards as it sees them because that motor is inverted. -/
theorem C99_example [PyText] (henv : ∀ tr, env.move tr = none) (hcal : ∀ tr, env.calibrate tr = true) :
    ∃ s es, machineRun Cfg.default env (MState.init Cfg.default) (homeProgram.map (·.1)) =
        some ([true, true, true], s) ∧
      Played Cfg.default Pins.default exBuf s.trace es ∧
      ((Driver.mk false false 0).sees Pins.default .x es).pos = -1000 := by
  obtain ⟨r2, hrun, b2, ht, he⟩ := homeProgram_run
  obtain ⟨done, s, h1, h0, ⟨es, h2⟩, h3⟩ := C99_program default_float default_ppm10 exBuf_ok exPins_ok
    exPins_apart (by decide) (m := 780) (by norm_num) default_fits henv hcal homeProgram homeProgram_says ht he
  rw [h0 rfl, hrun] at h1
  refine ⟨s, es, h1, h2, ?_⟩
  have h4 := (h3 es h2 .x false).2.1
  rw [hrun] at h4
  dsimp only at h4
  rw [b2] at h4
  simp only [along, Cfg.default, V4.get, if_true] at h4
  change -((Driver.mk false false 0).sees Pins.default .x es).pos = 1000 at h4
  omega

end PyCNC.Props
