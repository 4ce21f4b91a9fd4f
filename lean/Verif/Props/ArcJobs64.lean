import Verif.Spec.ArcJobs64
import Verif.Props.Jobs64
import Verif.Props.ArcInterp64

/-!
# Property C98: programs with arcs and homing in floating point

Binary64 arithmetic, for every nearest-integer rounding (`PyRound`).
-/

namespace PyCNC.Props

open PyCNC Spec

variable [PyRound] {c : Cfg} {env : Env F64}

theorem arcJob_matches64 [PyText] (hc : FloatMachine c) (henv : ∀ tr, env.move tr = none) {sw : Bool}
    (hcal : ∀ tr, env.calibrate tr = sw) (prog : List (List Char × ArcJobLine))
    (hp : ∀ p ∈ prog, ∃ g, parseLine p.1 = .ok (some g) ∧ ArcJobSays g p.2) :
    ∀ {s : MState F64} {r : ArcRef}, RefOk c r.base → ArcMatches64 c s r → TameArcJob c r (prog.map (·.2)) →
      ∃ s', machineRun c env s (prog.map (·.1)) = some ((r.job c sw (prog.map (·.2))).1, s') ∧
        ArcMatches64 c s' (r.job c sw (prog.map (·.2))).2 := by
  induction prog with
  | nil => exact fun ho hm _ => ⟨_, rfl, hm⟩
  | cons p ps ih =>
    intro s r ho hm hx
    obtain ⟨g, hpar, hg⟩ := hp p (by simp)
    have ih' := @ih (fun q hq => hp q (by simp [hq]))
    obtain ⟨t, l | axes⟩ := p
    · obtain ⟨hx1, hx2⟩ := hx
      obtain ⟨k1, k2⟩ := arcLine_matches64 hc henv ho hm hg hx1
      simp only [List.map_cons, machineRun, ArcRef.job]
      cases hr : r.step c l with
      | none =>
        obtain ⟨e, he, h⟩ := k2 hr
        have hl : doLine c env t s = (.ok (.error e), s) := by
          unfold doLine
          rw [hpar]
          simp only [h]
          unfold Reported at he
          unfold catchLine
          split at he <;> simp_all
        simp only [hl]
        obtain ⟨s', h1, h2⟩ := ih' ho hm (by rw [hr] at hx2; exact hx2)
        exact ⟨s', by rw [h1]; rfl, h2⟩
      | some r' =>
        obtain ⟨a, s1, h, h', h''⟩ := k1 r' hr
        have hl : doLine c env t s = (.ok (.ok a), s1) := by
          unfold doLine
          rw [hpar]
          simp only [h]
        simp only [hl]
        obtain ⟨s', h1, h2⟩ := ih' h'' h' (by rw [hr] at hx2; exact hx2)
        exact ⟨s', by rw [h1]; rfl, h2⟩
    · obtain ⟨⟨hx1, hx3⟩, hx2⟩ := hx
      obtain ⟨g1, g2, g3, g4⟩ := hg
      have hA : Homes g = axes := funext fun ax => propext (g4 ax)
      obtain ⟨s1, moves, x, y, z, k1, k2, -, -, -, -, -, k3⟩ := C96_home_partial hc henv hm.base ho.table (by
        obtain ⟨k, hk⟩ := ho.extruded
        exact ⟨k, by rw [hk, e10_val]⟩) hx3 g1 g2 g3 (by
        rw [hm.base.vel, val_of]; exact fl_mono hx1)
      rw [hcal] at k1
      rw [hA] at k2
      have hm1 : ArcMatches64 c s1 (r.zeroed axes) := ⟨k2, by rw [k3]; exact hm.plane⟩
      obtain ⟨s', h1, h2⟩ := ih' (r := r.zeroed axes) ⟨zeroed_on ho.table
        (fun ax => (hc.plain.sane.cfg.ppm_pos ax).le)
        (fun ax => by have := (tableSize_le hc.plain.sane ax).1; exact_mod_cast this) _, ho.extruded,
        ho.origin, ho.unit, ho.feed⟩ hm1 hx2
      simp only [List.map_cons, machineRun, ArcRef.job]
      cases sw with
      | true =>
        rw [if_pos rfl] at k1
        have hl : doLine c env t s = (.ok (.ok none), s1) := by
          unfold doLine
          rw [hpar]
          simp only [k1]
        simp only [hl]
        exact ⟨s', by rw [h1]; rfl, h2⟩
      | false =>
        rw [if_neg (by simp)] at k1
        have hl : doLine c env t s = (.ok (.error (.gmachine "failed to calibrate")), s1) := by
          unfold doLine
          rw [hpar]
          simp only [k1]
          rfl
        simp only [hl]
        exact ⟨s', by rw [h1]; rfl, h2⟩

/-- **C98.** A program of straight moves, arcs, planes, modes, units, offsets and homing, given as text and
executed in binary64, starting with a fresh machine whose end switches work or do not: exactly the lines
that the interpreter accepts are accepted, at the end the motors have made exactly the steps of the
interpreter, and the position, the offset and the feed are the binary64 numbers nearest to those of the
interpreter.  No exception escapes.  Missing: programs with arcs that are not `FloatArc`s (`C92_refuted`),
and lines with numbers that are not small or that ask for the middle between two steps. -/
theorem C98_program_partial [PyText] (hc : FloatMachine c) (henv : ∀ tr, env.move tr = none) {sw : Bool}
    (hcal : ∀ tr, env.calibrate tr = sw) (prog : List (List Char × ArcJobLine))
    (hp : ∀ p ∈ prog, ∃ g, parseLine p.1 = .ok (some g) ∧ ArcJobSays g p.2)
    (hx : TameArcJob c (ArcRef.init c) (prog.map (·.2))) :
    ∃ s, machineRun c env (MState.init c) (prog.map (·.1)) =
        some (((ArcRef.init c).job c sw (prog.map (·.2))).1, s) ∧
      ArcMatches64 c s ((ArcRef.init c).job c sw (prog.map (·.2))).2 :=
  arcJob_matches64 hc henv hcal prog hp (refOk_init hc) arcMatches_init64 hx

/-! ## The program of C78, and homing -/

theorem job_append {sw : Bool} (ls : List ArcLine) (rest : List ArcJobLine) : ∀ r : ArcRef,
    r.job c sw (ls.map .line ++ rest) =
      ((r.run c ls).1 ++ ((r.run c ls).2.job c sw rest).1, ((r.run c ls).2.job c sw rest).2) := by
  induction ls with
  | nil => exact fun r => rfl
  | cons l ls ih =>
    intro r
    simp only [List.map_cons, List.cons_append, ArcRef.job, ArcRef.run]
    cases r.step c l with
    | none => simp only [ih]; rfl
    | some r' => simp only [ih]; rfl

theorem tame_append (ls : List ArcLine) (rest : List ArcJobLine) : ∀ r : ArcRef,
    TameArcs c r ls → TameArcJob c (r.run c ls).2 rest → TameArcJob c r (ls.map .line ++ rest) := by
  induction ls with
  | nil => exact fun r _ h => h
  | cons l ls ih =>
    intro r h1 h2
    refine ⟨h1.1, ih _ h1.2 ?_⟩
    simp only [ArcRef.run] at h2
    cases hr : r.step c l with
    | none => rw [hr] at h2; exact h2
    | some r' => rw [hr] at h2; exact h2

/-- A program: that of C78, with an arc, and homing of all axes. -/
def arcHomeProgram : List (List Char × ArcJobLine) :=
  arcProgram.map (fun p => (p.1, .line p.2)) ++ [("G28".toList, .home (· ≠ .e))]

omit [PyRound] in
theorem arcHomeProgram_says [PyText] :
    ∀ p ∈ arcHomeProgram, ∃ g, parseLine p.1 = .ok (some g) ∧ ArcJobSays g p.2 := by
  intro p hp
  simp only [arcHomeProgram, List.mem_append, List.mem_map, List.mem_cons, List.not_mem_nil, or_false] at hp
  rcases hp with ⟨q, hq, rfl⟩ | rfl
  · exact arcProgram_says q hq
  · exact ⟨homeLine, home_parse, home_line.1, home_line.2.1, home_line.2.2.1,
      fun ax => ⟨fun h => h.1, home_line.2.2.2 ax⟩⟩

/-- The feed and the extruder after the program of C78. -/
theorem arcProgram_end :
    1 ≤ ((ArcRef.init Cfg.default).run Cfg.default (arcProgram.map (·.2))).2.base.feed ∧
    ((ArcRef.init Cfg.default).run Cfg.default (arcProgram.map (·.2))).2.base.extruded = 0 := by
  have hv : ((Cfg.default.minVel : ℚ) : ℝ) = 1 := by norm_num [Cfg.default]
  have f0 : 1 ≤ (Ref.init Cfg.default).feed := by norm_num [Ref.init, Cfg.default]
  obtain ⟨r1, s1, a1⟩ : ∃ r1, (ArcRef.init Cfg.default).step Cfg.default
      ⟨.plane .xy, none⟩ = some r1 ∧ AtXY r1 0 0 := by
    refine ⟨_, if_neg ?_, by funext ax; cases ax <;> rfl, rfl, rfl, rfl, rfl, rfl⟩
    rw [hv]; exact not_lt.mpr f0
  obtain ⟨q2, r2, s2, a2, f2⟩ := first_line a1
  obtain ⟨q3, r3, s3, a3⟩ := second_line a2 f2
  have s4 : r3.step Cfg.default ⟨.arc .ccw arcW3 arcK3, none⟩ = none := by
    refine if_neg fun h => ?_
    rcases h.2.2 with h | h <;> exact h rfl
  have f3 : r3.base.feed = r2.base.feed := by
    simp only [ArcRef.step] at s3
    split_ifs at s3 with h
    cases s3
    rfl
  simp only [arcProgram, List.map_cons, List.map_nil, ArcRef.run, s1, s2, s3, s4]
  exact ⟨by rw [f3, f2]; norm_num, a3.extruded⟩

/-- The default machine and the program meet the hypotheses, with end switches that do not work: the fourth
line and homing are answered with errors, and in the end the head is at zero and the motors have made as many
steps forth as back. -/
theorem C98_example [PyText] (henv : ∀ tr, env.move tr = none) (hcal : ∀ tr, env.calibrate tr = false) :
    ∃ s evs, machineRun Cfg.default env (MState.init Cfg.default) (arcHomeProgram.map (·.1)) =
        some ([true, true, true, false, false], s) ∧ s.pos.x = F64.of 0 ∧ s.pos.y = F64.of 0 ∧
      Sends Cfg.default s.trace evs ∧ netSteps Cfg.default .x evs = 0 ∧
      netSteps Cfg.default .y evs = 0 := by
  obtain ⟨e1, e2⟩ := arcProgram_end
  obtain ⟨r1, r2, -⟩ := arcProgram_run
  have hl : arcHomeProgram.map (·.2) = (arcProgram.map (·.2)).map .line ++ [.home (· ≠ .e)] := by
    simp [arcHomeProgram]
  obtain ⟨s, h1, h2⟩ := C98_program_partial default_float henv hcal arcHomeProgram arcHomeProgram_says (by
    rw [hl]
    refine tame_append _ _ _ arcProgram_tame ⟨⟨?_, ?_⟩, trivial⟩
    · have hv : ((Cfg.default.minVel : ℚ) : ℝ) = 1 := by norm_num [Cfg.default]
      rw [hv]; exact e1
    · rw [e2]; norm_num)
  rw [hl, job_append] at h1 h2
  generalize (ArcRef.init Cfg.default).run Cfg.default (arcProgram.map (·.2)) = rr at *
  obtain ⟨fs, r⟩ := rr
  simp only [ArcRef.job] at h1 h2 r1
  subst r1
  obtain ⟨evs, h3, h4⟩ := h2.base.motors
  have z : ∀ ax, ax ≠ .e → (r.zeroed (· ≠ .e)).base.steps ax = 0 := fun ax hax => if_pos hax
  refine ⟨s, evs, h1, ?_, ?_, h3, by rw [h4, z _ (by decide)], by rw [h4, z _ (by decide)]⟩
  · have := h2.base.pos .x
    rw [at_steps (by decide), z _ (by decide)] at this
    simpa [V4.get] using this
  · have := h2.base.pos .y
    rw [at_steps (by decide), z _ (by decide)] at this
    simpa [V4.get] using this

end PyCNC.Props
