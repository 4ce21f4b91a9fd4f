import Verif.Spec.Jobs64
import Verif.Props.Home64

/-!
# Property C97: programs with homing in floating point

Binary64 arithmetic, for every nearest-integer rounding (`PyRound`).
-/

namespace PyCNC.Props

open PyCNC Spec

variable [PyRound] {c : Cfg} {env : Env F64}

theorem job_matches64 [PyText] (hc : FloatMachine c) (henv : ∀ tr, env.move tr = none)
    (hcal : ∀ tr, env.calibrate tr = true) (prog : List (List Char × JobLine))
    (hp : ∀ p ∈ prog, ∃ g, parseLine p.1 = .ok (some g) ∧ JobSays g p.2) :
    ∀ {s : MState F64} {r : Ref}, RefOk c r → Matches64 c s r → TameJob c r (prog.map (·.2)) →
      ∃ s', machineRun c env s (prog.map (·.1)) = some ((r.job c (prog.map (·.2))).1, s') ∧
        Matches64 c s' (r.job c (prog.map (·.2))).2 := by
  induction prog with
  | nil => exact fun ho hm _ => ⟨_, rfl, hm⟩
  | cons p ps ih =>
    intro s r ho hm hx
    obtain ⟨g, hpar, hg⟩ := hp p (by simp)
    have ih' := @ih (fun q hq => hp q (by simp [hq]))
    obtain ⟨t, l | axes⟩ := p
    · obtain ⟨hx1, hx2⟩ := hx
      obtain ⟨k1, k2⟩ := line_matches64 hc (carries_of henv) (m := 9999) ho hm hg hx1
        (fun w hw => by exact_mod_cast hx1.amount w hw)
      simp only [List.map_cons, machineRun, Ref.job]
      cases hr : r.step c l with
      | none =>
        obtain ⟨e, he, h⟩ := k2 hr
        have hl : doLine c env t s = (.ok (.error e), s) := by
          unfold doLine
          rw [hpar]
          simp only [h]
          unfold Reported at he
          unfold catchLine
          split at he <;> simp_all
        simp only [hl]
        obtain ⟨s', h1, h2⟩ := ih' ho hm (by rw [hr] at hx2; exact hx2)
        exact ⟨s', by rw [h1]; rfl, h2⟩
      | some r' =>
        obtain ⟨a, s1, h, h', h'', -⟩ := k1 r' hr
        have hl : doLine c env t s = (.ok (.ok a), s1) := by
          unfold doLine
          rw [hpar]
          simp only [h]
        simp only [hl]
        obtain ⟨s', h1, h2⟩ := ih' h'' h' (by rw [hr] at hx2; exact hx2)
        exact ⟨s', by rw [h1]; rfl, h2⟩
    · obtain ⟨⟨hx1, hx3⟩, hx2⟩ := hx
      obtain ⟨g1, g2, g3, g4⟩ := hg
      have hA : Homes g = axes := funext fun ax => propext (g4 ax)
      obtain ⟨s1, moves, x, y, z, k1, k2, -⟩ := C96_home_partial hc henv hm ho.table (by
        obtain ⟨k, hk⟩ := ho.extruded
        exact ⟨k, by rw [hk, e10_val]⟩) hx3 g1 g2 g3 (by
        rw [hm.vel, val_of]; exact fl_mono hx1)
      rw [hcal, if_pos rfl] at k1
      rw [hA] at k2
      have hl : doLine c env t s = (.ok (.ok none), s1) := by
        unfold doLine
        rw [hpar]
        simp only [k1]
      simp only [List.map_cons, machineRun, Ref.job, hl]
      obtain ⟨s', h1, h2⟩ := ih' ⟨zeroed_on ho.table (fun ax => (hc.plain.sane.cfg.ppm_pos ax).le)
        (fun ax => by have := (tableSize_le hc.plain.sane ax).1; exact_mod_cast this) _, ho.extruded,
        ho.origin, ho.unit, ho.feed⟩ k2 hx2
      exact ⟨s', by rw [h1]; rfl, h2⟩

/-- **C97** -/
theorem C97_program [PyText] (hc : FloatMachine c) (henv : ∀ tr, env.move tr = none)
    (hcal : ∀ tr, env.calibrate tr = true) (prog : List (List Char × JobLine))
    (hp : ∀ p ∈ prog, ∃ g, parseLine p.1 = .ok (some g) ∧ JobSays g p.2)
    (hx : TameJob c (Ref.init c) (prog.map (·.2))) :
    ∃ s, machineRun c env (MState.init c) (prog.map (·.1)) =
        some (((Ref.init c).job c (prog.map (·.2))).1, s) ∧
      Matches64 c s ((Ref.init c).job c (prog.map (·.2))).2 :=
  job_matches64 hc henv hcal prog hp (refOk_init hc) matches_init64 hx

omit [PyRound] in
theorem home_parse [PyText] : parseLine "G28".toList = .ok (some homeLine) := by
  refine parse_words (ws := [('G', "28".toList)]) ⟨by decide, ?_, by decide, by decide⟩ (by decide)
  intro w hw
  simp only [List.mem_cons, List.not_mem_nil, or_false] at hw
  subst hw
  exact ⟨by decide, [], _, rfl, .inl rfl, by decide, by decide⟩

/-- A program: to X10, home, and to X10 again. -/
def homeProgram : List (List Char × JobLine) :=
  [("G1X10F600".toList, .line ⟨.move fun | .x => some 10 | _ => none, some 600⟩),
   ("G28".toList, .home (· ≠ .e)),
   ("G1X10F600".toList, .line ⟨.move fun | .x => some 10 | _ => none, some 600⟩)]

omit [PyRound] in
theorem homeProgram_says [PyText] : ∀ p ∈ homeProgram, ∃ g, parseLine p.1 = .ok (some g) ∧ JobSays g p.2 := by
  intro p hp
  obtain ⟨g, h1, h2⟩ := refProgram_says ("G1X10F600".toList, _) (.head _)
  simp only [homeProgram, List.mem_cons, List.not_mem_nil, or_false] at hp
  rcases hp with rfl | rfl | rfl
  · exact ⟨g, h1, h2⟩
  · exact ⟨homeLine, home_parse, home_line.1, home_line.2.1, home_line.2.2.1,
      fun ax => ⟨fun h => h.1, home_line.2.2.2 ax⟩⟩
  · exact ⟨g, h1, h2⟩

/-- The move of the program, from the start of the machine and with another feed. -/
theorem ten_step (v : ℝ) : ∃ r1, ({ Ref.init Cfg.default with feed := v } : Ref).step Cfg.default
      ⟨.move fun | .x => some 10 | _ => none, some 600⟩ = some r1 ∧ r1.steps .x = 1000 ∧
    r1.zeroed (· ≠ .e) = { Ref.init Cfg.default with feed := 600 } := by
  have d1 : dec (((10 : ℚ) : ℝ) * 1) = 10 := by
    rw [dec_eq (k := 10 ^ 11) (by norm_num)]; norm_num
  have s1 := ref_move (r := { Ref.init Cfg.default with feed := v }) (n := 0) (ne := 0) (q := 10)
    (w := fun | .x => some 10 | _ => none) (f := some 600) (v := 600) (k := 1000) (ke := 0) rfl rfl rfl
    (by funext ax; cases ax <;> rfl) (by norm_num [lineFeed]) (by norm_num)
    (by simp only [Ref.init, d1]; norm_num) rfl
  rw [if_pos (by norm_num)] at s1
  refine ⟨_, s1, rfl, ?_⟩
  unfold Ref.zeroed
  simp only [Ref.mk.injEq]
  refine ⟨?_, by simp [dec, rnd_zero], trivial, trivial, trivial, trivial⟩
  funext ax
  cases ax <;> simp [Ref.init]

/-- What the interpreter makes of the program. -/
theorem homeProgram_run : ∃ r2, (Ref.init Cfg.default).job Cfg.default (homeProgram.map (·.2)) =
      ([true, true, true], r2) ∧ r2.steps .x = 1000 ∧
    TameJob Cfg.default (Ref.init Cfg.default) (homeProgram.map (·.2)) ∧
    ExtrudesJob Cfg.default 780 (Ref.init Cfg.default) (homeProgram.map (·.2)) := by
  obtain ⟨r1, a1, a2, a3⟩ := ten_step (Ref.init Cfg.default).feed
  obtain ⟨r2, b1, b2, -⟩ := ten_step 600
  have hf : (600 : ℝ) = r1.feed := by
    have := congrArg Ref.feed a3
    exact this.symm
  have hext : r1.extruded = 0 := by
    have := congrArg Ref.extruded a3
    exact this
  have a1' : (Ref.init Cfg.default).step Cfg.default
      ⟨.move fun | .x => some 10 | _ => none, some 600⟩ = some r1 := a1
  have t := refProgram_tame.1
  have hrun : (Ref.init Cfg.default).job Cfg.default (homeProgram.map (·.2)) = ([true, true, true], r2) := by
    simp only [homeProgram, List.map_cons, List.map_nil, Ref.job, a1', a3, b1]
  refine ⟨r2, hrun, b2, ?_, ?_⟩
  · simp only [homeProgram, List.map_cons, List.map_nil, TameJob, a1', a3, Option.getD_some]
    refine ⟨t, ⟨?_, ?_⟩, ⟨t.feed, t.move, t.amount, t.origin, t.extruded⟩, trivial⟩
    · rw [← hf]; norm_num [Cfg.default]
    · rw [hext]; norm_num
  · have z : ∀ w, Stmt.move (fun | .x => some 10 | _ => none) = .move w → ∀ v : ℝ,
        (|({ Ref.init Cfg.default with feed := v } : Ref).go Cfg.default w .e| : ℝ) ≤
          (780 : ℚ) * Cfg.default.ppm.e := by
      intro w hw v
      cases hw
      have : ({ Ref.init Cfg.default with feed := v } : Ref).go Cfg.default
          (fun | .x => some 10 | _ => none) .e = 0 := sub_self _
      rw [this]; norm_num [Cfg.default]
    simp only [homeProgram, List.map_cons, List.map_nil, ExtrudesJob, a1', a3, Option.getD_some]
    exact ⟨fun w hw => z w hw _, fun w hw => z w hw _, trivial⟩

/-- The default machine and the program meet the hypotheses; all lines are accepted, and in the end the
motor of X has made 1000 steps in all. -/
theorem C97_example [PyText] (henv : ∀ tr, env.move tr = none) (hcal : ∀ tr, env.calibrate tr = true) :
    ∃ s evs, machineRun Cfg.default env (MState.init Cfg.default) (homeProgram.map (·.1)) =
        some ([true, true, true], s) ∧ s.pos.x = F64.of 10 ∧
      Sends Cfg.default s.trace evs ∧ netSteps Cfg.default .x evs = 1000 := by
  obtain ⟨r2, hrun, b2, ht, -⟩ := homeProgram_run
  obtain ⟨s, h1, h2⟩ := C97_program default_float henv hcal homeProgram homeProgram_says ht
  rw [hrun] at h1 h2
  obtain ⟨evs, h3, h4⟩ := h2.motors
  refine ⟨s, evs, h1, ?_, h3, by rw [h4]; exact b2⟩
  have := h2.pos .x
  rw [at_steps (by decide)] at this
  simp only [V4.get] at this
  rw [this, b2]
  congr 1
  norm_num [Cfg.default]

end PyCNC.Props
