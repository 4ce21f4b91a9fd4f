import Verif.Lemmas.Exec
import Verif.Lemmas.Coordinates

/-!
# The machine in exact arithmetic
-/

namespace PyCNC

open Spec

set_option linter.unusedSectionVars false

section any

variable {F : Type} [PyNum F] {c : Cfg} {env : Env F} {P : MState F → Prop}

theorem safeZero_pres2 {x y z : Bool} (hml : ∀ d v, M.Pres P (moveLinear c env d v)) :
    M.Pres P (safeZero c env x y z) := by
  unfold safeZero
  pres
  all_goals exact hml _ _

/-- Preservation of a predicate about position, offset and units. -/
theorem execCmd_pres2 {cmd : Cmd} {g : GCode} {d r : V4 F} {v : F}
    (hml : ∀ d v, M.Pres P (moveLinear c env d v))
    (hmc : ∀ d r v rot, M.Pres P (moveCircular c env d r v rot))
    (hsl : M.Pres P (setLocal g))
    (hother : ∀ s s' : MState F, P s → s'.pos = s.pos → s'.loc = s.loc → s'.conv = s.conv → P s')
    (h53 : ∀ s, P s → P { s with loc := Coord.zero })
    (h20 : ∀ s, P s → P { s with conv := PyNum.ofRat 25.4 })
    (h21 : ∀ s, P s → P { s with conv := PyNum.ofRat 1 })
    (hreset : M.Pres P (reset c)) :
    M.Pres P (execCmd c env cmd g d r v) := by
  have htr : ∀ s t, P s → P { s with trace := t } := fun s t h => hother s _ h rfl rfl rfl
  have hc : ∀ call, ClosedCall P call := fun call s hs => htr s _ hs
  cases cmd with
  | g0 => exact M.Pres.bind (M.Pres.lift _) fun _ => M.Pres.bind (hml _ _) fun _ => M.Pres.pure _
  | g1 => exact M.Pres.bind (hml _ _) fun _ => M.Pres.pure _
  | g2 => exact M.Pres.bind (hmc _ _ _ _) fun _ => M.Pres.pure _
  | g3 => exact M.Pres.bind (hmc _ _ _ _) fun _ => M.Pres.pure _
  | g20 => exact M.Pres.bind (M.Pres.modify h20) fun _ => M.Pres.pure _
  | g21 => exact M.Pres.bind (M.Pres.modify h21) fun _ => M.Pres.pure _
  | g28 =>
    unfold execCmd home
    dsimp only
    refine M.Pres.bind (M.Pres.bind (safeZero_pres2 hml) fun _ => M.Pres.bind (M.Pres.emit (hc _))
      fun _ => M.Pres.bind (M.Pres.emit (hc _)) fun _ => M.Pres.bind M.Pres.get fun s => ?_)
      fun _ => M.Pres.pure _
    exact M.Pres.ite (M.Pres.pure _) (M.Pres.throw _)
  | g53 => exact M.Pres.bind (M.Pres.modify h53) fun _ => M.Pres.pure _
  | g92 => exact M.Pres.bind hsl fun _ => M.Pres.pure _
  | finish => exact M.Pres.bind hreset fun _ => M.Pres.pure _
  | _ =>
    refine execCmd_pres (by simp) htr (fun _ s b h => hother s _ h rfl rfl rfl)
      (fun h _ _ s t hs => ?_) (fun _ s b h => hother s _ h rfl rfl rfl)
      (by simp) (fun _ s b h => hother s _ h rfl rfl rfl) (by simp)
      (fun _ s b h => hother s _ h rfl rfl rfl) (by simp)
    cases h <;> exact hother s _ hs rfl rfl rfl

/-- How `G28` runs. -/
theorem home_run (g : GCode) (s : MState F) : ∃ x y z s2,
    ((∃ e, safeZero c env x y z s = (.error e, s2) ∧ home c env g s = (.error e, s2)) ∨
      (safeZero c env x y z s = (.ok (), s2) ∧
        ((env.calibrate (.calibrate x y z :: .join :: s2.trace) = false ∧
          home c env g s = (.error (.gmachine "failed to calibrate"),
            { s2 with trace := .calibrate x y z :: .join :: s2.trace })) ∨
         (env.calibrate (.calibrate x y z :: .join :: s2.trace) = true ∧
          home c env g s = (.ok (), { s2 with trace := .calibrate x y z :: .join :: s2.trace }))))) ∧
    (x = true ↔ Homes g .x) ∧ (y = true ↔ Homes g .y) ∧ (z = true ↔ Homes g .z) ∧ True := by
  let xyz : Bool × Bool × Bool :=
    if !g.has 'X' && !g.has 'Y' && !g.has 'Z' then (true, true, true)
    else (g.has 'X', g.has 'Y', g.has 'Z')
  refine ⟨xyz.1, xyz.2.1, xyz.2.2, (safeZero c env xyz.1 xyz.2.1 xyz.2.2 s).2, ?_, ?_⟩
  · have hh : home c env g s = (do
        safeZero c env xyz.1 xyz.2.1 xyz.2.2
        M.emit .join
        M.emit (.calibrate xyz.1 xyz.2.1 xyz.2.2)
        let s ← M.get
        if env.calibrate s.trace then return
        else M.throw (.gmachine "failed to calibrate")) s := rfl
    rw [hh]
    rcases hz : safeZero c env xyz.1 xyz.2.1 xyz.2.2 s with ⟨e | _, s2⟩
    · exact .inl ⟨e, rfl, M.bind_error hz⟩
    · refine .inr ⟨rfl, ?_⟩
      rw [M.bind_ok hz, M.bind_emit, M.bind_emit, M.bind_get]
      rcases hc : env.calibrate (.calibrate xyz.1 xyz.2.1 xyz.2.2 :: .join :: s2.trace) with _ | _
      · exact .inl ⟨rfl, rfl⟩
      · exact .inr ⟨rfl, rfl⟩
  · have hX : g.has 'X' = true ↔ g.params.lookup 'X' ≠ none := by
      simp [GCode.has, GCode.lookup, Option.isSome_iff_ne_none]
    have hY : g.has 'Y' = true ↔ g.params.lookup 'Y' ≠ none := by
      simp [GCode.has, GCode.lookup, Option.isSome_iff_ne_none]
    have hZ : g.has 'Z' = true ↔ g.params.lookup 'Z' ≠ none := by
      simp [GCode.has, GCode.lookup, Option.isSome_iff_ne_none]
    have hall : (∀ ax' : Axis, ax' ≠ .e → g.params.lookup (axisWord ax') = none) ↔
        g.params.lookup 'X' = none ∧ g.params.lookup 'Y' = none ∧ g.params.lookup 'Z' = none := by
      constructor
      · intro h
        exact ⟨h .x (by decide), h .y (by decide), h .z (by decide)⟩
      · rintro ⟨h1, h2, h3⟩ ax hax
        cases ax
        · exact h1
        · exact h2
        · exact h3
        · exact absurd rfl hax
    have hxyz : xyz = if !g.has 'X' && !g.has 'Y' && !g.has 'Z' then (true, true, true)
      else (g.has 'X', g.has 'Y', g.has 'Z') := rfl
    unfold Homes
    rw [hall, hxyz]
    simp only [axisWord]
    rcases h1 : g.params.lookup 'X' with _ | _ <;> rcases h2 : g.params.lookup 'Y' with _ | _ <;>
      rcases h3 : g.params.lookup 'Z' with _ | _ <;> simp [GCode.has, GCode.lookup, h1, h2, h3]

end any

section exact

variable [PyRound] {c : Cfg} {env : Env ℝ}

theorem get_roundToSteps (v : V4 ℝ) (ax : Axis) : (roundToSteps c v).get ax =
    PyNum.round10 ((PyRound.rnd (v.get ax / (1 / (c.ppm.get ax : ℝ))) : ℝ) *
      (1 / (c.ppm.get ax : ℝ))) := by
  cases ax <;> simp [roundToSteps, Coord.round, Coord.new, Coord.roundTo, V4.get]

theorem gridV_roundToSteps (v : V4 ℝ) : GridV (roundToSteps c v) := gridV_new _ _ _ _

/-- A move without exception adds the step rounded displacement. -/
theorem moveLinear_ok {d : V4 ℝ} {v : ℝ} {s s' : MState ℝ} (hg : GridV s.pos)
    (h : moveLinear c env d v s = (.ok (), s')) :
    (∀ ax, s'.pos.get ax = s.pos.get ax + (roundToSteps c d).get ax) ∧ GridV s'.pos ∧
    s' = { s with pos := s'.pos, trace := s'.trace } := by
  rcases moveLinear_cases (c := c) (env := env) d v s with ⟨hz, h'⟩ | ⟨_, e, h', _⟩ |
    ⟨_, g, _, _, _, ⟨e, _, h'⟩ | ⟨_, h'⟩⟩ <;> rw [h] at h' <;>
    simp only [Prod.mk.injEq, reduceCtorEq, false_and, true_and] at h' <;> subst h'
  · refine ⟨fun ax => ?_, hg, rfl⟩
    rw [(isZero_iff _).1 hz ax, add_zero]
  · exact ⟨fun ax => get_add_grid hg (gridV_roundToSteps _) ax, gridV_add _ _, rfl⟩

/-- An arc without exception adds the step rounded displacement. -/
theorem moveCircular_ok {d r : V4 ℝ} {v : ℝ} {rot : Rot} {s s' : MState ℝ} (hg : GridV s.pos)
    (h : moveCircular c env d r v rot s = (.ok (), s')) :
    (∀ ax, s'.pos.get ax = s.pos.get ax + (roundToSteps c d).get ax) ∧ GridV s'.pos ∧
    s' = { s with pos := s'.pos, trace := s'.trace } := by
  rcases moveCircular_cases (c := c) (env := env) d r v rot s with ⟨e, h', _⟩ |
    ⟨ce, g, lg, _, _, _, _, _, h'⟩
  · rw [h] at h'; simp at h'
  · rw [h] at h'
    rcases arcMoves_cases (env := env) g lg (fun s : MState ℝ => { s with
        pos := Coord.add (Coord.add s.pos (roundToSteps c ce))
          (Coord.sub (roundToSteps c d) (roundToSteps c ce)) }) s with ⟨e, s2, h2, _⟩ |
      ⟨s2, h2, h3, _⟩
    · rw [h2] at h'; simp at h'
    · rw [h3] at h'
      simp only [Prod.mk.injEq, true_and] at h'
      subst h'
      have hp : s2.pos = s.pos ∧ s2 = { s with trace := s2.trace } := by
        subst h2; cases lg <;> exact ⟨rfl, rfl⟩
      refine ⟨fun ax => ?_, gridV_add _ _, ?_⟩
      · dsimp only
        rw [get_add_grid (gridV_add _ _) (gridV_sub _ _), hp.1,
          get_add_grid hg (gridV_roundToSteps _),
          get_sub_grid (gridV_roundToSteps _) (gridV_roundToSteps _)]
        ring
      · dsimp only; rw [hp.2]

theorem moveLinear_grid {d : V4 ℝ} {v : ℝ} {s : MState ℝ} (hg : GridV s.pos) :
    GridV (moveLinear c env d v s).2.pos := by
  rcases moveLinear_cases (c := c) (env := env) d v s with ⟨_, h'⟩ | ⟨_, e, h', _⟩ |
    ⟨_, g, _, _, _, ⟨e, _, h'⟩ | ⟨_, h'⟩⟩ <;> rw [h']
  · exact hg
  · exact hg
  · exact hg
  · exact gridV_add _ _

theorem moveCircular_grid {d r : V4 ℝ} {v : ℝ} {rot : Rot} {s : MState ℝ} (hg : GridV s.pos) :
    GridV (moveCircular c env d r v rot s).2.pos := by
  rcases h : moveCircular c env d r v rot s with ⟨e | a, s'⟩
  · rcases moveCircular_error h with rfl | ⟨_, h'⟩
    · exact hg
    · unfold SameState at h'
      rw [← h'] at hg
      exact hg
  · exact (moveCircular_ok hg h).2.1

/-- Position and offset are decimal numbers with ten digits, the unit is mm or inch. -/
structure Tidy (s : MState ℝ) : Prop where
  pos : GridV s.pos
  loc : GridV s.loc
  conv : s.conv = 1 ∨ s.conv = 25.4

theorem tidy_moveLinear (d : V4 ℝ) (v : ℝ) : M.Pres Tidy (moveLinear c env d v) := by
  intro s h
  rcases hm : moveLinear c env d v s with ⟨e | a, s'⟩
  · rcases moveLinear_error hm with rfl | ⟨_, h'⟩
    · exact h
    · unfold SameState at h'
      rw [← h'] at h
      exact ⟨h.1, h.2, h.3⟩
  · obtain ⟨_, h1, h2⟩ := moveLinear_ok h.pos hm
    dsimp only
    rw [h2]
    exact ⟨h1, h.2, h.3⟩

theorem tidy_moveCircular (d r : V4 ℝ) (v : ℝ) (rot : Rot) :
    M.Pres Tidy (moveCircular c env d r v rot) := by
  intro s h
  rcases hm : moveCircular c env d r v rot s with ⟨e | a, s'⟩
  · rcases moveCircular_error hm with rfl | ⟨_, h'⟩
    · exact h
    · unfold SameState at h'
      rw [← h'] at h
      exact ⟨h.1, h.2, h.3⟩
  · obtain ⟨_, h1, h2⟩ := moveCircular_ok h.pos hm
    dsimp only
    rw [h2]
    exact ⟨h1, h.2, h.3⟩

theorem tidy_other (s s' : MState ℝ) (h : Tidy s) (h1 : s'.pos = s.pos) (h2 : s'.loc = s.loc)
    (h3 : s'.conv = s.conv) : Tidy s' :=
  ⟨by rw [h1]; exact h.1, by rw [h2]; exact h.2, by rw [h3]; exact h.3⟩

theorem tidy_reset : M.Pres Tidy (reset c : M ℝ Unit) := fun s h =>
  ⟨h.1, gridV_zero, .inl (by change (PyNum.ofRat 1 : ℝ) = 1; simp)⟩

theorem tidy_setLocal (g : GCode) : M.Pres Tidy (setLocal g : M ℝ Unit) := by
  unfold setLocal
  refine M.Pres.bind M.Pres.get fun s0 =>
    M.Pres.ite ?_ (M.Pres.modify fun s hs => ⟨hs.1, hs.1, hs.3⟩)
  exact M.Pres.bind (M.Pres.lift _) fun _ =>
    M.Pres.modify fun s hs => ⟨hs.1, gridV_sub _ _, hs.3⟩

theorem tidy_doCommand (g : GCode) : M.Pres Tidy (doCommand c env (some g)) :=
  doCommand_pres (fun s x h => ⟨h.1, h.2, h.3⟩) fun d r v =>
    execCmd_pres2 tidy_moveLinear tidy_moveCircular (tidy_setLocal g) tidy_other
      (fun s h => ⟨h.1, gridV_zero, h.3⟩) (fun s h => ⟨h.1, h.2, .inr (by simp)⟩)
      (fun s h => ⟨h.1, h.2, .inl (by simp)⟩) tidy_reset

theorem tidy_reachable {s : MState ℝ} (hs : Reachable c env s) : Tidy s := by
  refine reachable_inv (P := Tidy) ?_ tidy_doCommand tidy_reset
    (fun _ _ _ => safeZero_pres2 tidy_moveLinear) (position_pres fun s h => ⟨h.1, h.2, h.3⟩)
    (release_pres (fun s h => ⟨h.1, h.2, h.3⟩) (fun _ s h => ⟨h.1, h.2, h.3⟩)
      (fun s h => ⟨h.1, h.2, h.3⟩) (fun s h => ⟨h.1, h.2, h.3⟩)) hs
  exact ⟨gridV_zero, gridV_zero, .inl (by simp [MState.init])⟩

/-- Induction over the positions of a history. -/
theorem reachable_pos {Q : V4 ℝ → Prop} (h0 : Q Coord.zero)
    (hmove : ∀ p d, GridV p → Q p → checkDelta c p (roundToSteps c d) = .ok () →
      Q (Coord.add p (roundToSteps c d)))
    {s : MState ℝ} (hs : Reachable c env s) : Q s.pos := by
  have hml : ∀ d v, M.Pres (fun s => GridV s.pos ∧ Q s.pos) (moveLinear c env d v) := by
    intro d v s h
    rcases moveLinear_cases (c := c) (env := env) d v s with ⟨_, h'⟩ | ⟨_, e, h', _⟩ |
      ⟨_, g, hd, _, _, ⟨e, _, h'⟩ | ⟨_, h'⟩⟩ <;> rw [h']
    · exact h
    · exact h
    · exact h
    · exact ⟨gridV_add _ _, hmove _ _ h.1 h.2 hd⟩
  have hmc : ∀ d r v rot, M.Pres (fun s => GridV s.pos ∧ Q s.pos)
      (moveCircular c env d r v rot) := by
    intro d r v rot s h
    rcases hm : moveCircular c env d r v rot s with ⟨e | a, s'⟩
    · rcases moveCircular_error hm with rfl | ⟨_, h'⟩
      · exact h
      · unfold SameState at h'
        rw [← h'] at h
        exact h
    · obtain ⟨h1, h2, _⟩ := moveCircular_ok h.1 hm
      rcases moveCircular_cases (c := c) (env := env) d r v rot s with ⟨e, h', _⟩ |
        ⟨ce, g, lg, hd, _⟩
      · rw [hm] at h'; simp at h'
      · refine ⟨h2, ?_⟩
        have : s'.pos = Coord.add s.pos (roundToSteps c d) := V4.ext_get fun ax => by
          rw [h1, get_add_grid h.1 (gridV_roundToSteps _)]
        dsimp only
        rw [this]
        exact hmove _ _ h.1 h.2 hd
  have := reachable_inv (c := c) (env := env) (P := fun s => GridV s.pos ∧ Q s.pos)
    ⟨gridV_zero, h0⟩
    (fun g => doCommand_pres (fun s x h => h) fun d r v =>
      execCmd_pres2 hml hmc (by unfold setLocal; pres)
        (fun s s' h h1 _ _ => by rw [h1]; exact h) (fun s h => h) (fun s h => h) (fun s h => h)
        (fun s h => h)) (fun s h => h)
    (fun _ _ _ => safeZero_pres2 hml) (position_pres fun s h => h)
    (release_pres (fun s h => h) (fun _ s h => h) (fun s h => h) (fun s h => h)) hs
  exact this.2

/-- Commands do not depend on the table size when it is a decimal number. -/
theorem checkDelta_ok {p d : V4 ℝ} (hx : Grid (c.tableX : ℝ)) (hy : Grid (c.tableY : ℝ))
    (hz : Grid (c.tableZ : ℝ)) (h0 : 0 ≤ c.tableX ∧ 0 ≤ c.tableY ∧ 0 ≤ c.tableZ)
    (hp : GridV p) (hd : GridV d) : checkDelta c p d = .ok () ↔
      (0 ≤ p.x + d.x ∧ p.x + d.x ≤ c.tableX) ∧ (0 ≤ p.y + d.y ∧ p.y + d.y ≤ c.tableY) ∧
      (0 ≤ p.z + d.z ∧ p.z + d.z ≤ c.tableZ) := by
  have h0' : (0 : ℝ) ≤ c.tableX ∧ (0 : ℝ) ≤ c.tableY ∧ (0 : ℝ) ≤ c.tableZ := by exact_mod_cast h0
  have gx := get_add_grid hp hd .x
  have gy := get_add_grid hp hd .y
  have gz := get_add_grid hp hd .z
  simp only [V4.get] at gx gy gz
  have zx := get_zero .x
  have zy := get_zero .y
  have zz := get_zero .z
  simp only [V4.get] at zx zy zz
  have s2 : ∀ {b : ℝ}, 0 ≤ b → Coord.sorted2 0 b = (0, b) := by
    intro b hb
    unfold Coord.sorted2
    rw [if_neg (by simpa using hb)]
  unfold checkDelta Coord.isInAabb
  rw [zx, zy, zz]
  simp only [Coord.new, ofRat_eq, round10_grid hx, round10_grid hy, round10_grid hz, s2 h0'.1,
    s2 h0'.2.1, s2 h0'.2.2, gx, gy, gz]
  generalize hA : (p.x + d.x <ₚ (0 : ℝ) || p.y + d.y <ₚ (0 : ℝ) || p.z + d.z <ₚ (0 : ℝ)) = A
  generalize hB : ((c.tableX : ℝ) <ₚ p.x + d.x || (c.tableY : ℝ) <ₚ p.y + d.y ||
    (c.tableZ : ℝ) <ₚ p.z + d.z) = B
  cases A
  · cases B
    · simp only [Bool.or_eq_false_iff, lt_false_iff] at hA hB
      simp [hA, hB]
    · simp only [Bool.or_eq_true, lt_iff] at hB
      refine ⟨fun h => by simp at h, fun h => ?_⟩
      rcases hB with (hB | hB) | hB <;> linarith [h.1.2, h.2.1.2, h.2.2.2]
  · simp only [Bool.or_eq_true, lt_iff] at hA
    refine ⟨fun h => by simp at h, fun h => ?_⟩
    rcases hA with (hA | hA) | hA <;> linarith [h.1.1, h.2.1.1, h.2.2.1]

omit [PyRound] in
theorem decimalStep_ppm {ax : Axis} (h : DecimalStep c ax) :
    (c.ppm.get ax : ℝ) ≠ 0 ∧ ∀ n : ℤ, Grid ((n : ℝ) / (c.ppm.get ax : ℝ)) := by
  obtain ⟨k, hk⟩ := h
  have hk' : (k : ℝ) * (c.ppm.get ax : ℝ) = 10 ^ 10 := by exact_mod_cast hk
  have h0 : (c.ppm.get ax : ℝ) ≠ 0 := by
    intro h; rw [h, mul_zero] at hk'; norm_num at hk'
  refine ⟨h0, fun n => ⟨n * k, ?_⟩⟩
  have : (E10 : ℝ) = k * (c.ppm.get ax : ℝ) := by rw [hk', E10]
  have hkn : (k : ℝ) ≠ 0 := by
    intro h; rw [h, zero_mul] at hk'; norm_num at hk'
  rw [this]
  push_cast
  field_simp

theorem roundToSteps_decimal {ax : Axis} (h : DecimalStep c ax) (v : V4 ℝ) :
    (roundToSteps c v).get ax =
      (PyRound.rnd (v.get ax * (c.ppm.get ax : ℝ)) : ℝ) / (c.ppm.get ax : ℝ) := by
  obtain ⟨h0, hg⟩ := decimalStep_ppm h
  rw [get_roundToSteps, div_div_eq_mul_div, div_one, mul_one_div, round10_grid (hg _)]

/-- Positions are multiples of the step. -/
theorem reachable_onStep {s : MState ℝ} (hs : Reachable c env s) {ax : Axis}
    (h : DecimalStep c ax) : ∃ n : ℤ, s.pos.get ax = n / (c.ppm.get ax : ℝ) := by
  refine reachable_pos (Q := fun p => ∃ n : ℤ, p.get ax = n / (c.ppm.get ax : ℝ)) ?_ ?_ hs
  · exact ⟨0, by rw [get_zero]; simp⟩
  · rintro p d hg ⟨n, hn⟩ _
    refine ⟨n + PyRound.rnd (d.get ax * (c.ppm.get ax : ℝ)), ?_⟩
    rw [get_add_grid hg (gridV_roundToSteps _), hn, roundToSteps_decimal h]
    push_cast
    ring

/-- The value of a coordinate word, or the default. -/
theorem coordinates_ok {g : GCode} {dflt v : V4 ℝ} {m : ℝ} (h : g.coordinates dflt m = .ok v)
    (ax : Axis) :
    (∃ q, HasNum g (axisWord ax) q ∧ v.get ax = PyNum.round10 ((q : ℝ) * m)) ∨
    (g.params.lookup (axisWord ax) = none ∧ v.get ax = PyNum.round10 (dflt.get ax)) := by
  unfold GCode.coordinates at h
  obtain ⟨x, hx, h⟩ := bindE_ok h
  obtain ⟨y, hy, h⟩ := bindE_ok h
  obtain ⟨z, hz, h⟩ := bindE_ok h
  obtain ⟨e, he, h⟩ := bindE_ok h
  cases h
  have key : ∀ {k : Char} {d x : ℝ}, g.get k d m = .ok x →
      (∃ q, HasNum g k q ∧ PyNum.round10 x = PyNum.round10 ((q : ℝ) * m)) ∨
      (g.params.lookup k = none ∧ PyNum.round10 x = PyNum.round10 d) := by
    intro k d x h
    rcases get_ok h with ⟨q, hq, rfl⟩ | ⟨hn, rfl⟩
    · exact .inl ⟨q, hq, rfl⟩
    · exact .inr ⟨hn, rfl⟩
  cases ax
  · exact key hx
  · exact key hy
  · exact key hz
  · exact key he

/-- The programmed displacement. -/
theorem readDelta_ok {g : GCode} {s : MState ℝ} {d : V4 ℝ} (ht : Tidy s)
    (h : readDelta s g = .ok d) : GridV d ∧ ∀ ax,
    (∃ q, HasNum g (axisWord ax) q ∧ d.get ax = PyNum.round10 ((q : ℝ) * s.conv) +
      (if s.absMode then s.loc.get ax - s.pos.get ax else 0)) ∨
    (g.params.lookup (axisWord ax) = none ∧ d.get ax = 0) := by
  unfold readDelta at h
  split at h
  · rename_i ha
    obtain ⟨co, hco, h⟩ := bindE_ok h
    cases h
    have hg : GridV co := by
      intro ax
      rcases coordinates_ok hco ax with ⟨q, _, h⟩ | ⟨_, h⟩ <;> rw [h] <;> exact grid_round10 _
    refine ⟨gridV_sub _ _, fun ax => ?_⟩
    rw [get_sub_grid (gridV_add _ _) ht.pos, get_add_grid hg ht.loc]
    rcases coordinates_ok hco ax with ⟨q, hq, h⟩ | ⟨hn, h⟩
    · exact .inl ⟨q, hq, by rw [h, if_pos ha]; ring⟩
    · refine .inr ⟨hn, ?_⟩
      rw [h, round10_grid (gridV_sub _ _ ax), get_sub_grid ht.pos ht.loc]
      ring
  · constructor
    · intro ax
      rcases coordinates_ok h ax with ⟨q, _, h⟩ | ⟨_, h⟩ <;> rw [h] <;> exact grid_round10 _
    · intro ax
      rcases coordinates_ok h ax with ⟨q, hq, h⟩ | ⟨hn, h⟩
      · exact .inl ⟨q, hq, by rw [h, if_neg ‹_›, add_zero]⟩
      · exact .inr ⟨hn, by rw [h, get_zero]; exact round10_zero⟩

/-- What a successful move command does. -/
theorem move_ok {g : GCode} {s s' : MState ℝ} {a : Option (Answer ℝ)} (ht : Tidy s)
    (hg : IsLinearMove g ∨ IsArc g) (h : doCommand c env (some g) s = (.ok a, s')) :
    ∃ d, readDelta s g = .ok d ∧
      (∀ ax, s'.pos.get ax = s.pos.get ax + (roundToSteps c d).get ax) ∧ GridV s'.pos ∧
      s' = { s with pos := s'.pos, trace := s'.trace, vel := s'.vel } := by
  rcases doCommand_cases (c := c) (env := env) g s with ⟨e, h1, _⟩ |
    ⟨d, v, r, hd, hv, _, ⟨_, h1⟩ | ⟨_, ⟨a, s2, hx, h1⟩ | ⟨e, s2, hx, h1⟩⟩⟩ <;> rw [h] at h1 <;>
    simp only [Prod.mk.injEq, reduceCtorEq, false_and, Except.ok.injEq] at h1
  obtain ⟨rfl, rfl⟩ := h1
  refine ⟨d, hd, ?_⟩
  have lin : ∀ {v}, moveLinear c env d v s = (.ok (), s2) → _ := fun h => moveLinear_ok ht.pos h
  have cir : ∀ {v rot}, moveCircular c env d r v rot s = (.ok (), s2) → _ :=
    fun h => moveCircular_ok ht.pos h
  have fin : ((∀ ax, s2.pos.get ax = s.pos.get ax + (roundToSteps c d).get ax) ∧ GridV s2.pos ∧
      s2 = { s with pos := s2.pos, trace := s2.trace }) →
      ((∀ ax, s2.pos.get ax = s.pos.get ax + (roundToSteps c d).get ax) ∧ GridV s2.pos ∧
      { s2 with vel := v } = { s with pos := s2.pos, trace := s2.trace, vel := v }) := by
    rintro ⟨h1, h2, h3⟩
    exact ⟨h1, h2, by rw [h3]⟩
  apply fin
  rcases hg with (hg | hg) | (hg | hg)
  · rw [is_lineCmd (cmd := .g0) ⟨_, by simp [Cmd.words]; rfl, hg⟩] at hx
    obtain ⟨vl, _, hx⟩ := lift_ok hx
    obtain ⟨⟨_, hx⟩, _⟩ := ret_ok hx
    exact lin hx
  · rw [lineCmd_g1.2 hg] at hx
    obtain ⟨⟨_, hx⟩, _⟩ := ret_ok hx
    exact lin hx
  · rw [is_lineCmd (cmd := .g2) ⟨_, by simp [Cmd.words]; rfl, hg⟩] at hx
    obtain ⟨⟨_, hx⟩, _⟩ := ret_ok hx
    exact cir hx
  · rw [is_lineCmd (cmd := .g3) ⟨_, by simp [Cmd.words]; rfl, hg⟩] at hx
    obtain ⟨⟨_, hx⟩, _⟩ := ret_ok hx
    exact cir hx

/-- A nearest multiple of the step. -/
theorem nearest_step {x : ℝ} {ppm : ℝ} (hp : 0 < ppm) (n : ℤ) :
    |(PyRound.rnd (x * ppm) : ℝ) / ppm - x| ≤ |(n : ℝ) / ppm - x| := by
  have h1 : ∀ m : ℤ, |(m : ℝ) / ppm - x| = |(m : ℝ) - x * ppm| / ppm := by
    intro m
    rw [← abs_of_pos hp, ← _root_.abs_div, abs_of_pos hp]
    congr 1
    field_simp
  rw [h1, h1]
  apply div_le_div_of_nonneg_right _ hp.le
  by_contra hc
  push Not at hc
  have h2 := PyRound.near (x * ppm)
  have h3 : PyRound.rnd (x * ppm) = n := rnd_unique (by rw [abs_sub_comm]; linarith)
  rw [h3] at hc
  exact lt_irrefl _ hc

theorem roundToSteps_near {ax : Axis} (hp : 0 < c.ppm.get ax) (v : V4 ℝ) :
    |(roundToSteps c v).get ax - v.get ax| ≤ 1 / 2 / (c.ppm.get ax : ℝ) + 1 / 2 / E10 := by
  have hp' : (0 : ℝ) < (c.ppm.get ax : ℝ) := by exact_mod_cast hp
  rw [get_roundToSteps, div_div_eq_mul_div, div_one, mul_one_div]
  have h1 := round10_near ((PyRound.rnd (v.get ax * (c.ppm.get ax : ℝ)) : ℝ) / (c.ppm.get ax : ℝ))
  have h2 := PyRound.near (v.get ax * (c.ppm.get ax : ℝ))
  have h3 : |(PyRound.rnd (v.get ax * (c.ppm.get ax : ℝ)) : ℝ) / (c.ppm.get ax : ℝ) - v.get ax| ≤
      1 / 2 / (c.ppm.get ax : ℝ) := by
    have : (PyRound.rnd (v.get ax * (c.ppm.get ax : ℝ)) : ℝ) / (c.ppm.get ax : ℝ) - v.get ax =
      ((PyRound.rnd (v.get ax * (c.ppm.get ax : ℝ)) : ℝ) - v.get ax * (c.ppm.get ax : ℝ)) /
        (c.ppm.get ax : ℝ) := by field_simp
    rw [this, _root_.abs_div, abs_of_pos hp']
    exact div_le_div_of_nonneg_right h2 hp'.le
  refine (abs_sub_le _ ((PyRound.rnd (v.get ax * (c.ppm.get ax : ℝ)) : ℝ) /
    (c.ppm.get ax : ℝ)) _).trans ?_
  linarith

theorem roundToSteps_zero {ax : Axis} {v : V4 ℝ} (h : v.get ax = 0) :
    (roundToSteps c v).get ax = 0 := by
  rw [get_roundToSteps, h, zero_div, rnd_zero]
  simp

omit [PyRound] in
theorem decimalQ_grid {q : ℚ} (h : DecimalQ q) : Grid (q : ℝ) := by
  obtain ⟨k, hk⟩ := h
  refine ⟨k, ?_⟩
  have : (q : ℝ) * 10 ^ 10 = k := by exact_mod_cast hk
  rw [E10, ← this]
  field_simp

theorem moveLinear_calls {d : V4 ℝ} {v : ℝ} {s s' : MState ℝ}
    (h : moveLinear c env d v s = (.ok (), s')) :
    ∃ moves, s'.trace = moves ++ s.trace ∧ ∀ call ∈ moves, ∃ gen, call = HalCall.move gen := by
  rcases moveLinear_cases (c := c) (env := env) d v s with ⟨hz, h'⟩ | ⟨_, e, h', _⟩ |
    ⟨_, g, _, _, _, ⟨e, _, h'⟩ | ⟨_, h'⟩⟩ <;> rw [h] at h' <;>
    simp only [Prod.mk.injEq, reduceCtorEq, false_and, true_and] at h' <;> subst h'
  · exact ⟨[], rfl, by simp⟩
  · exact ⟨[.move (.linear g)], rfl, by simp⟩

/-- A move back to zero of an axis that is on a step. -/
theorem roundToSteps_neg {ax : Axis} {p d : V4 ℝ} (hst : DecimalStep c ax)
    (hp : ∃ n : ℤ, p.get ax = n / (c.ppm.get ax : ℝ)) (hd : d.get ax = - p.get ax) :
    p.get ax + (roundToSteps c d).get ax = 0 := by
  obtain ⟨n, hn⟩ := hp
  obtain ⟨h0, _⟩ := decimalStep_ppm hst
  rw [roundToSteps_decimal hst, hd, hn]
  have : -((n : ℝ) / (c.ppm.get ax : ℝ)) * (c.ppm.get ax : ℝ) = ((-n : ℤ) : ℝ) := by
    push_cast; field_simp
  rw [this, rnd_int]
  push_cast; ring

/-- The axes chosen by three flags. -/
def pick3 (x y z : Bool) : Axis → Bool
  | .x => x
  | .y => y
  | .z => z
  | .e => false

/-- The first move of `safe_zero`. -/
noncomputable def zeroXY (x y : Bool) (s : MState ℝ) : V4 ℝ :=
  Coord.new (if x then PyNum.neg s.pos.x else zeroF) (if y then PyNum.neg s.pos.y else zeroF)
    zeroF zeroF

theorem safeZero_run {x y z : Bool} {s s' : MState ℝ}
    (h : safeZero c env x y z s = (.ok (), s')) :
    ∃ s1, ((x = false ∧ y = false ∧ s1 = s) ∨
      ∃ v, moveLinear c env (zeroXY x y s) v s = (.ok (), s1)) ∧
      ((z = false ∧ s' = s1) ∨ (z = true ∧ moveLinear c env (Coord.new zeroF zeroF
        (PyNum.neg s1.pos.z) zeroF) (PyNum.ofRat c.maxVel.z) s1 = (.ok (), s'))) := by
  have fin : ∀ s1 : MState ℝ, (if z = true then do
        let s ← M.get
        moveLinear c env (Coord.new zeroF zeroF (PyNum.neg s.pos.z) zeroF)
          (PyNum.ofRat c.maxVel.z)
        else pure ()) s1 = (.ok (), s') →
      ((z = false ∧ s' = s1) ∨ (z = true ∧ moveLinear c env (Coord.new zeroF zeroF
        (PyNum.neg s1.pos.z) zeroF) (PyNum.ofRat c.maxVel.z) s1 = (.ok (), s'))) := by
    intro s1 h
    cases z
    · rw [if_neg (by simp), M.pure_run, Prod.mk.injEq] at h
      exact .inl ⟨rfl, h.2.symm⟩
    · rw [if_pos rfl, M.bind_get] at h
      exact .inr ⟨rfl, h⟩
  unfold safeZero at h
  rw [M.bind_get] at h
  unfold zeroXY
  cases x <;> cases y <;>
    simp only [Bool.not_true, Bool.not_false, Bool.and_true, Bool.and_false, Bool.false_eq_true,
      if_false, if_true, Bool.and_self] at h ⊢
  · exact ⟨s, .inl ⟨trivial, trivial, rfl⟩, fin s h⟩
  all_goals
    rw [M.bind_run] at h
    split at h
    · rename_i s1 hm
      exact ⟨s1, .inr ⟨_, hm⟩, fin s1 h⟩
    · cases h

theorem zeroXY_zero {x y : Bool} {s : MState ℝ} {ax : Axis}
    (h : pick3 x y false ax = false) :
    (zeroXY x y s).get ax = 0 := by
  have zz : PyNum.round10 (zeroF : ℝ) = 0 := by rw [zeroF_eq]; exact round10_zero
  unfold zeroXY
  rw [get_new]
  cases ax
  · simp only [pick3] at h; subst h; exact zz
  · simp only [pick3] at h; subst h; exact zz
  · exact zz
  · exact zz

theorem zeroXY_neg {x y : Bool} {s : MState ℝ} (hg : GridV s.pos) {ax : Axis}
    (h : pick3 x y false ax = true) :
    (zeroXY x y s).get ax = - s.pos.get ax := by
  unfold zeroXY
  rw [get_new]
  cases ax
  · simp only [pick3] at h; subst h; exact round10_grid (hg .x).neg
  · simp only [pick3] at h; subst h; exact round10_grid (hg .y).neg
  · cases h
  · cases h

theorem zeroZ_zero (a : ℝ) {ax : Axis} (h : ax ≠ .z) :
    (Coord.new zeroF zeroF a zeroF : V4 ℝ).get ax = 0 := by
  have zz : PyNum.round10 (zeroF : ℝ) = 0 := by rw [zeroF_eq]; exact round10_zero
  rw [get_new]
  cases ax
  · exact zz
  · exact zz
  · exact absurd rfl h
  · exact zz

/-- What a successful `safe_zero` does. -/
theorem safeZero_ok {x y z : Bool} {s s' : MState ℝ} (ht : Tidy s)
    (hon : ∀ ax, ax ≠ .e → ∃ n : ℤ, s.pos.get ax = n / (c.ppm.get ax : ℝ))
    (hst : DecimalStep c .x ∧ DecimalStep c .y ∧ DecimalStep c .z)
    (h : safeZero c env x y z s = (.ok (), s')) :
    (∀ ax, s'.pos.get ax = if pick3 x y z ax = true
      then 0 else s.pos.get ax) ∧
    (∃ moves, s'.trace = moves ++ s.trace ∧ ∀ call ∈ moves, ∃ gen, call = HalCall.move gen) ∧
    s' = { s with pos := s'.pos, trace := s'.trace } := by
  have hst' : ∀ ax, ax ≠ .e → DecimalStep c ax := by
    intro ax hax
    cases ax
    · exact hst.1
    · exact hst.2.1
    · exact hst.2.2
    · exact absurd rfl hax
  obtain ⟨s1, h1, h2⟩ := safeZero_run h
  have hs1 : (∀ ax, s1.pos.get ax = if pick3 x y false ax = true
      then 0 else s.pos.get ax) ∧ GridV s1.pos ∧
      (∃ moves, s1.trace = moves ++ s.trace ∧ ∀ call ∈ moves, ∃ gen, call = HalCall.move gen) ∧
      s1 = { s with pos := s1.pos, trace := s1.trace } := by
    rcases h1 with ⟨rfl, rfl, rfl⟩ | ⟨v, hm⟩
    · exact ⟨fun ax => by cases ax <;> rfl, ht.pos, ⟨[], rfl, by simp⟩, rfl⟩
    · obtain ⟨h3, h4, h5⟩ := moveLinear_ok ht.pos hm
      refine ⟨fun ax => ?_, h4, moveLinear_calls hm, h5⟩
      rw [h3]
      by_cases hax : pick3 x y false ax = true
      · rw [if_pos hax]
        have hne : ax ≠ .e := by rintro rfl; cases hax
        exact roundToSteps_neg (hst' ax hne) (hon ax hne) (zeroXY_neg ht.pos hax)
      · rw [if_neg hax]
        rw [roundToSteps_zero (zeroXY_zero (by simpa using hax)), add_zero]
  obtain ⟨h3, h4, ⟨m1, h5, h6⟩, h7⟩ := hs1
  rcases h2 with ⟨rfl, rfl⟩ | ⟨rfl, h2⟩
  · refine ⟨fun ax => ?_, ⟨m1, h5, h6⟩, h7⟩
    rw [h3]
  · obtain ⟨h8, h9, h10⟩ := moveLinear_ok h4 h2
    obtain ⟨m2, h11, h12⟩ := moveLinear_calls h2
    refine ⟨fun ax => ?_, ⟨m2 ++ m1, by rw [h11, h5, List.append_assoc], ?_⟩, ?_⟩
    · rw [h8]
      by_cases hz : ax = .z
      · subst hz
        have hz1 := h3 .z
        simp only [pick3, Bool.false_eq_true, if_false] at hz1
        rw [if_pos (show pick3 x y true .z = true from rfl)]
        refine roundToSteps_neg hst.2.2 (by rw [hz1]; exact hon .z (by decide)) ?_
        rw [get_new]
        exact round10_grid (h4 .z).neg
      · rw [roundToSteps_zero (zeroZ_zero _ hz), add_zero, h3]
        cases ax
        · rfl
        · rfl
        · exact absurd rfl hz
        · rfl
    · intro call hc
      rcases List.mem_append.1 hc with hc | hc
      · exact h12 _ hc
      · exact h6 _ hc
    · rw [h10, h7]

end exact

end PyCNC
