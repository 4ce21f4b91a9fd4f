import Verif.Lemmas.Machine

/-!
# What the functions of the machine preserve
-/

namespace PyCNC

variable {F : Type} [PyNum F] {c : Cfg} {env : Env F}

/-- Closed under recording a call. -/
def ClosedCall (P : MState F → Prop) (call : HalCall F) : Prop :=
  ∀ s, P s → P { s with trace := call :: s.trace }

/-- Closed under changing the position. -/
def ClosedPos (P : MState F → Prop) : Prop := ∀ s p, P s → P { s with pos := p }

/-- Closed under changing the fan state. -/
def ClosedFan (P : MState F → Prop) : Prop := ∀ s b, P s → P { s with fan := b }

/-- Closed under changing the registered heaters. -/
def ClosedHeater (P : MState F → Prop) : Prop := ∀ s h t, P s → P (s.setHeater h t)

/-- Split a preservation goal along the program text. -/
macro "pres" : tactic => `(tactic| repeat' (first
  | exact M.Pres.pure _
  | exact M.Pres.get
  | exact M.Pres.throw _
  | exact M.Pres.lift _
  | assumption
  | with_reducible refine M.Pres.bind ?_ (fun _ => ?_)
  | with_reducible refine M.Pres.ite' (fun _ => ?_) (fun _ => ?_)
  | split))

set_option linter.unusedSectionVars false

variable {P : MState F → Prop}

theorem halMove_pres {g : Gen F} (hm : ClosedCall P (.move g)) : M.Pres P (halMove env g) := by
  unfold halMove
  refine M.Pres.bind (M.Pres.emit hm) fun _ => M.Pres.bind M.Pres.get fun s => ?_
  split
  · exact M.Pres.throw _
  · exact M.Pres.pure _

theorem moveLinear_pres {d : V4 F} {v : F} (hp : ClosedPos P) (hm : ∀ g, ClosedCall P (.move g)) :
    M.Pres P (moveLinear c env d v) := by
  unfold moveLinear
  refine M.Pres.ite (M.Pres.pure _) ?_
  refine M.Pres.bind M.Pres.get fun _ => M.Pres.bind (M.Pres.lift _) fun _ =>
    M.Pres.bind (M.Pres.lift _) fun _ => M.Pres.bind (M.Pres.lift _) fun _ =>
    M.Pres.bind (halMove_pres (hm _)) fun _ => M.Pres.modify fun s hs => hp s _ hs

theorem moveCircular_pres {d r : V4 F} {v : F} {rot : Rot} (hp : ClosedPos P)
    (hm : ∀ g, ClosedCall P (.move g)) : M.Pres P (moveCircular c env d r v rot) := by
  unfold moveCircular
  refine M.Pres.bind M.Pres.get fun _ => M.Pres.bind (M.Pres.lift _) fun _ =>
    M.Pres.bind (M.Pres.lift _) fun _ => M.Pres.bind (M.Pres.lift _) fun _ =>
    M.Pres.bind (M.Pres.lift _) fun _ => M.Pres.bind (M.Pres.lift _) fun lg =>
    M.Pres.bind (halMove_pres (hm _)) fun _ => ?_
  cases lg with
  | none => exact M.Pres.modify fun s hs => hp s _ hs
  | some lg =>
    exact M.Pres.bind (halMove_pres (hm _)) fun _ => M.Pres.modify fun s hs => hp s _ hs

theorem safeZero_pres {x y z : Bool} (hp : ClosedPos P) (hm : ∀ g, ClosedCall P (.move g)) :
    M.Pres P (safeZero c env x y z) := by
  have ml : ∀ (d : V4 F) (v : F), M.Pres P (moveLinear c env d v) := fun d v =>
    moveLinear_pres hp hm
  unfold safeZero
  pres
  all_goals exact ml _ _

theorem home_pres {g : GCode} (hp : ClosedPos P) (hm : ∀ g, ClosedCall P (.move g))
    (hj : ClosedCall P .join) (hc : ∀ x y z, ClosedCall P (.calibrate x y z)) :
    M.Pres P (home c env g) := by
  unfold home
  dsimp only
  refine M.Pres.bind (safeZero_pres hp hm) fun _ => M.Pres.bind (M.Pres.emit hj) fun _ =>
    M.Pres.bind (M.Pres.emit (hc _ _ _)) fun _ => M.Pres.bind M.Pres.get fun s => ?_
  exact M.Pres.ite (M.Pres.pure _) (M.Pres.throw _)

theorem spindle_pres {rpm : F} (hj : ClosedCall P .join)
    (hs : ClosedCall P (.spindle (PyNum.ofRat 100 *ₚ rpm /ₚ PyNum.ofRat c.spindleMax))) :
    M.Pres P (spindle c rpm) :=
  M.Pres.bind (M.Pres.emit hj) fun _ => M.Pres.emit hs

theorem fan_pres {on : Bool} (h : ∀ s, P s → P { s with trace := .fan on :: s.trace, fan := on }) :
    M.Pres P (fan on : M F Unit) := fun s hs => h s hs

theorem measure_pres {h : HeaterId} (hm : ClosedCall P (.measure h)) :
    M.Pres P (measure env h) := by
  unfold measure
  exact M.Pres.bind (M.Pres.emit hm) fun _ => M.Pres.bind M.Pres.get fun _ => M.Pres.pure _

theorem heat_pres' {h : HeaterId} {t : F} {w : Bool} (hm : ClosedCall P (.measure h))
    (hstop : ClosedCall P (.heaterStop h)) (hwait : ClosedCall P (.heaterWait h))
    (hstart : ClosedCall P (.heaterStart h t)) (hh : ∀ s t, P s → P (s.setHeater h t))
    (hf : h = .extruder → ∀ s, P s → P { s with trace := .fan true :: s.trace, fan := true }) :
    M.Pres P (heat c env h t w) := by
  unfold heat newHeater
  pres
  all_goals first
    | exact measure_pres hm
    | exact M.Pres.emit hstop
    | exact M.Pres.emit hstart
    | exact M.Pres.emit hwait
    | exact M.Pres.modify fun s hs => hh s _ hs
    | (rename_i hx
       simp only [Bool.and_eq_true, decide_eq_true_eq] at hx
       exact fan_pres (hf hx.1))

theorem heat_pres {h : HeaterId} {t : F} {w : Bool} (hm : ClosedCall P (.measure h))
    (hstop : ClosedCall P (.heaterStop h)) (hwait : ClosedCall P (.heaterWait h))
    (hstart : ClosedCall P (.heaterStart h t)) (hh : ∀ s t, P s → P (s.setHeater h t))
    (hf : ∀ s, P s → P { s with trace := .fan true :: s.trace, fan := true }) :
    M.Pres P (heat c env h t w) :=
  heat_pres' hm hstop hwait hstart hh fun _ => hf

theorem setLocal_pres {g : GCode} (hl : ∀ s l, P s → P { s with loc := l }) :
    M.Pres P (setLocal g : M F Unit) := by
  unfold setLocal
  refine M.Pres.bind M.Pres.get fun s => M.Pres.ite ?_ (M.Pres.modify fun s hs => hl s _ hs)
  exact M.Pres.bind (M.Pres.lift _) fun _ => M.Pres.modify fun s hs => hl s _ hs

/-- Commands preserve a predicate that does not depend on the position, the heaters, the
fan and the HAL calls, unless they change it themselves. -/
theorem execCmd_pres {cmd : Cmd} {g : GCode} {d r : V4 F} {v : F}
    (hp : cmd = .g0 ∨ cmd = .g1 ∨ cmd = .g2 ∨ cmd = .g3 ∨ cmd = .g28 → ClosedPos P)
    (htr : ∀ s t, P s → P { s with trace := t })
    (hfan : (∃ w, cmd = .heat .extruder w) ∨ cmd = .m106 ∨ cmd = .m107 → ClosedFan P)
    (hheat : ∀ h w, cmd = .heat h w → ∀ s t, P s → P (s.setHeater h t))
    (hplane : cmd = .g17 ∨ cmd = .g18 ∨ cmd = .g19 → ∀ s p, P s → P { s with plane := p })
    (hconv : cmd = .g20 ∨ cmd = .g21 → ∀ s k, P s → P { s with conv := k })
    (habs : cmd = .g90 ∨ cmd = .g91 → ∀ s b, P s → P { s with absMode := b })
    (hloc : cmd = .g53 ∨ cmd = .g92 → ∀ s l, P s → P { s with loc := l })
    (hspin : cmd = .m3 → ∀ s x, P s → P { s with spindle := x })
    (hreset : cmd = .finish → M.Pres P (reset c)) :
    M.Pres P (execCmd c env cmd g d r v) := by
  have hc : ∀ call, ClosedCall P call := fun call s hs => htr s _ hs
  have hj : ∀ call, M.Pres P (M.emit call : M F Unit) := fun call => M.Pres.emit (hc call)
  have hms : ∀ h, M.Pres P (measure env h) := fun h => measure_pres (hc _)
  have hsp : ∀ x, M.Pres P (spindle c x) := fun x => spindle_pres (hc _) (hc _)
  cases cmd with
  | g0 =>
    exact M.Pres.bind (M.Pres.lift _) fun _ =>
      M.Pres.bind (moveLinear_pres (hp (by simp)) fun _ => hc _) fun _ => M.Pres.pure _
  | g1 => exact M.Pres.bind (moveLinear_pres (hp (by simp)) fun _ => hc _) fun _ => M.Pres.pure _
  | g2 => exact M.Pres.bind (moveCircular_pres (hp (by simp)) fun _ => hc _) fun _ => M.Pres.pure _
  | g3 => exact M.Pres.bind (moveCircular_pres (hp (by simp)) fun _ => hc _) fun _ => M.Pres.pure _
  | g4 => unfold execCmd; pres <;> exact hj _
  | g17 => exact M.Pres.bind (M.Pres.modify fun s hs => hplane (by simp) s _ hs) fun _ => M.Pres.pure _
  | g18 => exact M.Pres.bind (M.Pres.modify fun s hs => hplane (by simp) s _ hs) fun _ => M.Pres.pure _
  | g19 => exact M.Pres.bind (M.Pres.modify fun s hs => hplane (by simp) s _ hs) fun _ => M.Pres.pure _
  | g20 => exact M.Pres.bind (M.Pres.modify fun s hs => hconv (by simp) s _ hs) fun _ => M.Pres.pure _
  | g21 => exact M.Pres.bind (M.Pres.modify fun s hs => hconv (by simp) s _ hs) fun _ => M.Pres.pure _
  | g28 =>
    exact M.Pres.bind (home_pres (hp (by simp)) (fun _ => hc _) (hc _) fun _ _ _ => hc _)
      fun _ => M.Pres.pure _
  | g53 => exact M.Pres.bind (M.Pres.modify fun s hs => hloc (by simp) s _ hs) fun _ => M.Pres.pure _
  | g90 => exact M.Pres.bind (M.Pres.modify fun s hs => habs (by simp) s _ hs) fun _ => M.Pres.pure _
  | g91 => exact M.Pres.bind (M.Pres.modify fun s hs => habs (by simp) s _ hs) fun _ => M.Pres.pure _
  | g92 => exact M.Pres.bind (setLocal_pres (hloc (by simp))) fun _ => M.Pres.pure _
  | m3 =>
    unfold execCmd; pres
    · exact hsp _
    · exact M.Pres.modify fun s hs => hspin rfl s _ hs
  | m5 => exact M.Pres.bind (hsp _) fun _ => M.Pres.pure _
  | finish => exact M.Pres.bind (hreset rfl) fun _ => M.Pres.pure _
  | m84 => exact M.Pres.bind (hj _) fun _ => M.Pres.pure _
  | heat h w =>
    unfold execCmd heatCommand; pres
    cases h with
    | extruder =>
      exact heat_pres (hc _) (hc _) (hc _) (hc _) (hheat _ _ rfl)
        fun s hs => hfan (.inl ⟨w, rfl⟩) _ _ (hc (.fan true) s hs)
    | bed =>
      refine heat_pres' (hc _) (hc _) (hc _) (hc _) (hheat _ _ rfl) ?_
      intro h; cases h
  | m105 => unfold execCmd; pres <;> exact hms _
  | m106 =>
    unfold execCmd; pres <;>
      exact fan_pres fun s hs => hfan (by simp) _ _ (hc (.fan _) s hs)
  | m107 =>
    exact M.Pres.bind (fan_pres fun s hs => hfan (by simp) _ _ (hc (.fan _) s hs))
      fun _ => M.Pres.pure _
  | m111 => exact M.Pres.bind (hj _) fun _ => M.Pres.pure _
  | m114 => unfold execCmd; pres <;> exact hj _
  | nothing => exact M.Pres.pure _
  | m82 => unfold execCmd; pres
  | m83 => unfold execCmd; pres
  | unknown => exact M.Pres.throw _

theorem doCommand_pres {g : GCode} (hv : ∀ s x, P s → P { s with vel := x })
    (hx : ∀ d r v, M.Pres P (execCmd c env (lineCmd g) g d r v)) :
    M.Pres P (doCommand c env (some g)) := by
  unfold doCommand
  pres
  · exact hx _ _ _
  · exact M.Pres.modify fun s hs => hv s _ hs

end PyCNC
