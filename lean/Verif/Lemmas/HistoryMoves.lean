import Verif.Lemmas.MachineExact

/-!
# Induction over the moves of a history
-/

set_option linter.unusedSectionVars false

namespace PyCNC

open Spec

variable {F : Type} [PyNum F] {c : Cfg} {env : Env F}

/-- The generators passed to `hal.move`, the latest first. -/
def movesOf : List (HalCall F) → List (Gen F)
  | [] => []
  | .move g :: tr => g :: movesOf tr
  | _ :: tr => movesOf tr

theorem movesOf_other {call : HalCall F} {tr : List (HalCall F)} (h : ∀ g, call ≠ .move g) :
    movesOf (call :: tr) = movesOf tr := by
  cases call <;> first | rfl | exact absurd rfl (h _)

theorem mem_movesOf {g : Gen F} {tr : List (HalCall F)} : g ∈ movesOf tr ↔ .move g ∈ tr := by
  induction tr with
  | nil => simp [movesOf]
  | cons call tr ih =>
    by_cases h : ∃ g', call = .move g'
    · obtain ⟨g', rfl⟩ := h
      simp [movesOf, ih]
    · have h' : ∀ g', call ≠ .move g' := fun g' e => h ⟨g', e⟩
      rw [movesOf_other h', ih]
      constructor
      · exact fun h => List.mem_cons_of_mem _ h
      · intro hm
        rcases List.mem_cons.1 hm with e | e
        · exact absurd e.symm (h' g)
        · exact e

/-- Induction over histories, for a predicate about the position and the moves. -/
theorem reachable_moves {P : MState F → Prop} (h0 : P (MState.init c))
    (hml : ∀ d v, M.Pres P (moveLinear c env d v))
    (hmc : ∀ d r v rot, M.Pres P (moveCircular c env d r v rot))
    (hother : ∀ s s' : MState F, P s → s'.pos = s.pos → movesOf s'.trace = movesOf s.trace → P s')
    {s : MState F} (hs : Reachable c env s) : P s := by
  have hc : ∀ call, (∀ g, call ≠ .move g) → ClosedCall P call := fun call h1 s h =>
    hother s _ h rfl (movesOf_other h1)
  have hj : ClosedCall P .join := hc _ (by simp)
  have hms : ∀ h, M.Pres P (measure env h) := fun h => measure_pres (hc _ (by simp))
  have hf : ∀ b, M.Pres P (fan b) := fun b =>
    fan_pres fun s h => hother s _ h rfl rfl
  have hsp : ∀ v, M.Pres P (spindle c v) := fun v => spindle_pres hj (hc _ (by simp))
  have hz : ∀ x y z, M.Pres P (safeZero c env x y z) := fun _ _ _ => safeZero_pres2 hml
  have hmod : ∀ f : MState F → MState F, (∀ s, (f s).pos = s.pos ∧ (f s).trace = s.trace) →
      M.Pres P (M.modify f) := fun f h => M.Pres.modify fun s hs =>
    hother s _ hs (h s).1 (by rw [(h s).2])
  refine reachable_inv h0 (fun g => ?_) ?_ hz (position_pres hj) ?_ hs
  · refine doCommand_pres (fun s x h => hother s _ h rfl rfl) fun d r v => ?_
    cases hcmd : lineCmd g with
    | g28 =>
      unfold execCmd home
      dsimp only
      refine M.Pres.bind (M.Pres.bind (hz _ _ _) fun _ => M.Pres.bind (M.Pres.emit hj)
        fun _ => M.Pres.bind (M.Pres.emit (hc _ (by simp))) fun _ => M.Pres.bind M.Pres.get fun s => ?_)
        fun _ => M.Pres.pure _
      exact M.Pres.ite (M.Pres.pure _) (M.Pres.throw _)
    | heat h w =>
      unfold execCmd heatCommand
      pres
      refine heat_pres' (hc _ (by simp)) (hc _ (by simp)) (hc _ (by simp)) (hc _ (by simp)) ?_ ?_
      · intro s t hs
        exact hother s _ hs (by cases h <;> rfl) (by rw [setHeater_trace])
      · intro _ s hs
        exact hother s _ hs rfl rfl
    | _ =>
      unfold execCmd
      pres
      all_goals first
        | exact hml _ _
        | exact hmc _ _ _ _
        | exact setLocal_pres (fun s _ h => hother s _ h rfl rfl)
        | exact hf _
        | exact hms _
        | exact hsp _
        | exact hmod _ fun _ => ⟨rfl, rfl⟩
        | exact M.Pres.emit (hc _ (by simp))
  · exact hmod _ fun _ => ⟨rfl, rfl⟩
  · exact release_pres (hsp _) (fun _ => hc _ (by simp))
      (fun s h => hother s _ h rfl rfl) (hc _ (by simp))

end PyCNC
