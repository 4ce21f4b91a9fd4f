import Verif.Spec.Machine
import Verif.Spec.Moves

/-!
# Vocabulary for statements about the machine together with its moves
-/

namespace PyCNC.Spec

/-- A realistic machine: sane constants, a table of up to 10 m and a minimum feed of at least
1 mm/min, at least one pulse per mm of the E axis (as in the default configuration). -/
structure SaneMachine (c : Cfg) : Prop where
  cfg : SaneCfg c
  table : TableOk c
  sizeX : c.tableX ≤ 10 ^ 4
  sizeY : c.tableY ≤ 10 ^ 4
  sizeZ : c.tableZ ≤ 10 ^ 4
  minVel : 1 ≤ c.minVel
  ppmE : 1 ≤ c.ppm.e

/-- The line moves the E axis, which has no table limit, by less than 10 m. -/
def SmallE (g : GCode) (s : MState ℝ) : Prop :=
  ∀ q, HasNum g 'E' q → |q * s.conv + (if s.absMode then s.loc.e - s.pos.e else 0)| ≤ 9999

/-- The hardware raises no exception. -/
structure GoodEnv {F : Type} (env : Env F) : Prop where
  measure : ∀ tr, env.measure tr ≠ none
  move : ∀ tr, env.move tr = none
  wait : ∀ tr, env.wait tr = none

/-- The exceptions that `main` reports to the operator. -/
def Reported : PyErr → Prop
  | .gcode _ => True
  | .gmachine _ => True
  | _ => False

end PyCNC.Spec
