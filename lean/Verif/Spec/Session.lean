import Verif.Spec.Jobs
import Verif.Spec.GCode
import Verif.Model.Main

/-!
# Vocabulary for statements about `main`
-/

namespace PyCNC.Spec

section sessions

variable [PyText] {F : Type} [PyNum F] (c : Cfg) (env : Env F)

/-- The line is parsed and executed; the machine goes from `s` to `s'` and answers `a`. -/
def Executes (line : List Char) (s : MState F) (a : Option (Answer F)) (s' : MState F) : Prop :=
  ∃ g, parseLine line = .ok g ∧ doCommand c env g s = (.ok a, s')

/-- The line raises an exception, in the parser or in the machine. -/
def Raises (line : List Char) (s : MState F) (e : PyErr) (s' : MState F) : Prop :=
  (parseLine line = .error e ∧ s' = s) ∨
  ∃ g, parseLine line = .ok g ∧ doCommand c env g s = (.error e, s')

/-- The lines are executed one after the other with the given answers. -/
inductive ExecutesAll : List (List Char) → MState F → List (Option (Answer F)) → MState F → Prop
  | nil {s} : ExecutesAll [] s [] s
  | cons {line rest s s1 s2 a as} : Executes c env line s a s1 →
      ExecutesAll rest s1 as s2 → ExecutesAll (line :: rest) s (a :: as) s2

/-- The lines are executed one after the other; each is answered, errors included. -/
inductive AnswersAll : List (List Char) → MState F → List (Reply F) → MState F → Prop
  | nil {s} : AnswersAll [] s [] s
  | ok {line rest s s1 s2 a rs} : Executes c env line s a s1 →
      AnswersAll rest s1 rs s2 → AnswersAll (line :: rest) s (.ok a :: rs) s2
  | error {line rest s s1 s2 e rs} : Raises c env line s e s1 → Reported e →
      AnswersAll rest s1 rs s2 → AnswersAll (line :: rest) s (.error e :: rs) s2

/-- If the line is accepted by the parser, its numbers are decimal numbers, it is no arc and it has
no E word. -/
def PlainLine (line : List Char) : Prop :=
  ∀ g, parseLine line = .ok (some g) →
    (∀ w ∈ g.params, Decimal w.2) ∧ ¬ IsArc g ∧ g.params.lookup 'E' = none

end sessions

end PyCNC.Spec
