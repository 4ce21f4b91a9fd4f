import Verif.Model.GMachine

/-!
# `cnc/main.py`
-/

namespace PyCNC

/-- What `do_line` prints, `main.py:33-41`. -/
inductive Reply (F : Type) where
  /-- `OK`, with the answer of the command if there is one -/
  | ok (answer : Option (Answer F))
  /-- `ERROR` and the message of the exception -/
  | error (e : PyErr)

/-- `return True` or `return False`, `main.py:36, 41`. -/
def Reply.isOk {F : Type} : Reply F → Bool
  | .ok _ => true
  | .error _ => false

section

variable {F : Type} [PyNum F] [PyText] (c : Cfg) (env : Env F)

/-- The `except` clause of `do_line`, `main.py:34`: only two classes of exceptions are
caught. -/
def catchLine (e : PyErr) : Except PyErr (Reply F) :=
  match e with
  | .gcode _ => .ok (.error e)
  | .gmachine _ => .ok (.error e)
  | _ => .error e

/-- `do_line`, `main.py:30-41`: the reply, or the exception that escapes. -/
def doLine (line : List Char) : M F (Reply F) := fun s =>
  match parseLine line with
  | .error e => (catchLine e, s)
  | .ok g =>
    match doCommand c env g s with
    | (.ok ans, s') => (.ok (.ok ans), s')
    | (.error e, s') => (catchLine e, s')

/-- `str.strip()`.  Simplification: the white space of `\s` is stripped. -/
def strip (line : List Char) : List Char :=
  ((line.dropWhile PyText.isSpace).reverse.dropWhile PyText.isSpace).reverse

/-- How `main` ends. -/
inductive MainEnd where
  /-- `machine.release()` was called and `main` returned -/
  | released
  /-- an exception escaped -/
  | escaped (e : PyErr)
  /-- `EOFError` of `raw_input` escaped -/
  | eof
  /-- `main` waits for the next line (interactive mode only) -/
  | waiting
  deriving DecidableEq, Repr

/-- What `main` printed, the state of the machine, and how `main` ended. -/
structure Session (F : Type) where
  replies : List (Reply F)
  state : MState F
  ending : MainEnd

/-- `machine.release()` at the end of `main`, `main.py:67`. -/
def finishMain (s : MState F) : Session F :=
  match release c s with
  | (.ok _, s') => ⟨[], s', .released⟩
  | (.error e, s') => ⟨[], s', .escaped e⟩

/-- The loop over the lines of a file, `main.py:50-54`, and the rest of `main`. -/
def fileLoop : List (List Char) → MState F → Session F
  | [], s => finishMain c s
  | line :: rest, s =>
    match doLine c env (strip line) s with
    | (.error e, s') => ⟨[], s', .escaped e⟩
    | (.ok r, s') =>
      let t := if r.isOk then fileLoop rest s' else finishMain c s'
      { t with replies := r :: t.replies }

/-- `main` with a file, `main.py:44-54, 65-67`; `none` when `open` raises `IOError`.
Simplification: a `KeyboardInterrupt`, which ends the loop, is only modelled for the interactive
mode. -/
def mainFile (file : Option (List (List Char))) (s : MState F) : Session F :=
  match file with
  | none => ⟨[], s, .escaped .io⟩
  | some lines => fileLoop c env lines s

/-- What `raw_input` does, `main.py:61`. -/
inductive Input where
  | line (l : List Char)
  /-- end of the input: `EOFError` is raised -/
  | eof
  /-- `KeyboardInterrupt`, caught in `main.py:65`.  Simplification: it is only modelled while
  `raw_input` waits. -/
  | interrupt

/-- `main` without a file, `main.py:56-67`. -/
def mainLoop : List Input → MState F → Session F
  | [], s => ⟨[], s, .waiting⟩
  | .eof :: _, s => ⟨[], s, .eof⟩
  | .interrupt :: _, s => finishMain c s
  | .line l :: rest, s =>
    if l = "quit".toList ∨ l = "exit".toList then finishMain c s
    else
      match doLine c env l s with
      | (.error e, s') => ⟨[], s', .escaped e⟩
      | (.ok r, s') =>
        let t := mainLoop rest s'
        { t with replies := r :: t.replies }

end

end PyCNC
