import Verif.Model.GMachine

/-!
# How the functions of the machine run
-/

namespace PyCNC

namespace M

variable {F α β : Type}

theorem bind_run (m : M F α) (f : α → M F β) (s : MState F) :
    (m >>= f) s = match m s with
      | (.ok a, s') => f a s'
      | (.error e, s') => (.error e, s') := rfl

@[simp] theorem pure_run (a : α) (s : MState F) : (Pure.pure a : M F α) s = (.ok a, s) := rfl
@[simp] theorem get_run (s : MState F) : (M.get : M F _) s = (.ok s, s) := rfl
@[simp] theorem modify_run (f : MState F → MState F) (s : MState F) :
    M.modify f s = (.ok (), f s) := rfl
@[simp] theorem throw_run (e : PyErr) (s : MState F) :
    (M.throw e : M F α) s = (.error e, s) := rfl
@[simp] theorem lift_run (x : Except PyErr α) (s : MState F) : (M.lift x : M F α) s = (x, s) := rfl
@[simp] theorem emit_run (h : HalCall F) (s : MState F) :
    M.emit h s = (.ok (), { s with trace := h :: s.trace }) := rfl

theorem bind_ok {m : M F α} {f : α → M F β} {s s' : MState F} {a : α}
    (h : m s = (.ok a, s')) : (m >>= f) s = f a s' := by rw [bind_run, h]

theorem bind_error {m : M F α} {f : α → M F β} {s s' : MState F} {e : PyErr}
    (h : m s = (.error e, s')) : (m >>= f) s = (.error e, s') := by rw [bind_run, h]

@[simp] theorem bind_pure (a : α) (f : α → M F β) (s : MState F) :
    ((Pure.pure a : M F α) >>= f) s = f a s := rfl
@[simp] theorem bind_get (f : MState F → M F β) (s : MState F) :
    (M.get >>= f) s = f s s := rfl
@[simp] theorem bind_modify (g : MState F → MState F) (f : Unit → M F β) (s : MState F) :
    (M.modify g >>= f) s = f () (g s) := rfl
@[simp] theorem bind_throw (e : PyErr) (f : α → M F β) (s : MState F) :
    ((M.throw e : M F α) >>= f) s = (.error e, s) := rfl
@[simp] theorem bind_emit (h : HalCall F) (f : Unit → M F β) (s : MState F) :
    (M.emit h >>= f) s = f () { s with trace := h :: s.trace } := rfl
@[simp] theorem bind_lift_ok (a : α) (f : α → M F β) (s : MState F) :
    ((M.lift (.ok a) : M F α) >>= f) s = f a s := rfl
@[simp] theorem bind_lift_error (e : PyErr) (f : α → M F β) (s : MState F) :
    ((M.lift (.error e) : M F α) >>= f) s = (.error e, s) := rfl

/-- `m` preserves `P`, whether it raises or not. -/
def Pres (P : MState F → Prop) (m : M F α) : Prop := ∀ s, P s → P (m s).2

theorem Pres.bind {P : MState F → Prop} {m : M F α} {f : α → M F β} (hm : Pres P m)
    (hf : ∀ a, Pres P (f a)) : Pres P (m >>= f) := by
  intro s hs
  rw [bind_run]
  have h := hm s hs
  rcases h' : m s with ⟨r, s'⟩
  rw [h'] at h
  cases r with
  | ok a => exact hf a s' h
  | error e => exact h

theorem Pres.pure {P : MState F → Prop} (a : α) : Pres P (Pure.pure a : M F α) := fun _ h => h
theorem Pres.get {P : MState F → Prop} : Pres P (M.get : M F _) := fun _ h => h
theorem Pres.throw {P : MState F → Prop} (e : PyErr) : Pres P (M.throw e : M F α) := fun _ h => h
theorem Pres.lift {P : MState F → Prop} (x : Except PyErr α) : Pres P (M.lift x : M F α) :=
  fun _ h => h
theorem Pres.modify {P : MState F → Prop} {f : MState F → MState F} (h : ∀ s, P s → P (f s)) :
    Pres P (M.modify f) := h
theorem Pres.emit {P : MState F → Prop} {call : HalCall F}
    (h : ∀ s, P s → P { s with trace := call :: s.trace }) : Pres P (M.emit call) := h
theorem Pres.ite {P : MState F → Prop} {b : Prop} [Decidable b] {m n : M F α} (hm : Pres P m)
    (hn : Pres P n) : Pres P (if b then m else n) := by
  split <;> assumption

theorem Pres.ite' {P : MState F → Prop} {b : Prop} [Decidable b] {m n : M F α} (hm : b → Pres P m)
    (hn : ¬ b → Pres P n) : Pres P (if b then m else n) := by
  split
  · exact hm ‹_›
  · exact hn ‹_›

end M

variable {F : Type} [PyNum F] {c : Cfg} {env : Env F}

/-- The step rounded displacement is zero, so nothing is done. -/
theorem moveLinear_zero {d : V4 F} {v : F} {s : MState F}
    (h : Coord.isZero (roundToSteps c d) = true) : moveLinear c env d v s = (.ok (), s) := by
  simp only [moveLinear, if_pos h, M.pure_run]

/-- How `_move_linear` can end. -/
theorem moveLinear_cases (d : V4 F) (v : F) (s : MState F) :
    (Coord.isZero (roundToSteps c d) = true ∧ moveLinear c env d v s = (.ok (), s)) ∨
    (Coord.isZero (roundToSteps c d) = false ∧ ∃ e, moveLinear c env d v s = (.error e, s) ∧
      (checkDelta c s.pos (roundToSteps c d) = .error e ∨
       LinearGen.new c (roundToSteps c d) v = .error e ∨
       ∃ g, LinearGen.new c (roundToSteps c d) v = .ok g ∧
        checkVelocity c (Gen.linear g).maxVelocity = .error e)) ∨
    (Coord.isZero (roundToSteps c d) = false ∧ ∃ g,
      checkDelta c s.pos (roundToSteps c d) = .ok () ∧
      LinearGen.new c (roundToSteps c d) v = .ok g ∧
      checkVelocity c (Gen.linear g).maxVelocity = .ok () ∧
      ((∃ e, env.move (.move (.linear g) :: s.trace) = some e ∧
        moveLinear c env d v s = (.error e, { s with trace := .move (.linear g) :: s.trace })) ∨
       (env.move (.move (.linear g) :: s.trace) = none ∧
        moveLinear c env d v s = (.ok (), { s with
          pos := Coord.add s.pos (roundToSteps c d),
          trace := .move (.linear g) :: s.trace })))) := by
  cases hz : Coord.isZero (roundToSteps c d)
  · right
    have hrun : moveLinear c env d v s = (do
        M.lift (checkDelta c s.pos (roundToSteps c d))
        let g ← M.lift (LinearGen.new c (roundToSteps c d) v)
        M.lift (checkVelocity c (Gen.linear g).maxVelocity)
        halMove env (.linear g)
        M.modify fun s => { s with pos := Coord.add s.pos (roundToSteps c d) }) s := by
      simp only [moveLinear, hz, Bool.false_eq_true, if_false, M.bind_get]
    rw [hrun]
    rcases h1 : checkDelta c s.pos (roundToSteps c d) with e | ⟨⟩
    · exact .inl ⟨rfl, e, rfl, .inl rfl⟩
    · rcases h2 : LinearGen.new c (roundToSteps c d) v with e | g
      · exact .inl ⟨rfl, e, rfl, .inr (.inl rfl)⟩
      · rcases h3 : checkVelocity c (Gen.linear g).maxVelocity with e | ⟨⟩
        · refine .inl ⟨rfl, e, ?_, .inr (.inr ⟨g, rfl, h3⟩)⟩
          simp [h3]
        · refine .inr ⟨rfl, g, rfl, rfl, h3, ?_⟩
          rcases h4 : env.move (.move (.linear g) :: s.trace) with _ | e
          · refine .inr ⟨rfl, ?_⟩
            simp [h3, halMove, M.bind_run, h4]
          · refine .inl ⟨e, rfl, ?_⟩
            simp [h3, halMove, M.bind_run, h4]
  · exact .inl ⟨rfl, moveLinear_zero hz⟩

/-- The optional straight move after an arc. -/
def optMove (env : Env F) : Option (LinearGen F) → M F Unit
  | some lg => halMove env (.linear lg)
  | none => pure ()

/-- How `_move_circular` can end. -/
theorem moveCircular_cases (d r : V4 F) (v : F) (rot : Rot) (s : MState F) :
    (∃ e, moveCircular c env d r v rot s = (.error e, s) ∧
      (checkDelta c s.pos (roundToSteps c d) = .error e ∨
       circleEnd c s.plane (roundToSteps c d) (roundToSteps c r) s.pos rot = .error e ∨
       ∃ ce, circleEnd c s.plane (roundToSteps c d) (roundToSteps c r) s.pos rot = .ok ce ∧
        (CircGen.new c (roundToSteps c ce) (roundToSteps c r) s.plane rot v = .error e ∨
         ∃ g, CircGen.new c (roundToSteps c ce) (roundToSteps c r) s.plane rot v = .ok g ∧
          (checkVelocity c (Gen.circular g).maxVelocity = .error e ∨
           extraLinear c (Coord.sub (roundToSteps c d) (roundToSteps c ce)) v = .error e)))) ∨
    (∃ ce g lg,
      checkDelta c s.pos (roundToSteps c d) = .ok () ∧
      circleEnd c s.plane (roundToSteps c d) (roundToSteps c r) s.pos rot = .ok ce ∧
      CircGen.new c (roundToSteps c ce) (roundToSteps c r) s.plane rot v = .ok g ∧
      checkVelocity c (Gen.circular g).maxVelocity = .ok () ∧
      extraLinear c (Coord.sub (roundToSteps c d) (roundToSteps c ce)) v = .ok lg ∧
      moveCircular c env d r v rot s = (do
        halMove env (.circular g)
        optMove env lg
        M.modify fun s => { s with
          pos := Coord.add (Coord.add s.pos (roundToSteps c ce))
            (Coord.sub (roundToSteps c d) (roundToSteps c ce)) }) s) := by
  rcases h1 : checkDelta c s.pos (roundToSteps c d) with e | ⟨⟩
  · left; refine ⟨e, ?_, .inl rfl⟩
    simp [moveCircular, h1]
  · rcases h2 : circleEnd c s.plane (roundToSteps c d) (roundToSteps c r) s.pos rot with e | ce
    · left; refine ⟨e, ?_, .inr (.inl rfl)⟩
      simp [moveCircular, h1, h2]
    · rcases h3 : CircGen.new c (roundToSteps c ce) (roundToSteps c r) s.plane rot v with e | g
      · left; refine ⟨e, ?_, .inr (.inr ⟨ce, rfl, .inl h3⟩)⟩
        simp [moveCircular, h1, h2, h3]
      · rcases h4 : checkVelocity c (Gen.circular g).maxVelocity with e | ⟨⟩
        · left; refine ⟨e, ?_, .inr (.inr ⟨ce, rfl, .inr ⟨g, h3, .inl h4⟩⟩)⟩
          simp [moveCircular, h1, h2, h3, h4]
        · rcases h5 : extraLinear c (Coord.sub (roundToSteps c d) (roundToSteps c ce)) v with e | lg
          · left; refine ⟨e, ?_, .inr (.inr ⟨ce, rfl, .inr ⟨g, h3, .inr h5⟩⟩)⟩
            simp [moveCircular, h1, h2, h3, h4, h5]
          · right
            refine ⟨ce, g, lg, rfl, rfl, h3, h4, h5, ?_⟩
            simp only [moveCircular, M.bind_get, h1, h2, h3, h4, h5, M.bind_lift_ok]
            congr 1
            cases lg <;> rfl

/-- How `do_command` runs. -/
theorem doCommand_cases (g : GCode) (s : MState F) :
    (∃ e, doCommand c env (some g) s = (.error e, s) ∧
      (readDelta s g = .error e ∨ g.get 'F' s.vel (PyNum.ofRat 1) = .error e ∨
       g.radius Coord.zero s.conv = .error e)) ∨
    ∃ d v r, readDelta s g = .ok d ∧ g.get 'F' s.vel (PyNum.ofRat 1) = .ok v ∧
      g.radius Coord.zero s.conv = .ok r ∧
      (((v <ₚ PyNum.ofRat c.minVel) = true ∧
        doCommand c env (some g) s = (.error (.gmachine "feed speed too low"), s)) ∨
       ((v <ₚ PyNum.ofRat c.minVel) = false ∧
        ((∃ a s', execCmd c env (lineCmd g) g d r v s = (.ok a, s') ∧
          doCommand c env (some g) s = (.ok a, { s' with vel := v })) ∨
         (∃ e s', execCmd c env (lineCmd g) g d r v s = (.error e, s') ∧
          doCommand c env (some g) s = (.error e, s'))))) := by
  rcases h1 : readDelta s g with e | d
  · left; refine ⟨e, ?_, .inl rfl⟩; simp [doCommand, h1]
  · rcases h2 : g.get 'F' s.vel (PyNum.ofRat 1) with e | v
    · left; refine ⟨e, ?_, .inr (.inl rfl)⟩; simp [doCommand, h1, h2]
    · rcases h3 : g.radius Coord.zero s.conv with e | r
      · left; refine ⟨e, ?_, .inr (.inr rfl)⟩; simp [doCommand, h1, h2, h3]
      · right
        refine ⟨d, v, r, rfl, rfl, rfl, ?_⟩
        cases h4 : v <ₚ PyNum.ofRat c.minVel
        · right
          refine ⟨rfl, ?_⟩
          rcases h5 : execCmd c env (lineCmd g) g d r v s with ⟨e | a, s'⟩
          · right; refine ⟨e, s', rfl, ?_⟩
            simp [doCommand, h1, h2, h3, h4, M.bind_run, h5]
          · left; refine ⟨a, s', rfl, ?_⟩
            simp [doCommand, h1, h2, h3, h4, M.bind_run, h5]
        · left
          refine ⟨rfl, ?_⟩
          simp [doCommand, h1, h2, h3, h4]

end PyCNC
