import Verif.Lemmas.Machine

/-!
# Computations that do not look at the stored feed
-/

namespace PyCNC

variable {F : Type} [PyNum F] {c : Cfg} {env : Env F} {α β : Type}

/-- The computation neither reads nor changes the stored feed. -/
structure M.Blind (m : M F α) : Prop where
  eq : ∀ s v, m { s with vel := v } = ((m s).1, { (m s).2 with vel := v })

namespace M.Blind

omit [PyNum F]

theorem pure (a : α) : M.Blind (Pure.pure a : M F α) := ⟨fun _ _ => rfl⟩

theorem throw (e : PyErr) : M.Blind (M.throw e : M F α) := ⟨fun _ _ => rfl⟩

theorem lift (x : Except PyErr α) : M.Blind (M.lift x : M F α) := ⟨fun _ _ => rfl⟩

theorem emit (call : HalCall F) : M.Blind (M.emit call) := ⟨fun _ _ => rfl⟩

theorem modify {f : MState F → MState F} (h : ∀ s v, f { s with vel := v } = { f s with vel := v }) :
    M.Blind (M.modify f) := ⟨fun s v => by
  change (Except.ok (), f _) = _
  rw [h]; rfl⟩

theorem bind {m : M F α} {f : α → M F β} (hm : M.Blind m) (hf : ∀ a, M.Blind (f a)) :
    M.Blind (m >>= f) := by
  refine ⟨fun s v => ?_⟩
  rcases h : m s with ⟨e | a, s'⟩
  · have h2 : m { s with vel := v } = (.error e, { s' with vel := v }) := by rw [hm.eq, h]
    rw [M.bind_error h, M.bind_error h2]
  · have h2 : m { s with vel := v } = (.ok a, { s' with vel := v }) := by rw [hm.eq, h]
    rw [M.bind_ok h, M.bind_ok h2, (hf a).eq]

theorem get_bind {f : MState F → M F β} (hf : ∀ s, M.Blind (f s))
    (h : ∀ s v, f { s with vel := v } = f s) : M.Blind (M.get >>= f) := by
  refine ⟨fun s v => ?_⟩
  rw [M.bind_get, M.bind_get, h, (hf s).eq]

end M.Blind

/-- Take a `do` block apart. -/
macro "blind" : tactic => `(tactic| repeat' first
  | with_reducible exact M.Blind.pure _
  | with_reducible exact M.Blind.throw _
  | with_reducible exact M.Blind.lift _
  | with_reducible exact M.Blind.emit _
  | with_reducible assumption
  | (with_reducible refine M.Blind.modify ?_); (exact fun _ _ => rfl)
  | (with_reducible refine M.Blind.get_bind (fun _ => ?_) ?_); rotate_left; (exact fun _ _ => rfl)
  | with_reducible refine M.Blind.bind ?_ fun _ => ?_
  | split)

omit [PyNum F] in
theorem halMove_blind (g : Gen F) : M.Blind (halMove env g) := by
  unfold halMove; blind

theorem moveLinear_blind (d : V4 F) (v : F) : M.Blind (moveLinear c env d v) := by
  have := fun g => halMove_blind (env := env) g
  unfold moveLinear
  simp only
  blind
  all_goals exact this _

theorem moveCircular_blind (d r : V4 F) (v : F) (rot : Rot) : M.Blind (moveCircular c env d r v rot) := by
  have := fun g => halMove_blind (env := env) g
  unfold moveCircular
  simp only
  blind
  all_goals exact this _

theorem safeZero_blind (x y z : Bool) : M.Blind (safeZero c env x y z) := by
  have := fun d v => moveLinear_blind (c := c) (env := env) d v
  unfold safeZero
  blind
  all_goals exact this _ _

theorem home_blind (g : GCode) : M.Blind (home c env g) := by
  have := fun x y z => safeZero_blind (c := c) (env := env) x y z
  unfold home
  simp only
  blind
  all_goals exact this _ _ _

theorem setLocal_blind (g : GCode) : M.Blind (setLocal g : M F Unit) := by
  unfold setLocal
  blind

omit [PyNum F] in
theorem fan_blind (b : Bool) : M.Blind (fan b : M F Unit) := by
  unfold fan
  blind

theorem spindle_blind (r : F) : M.Blind (spindle c r) := by
  unfold spindle
  blind

omit [PyNum F] in
theorem measure_blind (h : HeaterId) : M.Blind (measure env h) := by
  unfold measure
  blind

omit [PyNum F] in
theorem newHeater_blind (h : HeaterId) (t : F) : M.Blind (newHeater env h t) := by
  have := measure_blind (env := env) h
  unfold newHeater
  blind

theorem heat_blind (h : HeaterId) (t : F) (w : Bool) : M.Blind (heat c env h t w) := by
  have h1 := measure_blind (env := env) h
  have h2 := newHeater_blind (env := env) h t
  have h3 := fan_blind (F := F) true
  unfold heat
  cases h <;> blind

theorem heatCommand_blind (g : GCode) (h : HeaterId) (w : Bool) : M.Blind (heatCommand c env g h w) := by
  have := fun t => heat_blind (c := c) (env := env) h t w
  unfold heatCommand
  blind
  all_goals exact this _

/-- No command but the end of a program looks at the stored feed. -/
theorem execCmd_blind {cmd : Cmd} (h : cmd ≠ .finish) (g : GCode) (d r : V4 F) (v : F) :
    M.Blind (execCmd c env cmd g d r v) := by
  have h1 := fun d v => moveLinear_blind (c := c) (env := env) d v
  have h2 := fun d r v rot => moveCircular_blind (c := c) (env := env) d r v rot
  have h3 := home_blind (c := c) (env := env) g
  have h4 := setLocal_blind (F := F) g
  have h5 := fun b => fan_blind (F := F) b
  have h6 := fun r => spindle_blind (c := c) (F := F) r
  have h7 := fun h => measure_blind (env := env) h
  have h8 := fun h w => heatCommand_blind (c := c) (env := env) g h w
  cases cmd <;> simp only [execCmd] <;> (try exact absurd rfl h) <;> blind
  all_goals first
    | exact h1 _ _ | exact h2 _ _ _ _ | exact h5 _ | exact h6 _ | exact h7 _ | exact h8 _ _

end PyCNC
