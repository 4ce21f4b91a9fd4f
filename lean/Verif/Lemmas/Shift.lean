import Verif.Lemmas.Twin
import Verif.Lemmas.MachineExact

/-!
# Two runs side by side, with the origin of the coordinates shifted together with the head
-/

namespace PyCNC

variable {α β : Type}

/-- Two states that differ in the calls so far, and in a shift of the head together with the local offset. -/
structure Shifted (s t : MState ℝ) : Prop where
  eq : t = { s with pos := t.pos, loc := t.loc, trace := t.trace }
  left : GridV s.pos ∧ GridV s.loc
  right : GridV t.pos ∧ GridV t.loc
  same : ∀ ax, t.pos.get ax - t.loc.get ax = s.pos.get ax - s.loc.get ax

theorem Shifted.keep {s t s' t' : MState ℝ} (h : Shifted s t)
    (he : t' = { s' with pos := t'.pos, loc := t'.loc, trace := t'.trace }) (h1 : s'.pos = s.pos)
    (h2 : s'.loc = s.loc) (h3 : t'.pos = t.pos) (h4 : t'.loc = t.loc) : Shifted s' t' :=
  ⟨he, by rw [h1, h2]; exact h.left, by rw [h3, h4]; exact h.right, by rw [h1, h2, h3, h4]; exact h.same⟩

/-- From shifted states, when both computations succeed, they make the same calls and end in shifted states. -/
structure M.Along (m n : M ℝ α) : Prop where
  run : ∀ s t, Shifted s t → ∀ a b s' t', m s = (.ok a, s') → n t = (.ok b, t') →
    Shifted s' t' ∧ ∃ calls, s'.trace = calls ++ s.trace ∧ t'.trace = calls ++ t.trace

namespace M.Along

theorem pure (a b : α) : M.Along (Pure.pure a : M ℝ α) (Pure.pure b) :=
  ⟨fun s t h a b s' t' h1 h2 => by cases h1; cases h2; exact ⟨h, [], rfl, rfl⟩⟩

theorem throw_left {e : PyErr} {n : M ℝ α} : M.Along (M.throw e) n :=
  ⟨fun s t h a b s' t' h1 h2 => by cases h1⟩

theorem throw_right {e : PyErr} {m : M ℝ α} : M.Along m (M.throw e) :=
  ⟨fun s t h a b s' t' h1 h2 => by cases h2⟩

theorem bind_throw_left {e : PyErr} {f : α → M ℝ β} {n : M ℝ β} : M.Along (M.throw e >>= f) n :=
  ⟨fun s t h a b s' t' h1 h2 => by cases h1⟩

theorem bind_throw_right {e : PyErr} {f : α → M ℝ β} {m : M ℝ β} : M.Along m (M.throw e >>= f) :=
  ⟨fun s t h a b s' t' h1 h2 => by cases h2⟩

theorem emit (call : HalCall ℝ) : M.Along (M.emit call) (M.emit call) :=
  ⟨fun s t h a b s' t' h1 h2 => by
    cases h1; cases h2
    refine ⟨h.keep ?_ rfl rfl rfl rfl, [call], rfl, rfl⟩
    rw [h.eq]⟩

theorem modify {f g : MState ℝ → MState ℝ}
    (h : ∀ s t, Shifted s t → Shifted (f s) (g t) ∧ (f s).trace = s.trace ∧ (g t).trace = t.trace) :
    M.Along (M.modify f) (M.modify g) :=
  ⟨fun s t hs a b s' t' h1 h2 => by
    cases h1; cases h2
    obtain ⟨k1, k2, k3⟩ := h s t hs
    exact ⟨k1, [], k2, k3⟩⟩

theorem bind {m n : M ℝ α} {f g : α → M ℝ β} (hm : M.Along m n) (hf : ∀ a b, M.Along (f a) (g b)) :
    M.Along (m >>= f) (n >>= g) := by
  refine ⟨fun s t h a b s' t' h1 h2 => ?_⟩
  rcases k1 : m s with ⟨e | a1, s1⟩
  · rw [M.bind_error k1] at h1; cases h1
  rcases k2 : n t with ⟨e | b1, t1⟩
  · rw [M.bind_error k2] at h2; cases h2
  rw [M.bind_ok k1] at h1
  rw [M.bind_ok k2] at h2
  obtain ⟨j1, c1, j2, j3⟩ := hm.run s t h a1 b1 s1 t1 k1 k2
  obtain ⟨j4, c2, j5, j6⟩ := (hf a1 b1).run s1 t1 j1 a b s' t' h1 h2
  exact ⟨j4, c2 ++ c1, by rw [j5, j2, List.append_assoc], by rw [j6, j3, List.append_assoc]⟩

theorem bind_lift {x y : Except PyErr α} {f g : α → M ℝ β}
    (h : ∀ a b, x = .ok a → y = .ok b → M.Along (f a) (g b)) :
    M.Along (M.lift x >>= f) (M.lift y >>= g) := by
  rcases hx : x with e | a
  · exact ⟨fun s t h a b s' t' h1 h2 => by cases h1⟩
  rcases hy : y with e | b
  · exact ⟨fun s t h a b s' t' h1 h2 => by cases h2⟩
  exact ⟨fun s t k a' b' s' t' h1 h2 => (h a b hx hy).run s t k a' b' s' t' h1 h2⟩

/-- The same value is computed. -/
theorem bind_same {x : Except PyErr α} {f g : α → M ℝ β} (h : ∀ a, M.Along (f a) (g a)) :
    M.Along (M.lift x >>= f) (M.lift x >>= g) :=
  bind_lift fun a b ha hb => by rw [ha] at hb; cases hb; exact h a

theorem get_bind {f g : MState ℝ → M ℝ β} (h : ∀ s t, Shifted s t → M.Along (f s) (g t)) :
    M.Along (M.get >>= f) (M.get >>= g) :=
  ⟨fun s t k a b s' t' h1 h2 => (h s t k).run s t k a b s' t' h1 h2⟩

end M.Along

variable [PyRound] {c : Cfg} {env : Env ℝ}

omit [PyRound] in
theorem halMove_along (g : Gen ℝ) : M.Along (halMove env g) (halMove env g) := by
  unfold halMove
  refine .bind (.emit _) fun _ _ => .get_bind fun s t _ => ?_
  rcases env.move s.trace with _ | e
  · rcases env.move t.trace with _ | e
    · exact .pure _ _
    · exact .throw_right
  · exact .throw_left

/-- Both heads move by the same distance. -/
theorem Shifted.move {s t : MState ℝ} (h : Shifted s t) {d : V4 ℝ} (hd : GridV d) :
    Shifted { s with pos := Coord.add s.pos d } { t with pos := Coord.add t.pos d } := by
  refine ⟨by rw [h.eq], ⟨gridV_add _ _, h.left.2⟩, ⟨gridV_add _ _, h.right.2⟩, fun ax => ?_⟩
  simp only [get_add_grid h.left.1 hd, get_add_grid h.right.1 hd]
  linarith [h.same ax]

theorem moveLinear_along (d : V4 ℝ) (v : ℝ) : M.Along (moveLinear c env d v) (moveLinear c env d v) := by
  unfold moveLinear
  simp only
  split
  · exact .pure _ _
  · refine .get_bind fun s t _ => .bind_lift fun _ _ _ _ => .bind_same fun g => .bind_same fun _ =>
      .bind (halMove_along _) fun _ _ => .modify fun s t h => ⟨h.move (gridV_roundToSteps _), rfl, rfl⟩

theorem moveCircular_along (d r : V4 ℝ) (v : ℝ) (rot : Rot) :
    M.Along (moveCircular c env d r v rot) (moveCircular c env d r v rot) := by
  unfold moveCircular
  simp only
  refine .get_bind fun s t h => .bind_lift fun _ _ _ _ => .bind_lift fun a b ha hb => ?_
  have hp : t.plane = s.plane := by rw [h.eq]
  rw [hp] at hb ⊢
  obtain rfl := circleEnd_same ha hb
  refine .bind_same fun g => .bind_same fun _ => .bind_same fun lg => .bind (halMove_along _) fun _ _ => ?_
  have hmod : ∀ e e' : V4 ℝ, GridV e → GridV e' →
      M.Along (M.modify fun s => { s with pos := Coord.add (Coord.add s.pos e) e' })
      (M.modify fun s => { s with pos := Coord.add (Coord.add s.pos e) e' }) := fun e e' he he' =>
    .modify fun s t h => ⟨(h.move he).move he', rfl, rfl⟩
  cases lg
  · exact hmod _ _ (gridV_roundToSteps _) (gridV_sub _ _)
  · exact .bind (halMove_along _) fun _ _ => hmod _ _ (gridV_roundToSteps _) (gridV_sub _ _)

omit [PyRound] in
theorem measure_along (h : HeaterId) : M.Along (measure env h) (measure env h) := by
  unfold measure
  exact .bind (.emit _) fun _ _ => .get_bind fun s t _ => .pure _ _

omit [PyRound] in
theorem fan_along (b : Bool) : M.Along (fan b : M ℝ Unit) (fan b) := by
  unfold fan
  exact .bind (.emit _) fun _ _ => .modify fun s t h => ⟨h.keep (by rw [h.eq]) rfl rfl rfl rfl, rfl, rfl⟩

theorem spindle_along (r : ℝ) : M.Along (spindle c r) (spindle c r) := by
  unfold spindle
  exact .bind (.emit _) fun _ _ => .emit _

omit [PyRound] in
theorem newHeater_along (h : HeaterId) (t : ℝ) : M.Along (newHeater env h t) (newHeater env h t) := by
  unfold newHeater
  refine .bind (.emit _) fun _ _ => .bind (measure_along h) fun a b => ?_
  cases a
  · exact .throw_left
  · cases b
    · exact .throw_right
    · exact .pure _ _

theorem heat_along (h : HeaterId) (x : ℝ) (w : Bool) : M.Along (heat c env h x w) (heat c env h x w) := by
  have hset : ∀ y, M.Along (M.modify fun s : MState ℝ => s.setHeater h y)
      (M.modify fun s : MState ℝ => s.setHeater h y) := fun y =>
    .modify fun s t k => by
      cases h <;> exact ⟨k.keep (by rw [k.eq]; rfl) rfl rfl rfl rfl, rfl, rfl⟩
  have hwait : ∀ s t : MState ℝ, M.Along
      (match env.wait s.trace with | some e => M.throw e | none => (return : M ℝ Unit))
      (match env.wait t.trace with | some e => M.throw e | none => return) := fun s t => by
    rcases env.wait s.trace with _ | e
    · rcases env.wait t.trace with _ | e
      · exact .pure _ _
      · exact .throw_right
    · exact .throw_left
  unfold heat
  refine .bind (measure_along h) fun a b => ?_
  have hh : ∀ s t : MState ℝ, Shifted s t → (t.heater h).isSome = (s.heater h).isSome := fun s t k => by
    rw [k.eq]; cases h <;> rfl
  rcases a with _ | a
  · refine ⟨fun s t k a b s' t' h1 h2 => ?_⟩
    cases h1
  rcases b with _ | b
  · refine ⟨fun s t k a b s' t' h1 h2 => ?_⟩
    cases h2
  simp only [Option.isNone_some, Bool.false_eq_true, if_false]
  repeat' first
    | with_reducible exact M.Along.pure _ _
    | with_reducible exact M.Along.throw_left
    | with_reducible exact M.Along.throw_right
    | with_reducible exact M.Along.emit _
    | with_reducible exact hset _
    | with_reducible exact fan_along _
    | with_reducible exact newHeater_along _ _
    | with_reducible exact hwait _ _
    | (with_reducible refine M.Along.get_bind fun s t k => ?_); (try rw [hh s t k])
    | with_reducible refine M.Along.bind ?_ fun _ _ => ?_
    | split

theorem heatCommand_along (g : GCode) (h : HeaterId) (w : Bool) :
    M.Along (heatCommand c env g h w) (heatCommand c env g h w) := by
  unfold heatCommand
  repeat' first
    | with_reducible exact M.Along.pure _ _
    | with_reducible exact M.Along.throw_left
    | with_reducible exact heat_along _ _ _
    | with_reducible refine M.Along.bind_same fun _ => ?_
    | with_reducible refine M.Along.bind ?_ fun _ _ => ?_
    | split

theorem coordinates_grid {g : GCode} {d co : V4 ℝ} {m : ℝ} (h : g.coordinates d m = .ok co) : GridV co := by
  unfold GCode.coordinates at h
  obtain ⟨_, _, h⟩ := bindE_ok h
  obtain ⟨_, _, h⟩ := bindE_ok h
  obtain ⟨_, _, h⟩ := bindE_ok h
  obtain ⟨_, _, h⟩ := bindE_ok h
  cases h
  exact gridV_new _ _ _ _

theorem setLocal_along (g : GCode) : M.Along (setLocal g : M ℝ Unit) (setLocal g) := by
  unfold setLocal
  refine .get_bind fun s t h => ?_
  have hc : t.conv = s.conv := by rw [h.eq]
  have hx : ∀ ax, t.pos.get ax -ₚ t.loc.get ax = s.pos.get ax -ₚ s.loc.get ax := h.same
  have hx1 := hx .x
  have hx2 := hx .y
  have hx3 := hx .z
  have hx4 := hx .e
  simp only [V4.get] at hx1 hx2 hx3 hx4
  rw [hx1, hx2, hx3, hx4, hc]
  split
  · refine .bind_lift fun a b ha hb => ?_
    rw [ha] at hb
    cases hb
    have hv := coordinates_grid ha
    refine .modify fun s t h => ⟨⟨by rw [h.eq], ⟨h.left.1, gridV_sub _ _⟩, ⟨h.right.1, gridV_sub _ _⟩,
      fun ax => ?_⟩, rfl, rfl⟩
    simp only [get_sub_grid h.left.1 hv, get_sub_grid h.right.1 hv]
    ring
  · refine .modify fun s t h => ⟨⟨by rw [h.eq], ⟨h.left.1, h.left.1⟩, ⟨h.right.1, h.right.1⟩,
      fun ax => ?_⟩, rfl, rfl⟩
    simp only [sub_self]

theorem execCmd_along {cmd : Cmd} (h1 : cmd ≠ .g28) (h2 : cmd ≠ .g53) (h3 : cmd ≠ .finish) (g : GCode)
    (d r : V4 ℝ) (v : ℝ) : M.Along (execCmd c env cmd g d r v) (execCmd c env cmd g d r v) := by
  have hsp : ∀ s t : MState ℝ, Shifted s t → t.spindle = s.spindle := fun s t k => by rw [k.eq]
  have hab : ∀ s t : MState ℝ, Shifted s t → t.absMode = s.absMode := fun s t k => by rw [k.eq]
  cases cmd <;> simp only [execCmd] <;> (try contradiction) <;>
  repeat' first
    | with_reducible exact M.Along.pure _ _
    | with_reducible exact M.Along.throw_left
    | with_reducible exact M.Along.throw_right
    | with_reducible exact M.Along.bind_throw_left
    | with_reducible exact M.Along.bind_throw_right
    | with_reducible exact M.Along.emit _
    | with_reducible exact moveLinear_along _ _
    | with_reducible exact moveCircular_along _ _ _ _
    | with_reducible exact setLocal_along _
    | with_reducible exact heatCommand_along _ _ _
    | with_reducible exact spindle_along _
    | with_reducible exact fan_along _
    | with_reducible exact measure_along _
    | (with_reducible refine M.Along.modify fun s t k => ?_); (exact ⟨k.keep (by rw [k.eq]) rfl rfl rfl rfl, rfl, rfl⟩)
    | (with_reducible refine M.Along.get_bind fun s t k => ?_); (try rw [hsp s t k]); (try rw [hab s t k])
    | with_reducible refine M.Along.bind_same fun _ => ?_
    | with_reducible refine M.Along.bind ?_ fun _ _ => ?_
    | split

theorem Shifted.delta {s t : MState ℝ} (h : Shifted s t) (g : GCode) : readDelta t g = readDelta s g := by
  have ha : t.absMode = s.absMode := by rw [h.eq]
  have hc : t.conv = s.conv := by rw [h.eq]
  have hp : Coord.sub t.pos t.loc = Coord.sub s.pos s.loc := V4.ext_get fun ax => by
    rw [get_sub_grid h.right.1 h.right.2, get_sub_grid h.left.1 h.left.2, h.same]
  unfold readDelta
  rw [ha, hc, hp]
  split
  · rcases hco : g.coordinates (Coord.sub s.pos s.loc) s.conv with e | co
    · rfl
    · have hg := coordinates_grid hco
      change Except.ok _ = Except.ok _
      congr 1
      apply V4.ext_get
      intro ax
      rw [get_sub_grid (gridV_add _ _) h.right.1, get_sub_grid (gridV_add _ _) h.left.1,
        get_add_grid hg h.right.2, get_add_grid hg h.left.2]
      linarith [h.same ax]
  · rfl

theorem doCommand_along {g : GCode} (h1 : lineCmd g ≠ .g28) (h2 : lineCmd g ≠ .g53)
    (h3 : lineCmd g ≠ .finish) :
    M.Along (doCommand c env (some g)) (doCommand c env (some g)) := by
  simp only [doCommand]
  refine .get_bind fun s t k => ?_
  have hd : readDelta t g = readDelta s g := k.delta g
  have hv : t.vel = s.vel := by rw [k.eq]
  have hc : t.conv = s.conv := by rw [k.eq]
  rw [hd, hv, hc]
  refine .bind_same fun d => .bind_same fun v => .bind_same fun r => ?_
  split
  · exact .bind .throw_left fun _ _ => .bind (execCmd_along h1 h2 h3 g d r v) fun _ _ =>
      .bind (.modify fun s t k => ⟨k.keep (by rw [k.eq]) rfl rfl rfl rfl, rfl, rfl⟩) fun _ _ => .pure _ _
  · exact .bind (execCmd_along h1 h2 h3 g d r v) fun _ _ =>
      .bind (.modify fun s t k => ⟨k.keep (by rw [k.eq]) rfl rfl rfl rfl, rfl, rfl⟩) fun _ _ => .pure _ _

end PyCNC
