import Verif.Lemmas.Machine
import Verif.Lemmas.Exec

/-!
# Two runs side by side, in relative mode, from different places
-/

namespace PyCNC

variable {F : Type} {α β : Type}

/-- Two states in relative mode that differ in the position, the local offset and the calls so far only. -/
structure Twin (s t : MState F) : Prop where
  eq : t = { s with pos := t.pos, loc := t.loc, trace := t.trace }
  rel : s.absMode = false

/-- From twin states, when both computations succeed, they make the same calls and end in twin states. -/
structure M.Par (m n : M F α) : Prop where
  run : ∀ s t, Twin s t → ∀ a b s' t', m s = (.ok a, s') → n t = (.ok b, t') →
    Twin s' t' ∧ ∃ calls, s'.trace = calls ++ s.trace ∧ t'.trace = calls ++ t.trace

namespace M.Par

theorem pure (a b : α) : M.Par (Pure.pure a : M F α) (Pure.pure b) :=
  ⟨fun s t h a b s' t' h1 h2 => by cases h1; cases h2; exact ⟨h, [], rfl, rfl⟩⟩

theorem throw_left {e : PyErr} {n : M F α} : M.Par (M.throw e) n :=
  ⟨fun s t h a b s' t' h1 h2 => by cases h1⟩

theorem throw_right {e : PyErr} {m : M F α} : M.Par m (M.throw e) :=
  ⟨fun s t h a b s' t' h1 h2 => by cases h2⟩

theorem bind_throw_left {e : PyErr} {f : α → M F β} {n : M F β} : M.Par (M.throw e >>= f) n :=
  ⟨fun s t h a b s' t' h1 h2 => by cases h1⟩

theorem bind_throw_right {e : PyErr} {f : α → M F β} {m : M F β} : M.Par m (M.throw e >>= f) :=
  ⟨fun s t h a b s' t' h1 h2 => by cases h2⟩

theorem emit (call : HalCall F) : M.Par (M.emit call) (M.emit call) :=
  ⟨fun s t h a b s' t' h1 h2 => by
    cases h1; cases h2
    refine ⟨⟨?_, h.rel⟩, [call], rfl, rfl⟩
    rw [h.eq]⟩

theorem modify {f g : MState F → MState F}
    (h : ∀ s t, Twin s t → Twin (f s) (g t) ∧ (f s).trace = s.trace ∧ (g t).trace = t.trace) :
    M.Par (M.modify f) (M.modify g) :=
  ⟨fun s t hs a b s' t' h1 h2 => by
    cases h1; cases h2
    obtain ⟨k1, k2, k3⟩ := h s t hs
    exact ⟨k1, [], k2, k3⟩⟩

theorem bind {m n : M F α} {f g : α → M F β} (hm : M.Par m n) (hf : ∀ a b, M.Par (f a) (g b)) :
    M.Par (m >>= f) (n >>= g) := by
  refine ⟨fun s t h a b s' t' h1 h2 => ?_⟩
  rcases k1 : m s with ⟨e | a1, s1⟩
  · rw [M.bind_error k1] at h1; cases h1
  rcases k2 : n t with ⟨e | b1, t1⟩
  · rw [M.bind_error k2] at h2; cases h2
  rw [M.bind_ok k1] at h1
  rw [M.bind_ok k2] at h2
  obtain ⟨j1, c1, j2, j3⟩ := hm.run s t h a1 b1 s1 t1 k1 k2
  obtain ⟨j4, c2, j5, j6⟩ := (hf a1 b1).run s1 t1 j1 a b s' t' h1 h2
  exact ⟨j4, c2 ++ c1, by rw [j5, j2, List.append_assoc], by rw [j6, j3, List.append_assoc]⟩

theorem bind_lift {x y : Except PyErr α} {f g : α → M F β}
    (h : ∀ a b, x = .ok a → y = .ok b → M.Par (f a) (g b)) :
    M.Par (M.lift x >>= f) (M.lift y >>= g) := by
  rcases hx : x with e | a
  · exact ⟨fun s t h a b s' t' h1 h2 => by cases h1⟩
  rcases hy : y with e | b
  · exact ⟨fun s t h a b s' t' h1 h2 => by cases h2⟩
  exact ⟨fun s t k a' b' s' t' h1 h2 => (h a b hx hy).run s t k a' b' s' t' h1 h2⟩

/-- The same value is computed. -/
theorem bind_same {x : Except PyErr α} {f g : α → M F β} (h : ∀ a, M.Par (f a) (g a)) :
    M.Par (M.lift x >>= f) (M.lift x >>= g) :=
  bind_lift fun a b ha hb => by rw [ha] at hb; cases hb; exact h a

theorem get_bind {f g : MState F → M F β} (h : ∀ s t, Twin s t → M.Par (f s) (g t)) :
    M.Par (M.get >>= f) (M.get >>= g) :=
  ⟨fun s t k a b s' t' h1 h2 => (h s t k).run s t k a b s' t' h1 h2⟩

end M.Par

variable [PyNum F] {c : Cfg} {env : Env F}

omit [PyNum F] in
theorem halMove_par (g : Gen F) : M.Par (halMove env g) (halMove env g) := by
  unfold halMove
  refine .bind (.emit _) fun _ _ => .get_bind fun s t _ => ?_
  rcases env.move s.trace with _ | e
  · rcases env.move t.trace with _ | e
    · exact .pure _ _
    · exact .throw_right
  · exact .throw_left

theorem moveLinear_par (d : V4 F) (v : F) : M.Par (moveLinear c env d v) (moveLinear c env d v) := by
  unfold moveLinear
  simp only
  split
  · exact .pure _ _
  · refine .get_bind fun s t _ => .bind_lift fun _ _ _ _ => .bind_same fun g => .bind_same fun _ =>
      .bind (halMove_par _) fun _ _ => .modify fun s t h => ⟨⟨?_, h.rel⟩, rfl, rfl⟩
    rw [h.eq]

/-- An arc that is accepted ends at the same point, relative to its start, wherever it starts. -/
theorem circleEnd_same {plane : Plane} {d r p p' a b : V4 F} {rot : Rot}
    (h1 : circleEnd c plane d r p rot = .ok a) (h2 : circleEnd c plane d r p' rot = .ok b) : a = b := by
  have key : ∀ {da db ra rb : F} {pa pb pa' pb' ma mb : F} {x y : F × F},
      adjustCircle da db ra rb rot pa pb ma mb = .ok x →
      adjustCircle da db ra rb rot pa' pb' ma mb = .ok y → x = y := by
    intro da db ra rb pa pb pa' pb' ma mb x y k1 k2
    unfold adjustCircle at k1 k2
    simp only at k1 k2
    split at k1
    · cases k1
    · rename_i hr
      rw [if_neg hr] at k2
      split at k1
      · rename_i h0
        rw [if_pos h0] at k2
        obtain ⟨_, h, k1⟩ := bindE_ok k1
        cases h
        obtain ⟨_, h, k2⟩ := bindE_ok k2
        cases h
        obtain ⟨_, _, k1⟩ := bindE_ok k1
        obtain ⟨_, _, k2⟩ := bindE_ok k2
        cases k1; cases k2; rfl
      · rename_i h0
        rw [if_neg h0] at k2
        have last : ∀ {f g : F × F × Int → Except PyErr (F × F)}
            (_ : ∀ p z, f p = .ok z → z = (p.1, p.2.1)) (_ : ∀ p z, g p = .ok z → z = (p.1, p.2.1))
            {m : Except PyErr F} {h : F → F × F × Int},
            (do let root ← m; let p ← pure (h root); f p) = .ok x →
            (do let root ← m; let p ← pure (h root); g p) = .ok y → x = y := by
          intro f g hf hg m h k1 k2
          obtain ⟨q, h3, k1⟩ := bindE_ok k1
          obtain ⟨q', h4, k2⟩ := bindE_ok k2
          rw [h3] at h4
          cases h4
          exact (hf _ _ k1).trans (hg _ _ k2).symm
        have fit : ∀ {pa pb : F} (p : F × F × Int) (z : F × F), (do
            fitLoop rot p.2.2 pa pb ra rb (PyNum.sqrt (ra *ₚ ra +ₚ rb *ₚ rb)) ma mb 4
              (quarter (PyNum.neg ra) (PyNum.neg rb)) (quarter (PyNum.neg ra) (PyNum.neg rb))
            pure (p.1, p.2.1)) = Except.ok z → z = (p.1, p.2.1) := by
          intro pa pb p z h
          obtain ⟨_, _, h⟩ := bindE_ok h
          cases h; rfl
        split at k1
        · rename_i h1
          rw [if_pos h1] at k2
          obtain ⟨_, h, k1⟩ := bindE_ok k1
          cases h
          obtain ⟨_, h, k2⟩ := bindE_ok k2
          cases h
          exact last fit fit k1 k2
        · rename_i h1
          rw [if_neg h1] at k2
          obtain ⟨_, h, k1⟩ := bindE_ok k1
          obtain ⟨_, h', k2⟩ := bindE_ok k2
          rw [h] at h'
          cases h'
          obtain ⟨_, h, k1⟩ := bindE_ok k1
          cases h
          obtain ⟨_, h, k2⟩ := bindE_ok k2
          cases h
          exact last fit fit k1 k2
  unfold circleEnd at h1 h2
  cases plane <;> simp only [bind, Except.bind, pure, Except.pure] at h1 h2 <;>
  · split at h1
    · cases h1
    · split at h2
      · cases h2
      · rename_i k1 _ _ k2
        have := key k1 k2
        subst this
        cases h1; cases h2; rfl

theorem moveCircular_par (d r : V4 F) (v : F) (rot : Rot) :
    M.Par (moveCircular c env d r v rot) (moveCircular c env d r v rot) := by
  unfold moveCircular
  simp only
  refine .get_bind fun s t h => .bind_lift fun _ _ _ _ => .bind_lift fun a b ha hb => ?_
  have hp : t.plane = s.plane := by rw [h.eq]
  rw [hp] at hb ⊢
  obtain rfl := circleEnd_same ha hb
  refine .bind_same fun g => .bind_same fun _ => .bind_same fun lg => .bind (halMove_par _) fun _ _ => ?_
  have hmod : ∀ e e' : V4 F, M.Par (M.modify fun s => { s with pos := Coord.add (Coord.add s.pos e) e' })
      (M.modify fun s => { s with pos := Coord.add (Coord.add s.pos e) e' }) := fun e e' =>
    .modify fun s t h => ⟨⟨by rw [h.eq], h.rel⟩, rfl, rfl⟩
  cases lg
  · exact hmod _ _
  · exact .bind (halMove_par _) fun _ _ => hmod _ _

omit [PyNum F] in
theorem measure_par (h : HeaterId) : M.Par (measure env h) (measure env h) := by
  unfold measure
  exact .bind (.emit _) fun _ _ => .get_bind fun s t _ => .pure _ _

omit [PyNum F] in
theorem fan_par (b : Bool) : M.Par (fan b : M F Unit) (fan b) := by
  unfold fan
  exact .bind (.emit _) fun _ _ => .modify fun s t h => ⟨⟨by rw [h.eq], h.rel⟩, rfl, rfl⟩

theorem spindle_par (r : F) : M.Par (spindle c r) (spindle c r) := by
  unfold spindle
  exact .bind (.emit _) fun _ _ => .emit _

omit [PyNum F] in
theorem newHeater_par (h : HeaterId) (t : F) : M.Par (newHeater env h t) (newHeater env h t) := by
  unfold newHeater
  refine .bind (.emit _) fun _ _ => .bind (measure_par h) fun a b => ?_
  cases a
  · exact .throw_left
  · cases b
    · exact .throw_right
    · exact .pure _ _

theorem heat_par (h : HeaterId) (x : F) (w : Bool) : M.Par (heat c env h x w) (heat c env h x w) := by
  have hset : ∀ y, M.Par (M.modify fun s : MState F => s.setHeater h y)
      (M.modify fun s : MState F => s.setHeater h y) := fun y =>
    .modify fun s t k => by
      cases h <;> exact ⟨⟨by rw [k.eq]; rfl, k.rel⟩, rfl, rfl⟩
  have hwait : ∀ s t : MState F, M.Par
      (match env.wait s.trace with | some e => M.throw e | none => (return : M F Unit))
      (match env.wait t.trace with | some e => M.throw e | none => return) := fun s t => by
    rcases env.wait s.trace with _ | e
    · rcases env.wait t.trace with _ | e
      · exact .pure _ _
      · exact .throw_right
    · exact .throw_left
  unfold heat
  refine .bind (measure_par h) fun a b => ?_
  have hh : ∀ s t : MState F, Twin s t → (t.heater h).isSome = (s.heater h).isSome := fun s t k => by
    rw [k.eq]; cases h <;> rfl
  rcases a with _ | a
  · refine ⟨fun s t k a b s' t' h1 h2 => ?_⟩
    cases h1
  rcases b with _ | b
  · refine ⟨fun s t k a b s' t' h1 h2 => ?_⟩
    cases h2
  simp only [Option.isNone_some, Bool.false_eq_true, if_false]
  repeat' first
    | with_reducible exact M.Par.pure _ _
    | with_reducible exact M.Par.throw_left
    | with_reducible exact M.Par.throw_right
    | with_reducible exact M.Par.emit _
    | with_reducible exact hset _
    | with_reducible exact fan_par _
    | with_reducible exact newHeater_par _ _
    | with_reducible exact hwait _ _
    | (with_reducible refine M.Par.get_bind fun s t k => ?_); (try rw [hh s t k])
    | with_reducible refine M.Par.bind ?_ fun _ _ => ?_
    | split

theorem heatCommand_par (g : GCode) (h : HeaterId) (w : Bool) :
    M.Par (heatCommand c env g h w) (heatCommand c env g h w) := by
  unfold heatCommand
  repeat' first
    | with_reducible exact M.Par.pure _ _
    | with_reducible exact M.Par.throw_left
    | with_reducible exact heat_par _ _ _
    | with_reducible refine M.Par.bind_same fun _ => ?_
    | with_reducible refine M.Par.bind ?_ fun _ _ => ?_
    | split

theorem setLocal_par (g : GCode) : M.Par (setLocal g : M F Unit) (setLocal g) := by
  have hm : ∀ f f' : MState F → V4 F, M.Par (M.modify fun s => { s with loc := f s })
      (M.modify fun s => { s with loc := f' s }) := fun f f' =>
    .modify fun s t h => ⟨⟨by rw [h.eq], h.rel⟩, rfl, rfl⟩
  unfold setLocal
  refine .get_bind fun s t _ => ?_
  split
  · exact .bind_lift fun a b _ _ => hm _ _
  · exact hm _ _

theorem execCmd_par {cmd : Cmd} (h1 : cmd ≠ .g28) (h2 : cmd ≠ .g90) (h3 : cmd ≠ .finish) (g : GCode)
    (d r : V4 F) (v : F) : M.Par (execCmd c env cmd g d r v) (execCmd c env cmd g d r v) := by
  have hsp : ∀ s t : MState F, Twin s t → t.spindle = s.spindle := fun s t k => by rw [k.eq]
  have hab : ∀ s t : MState F, Twin s t → t.absMode = s.absMode := fun s t k => by rw [k.eq]
  cases cmd <;> simp only [execCmd] <;> (try contradiction) <;>
  repeat' first
    | with_reducible exact M.Par.pure _ _
    | with_reducible exact M.Par.throw_left
    | with_reducible exact M.Par.throw_right
    | with_reducible exact M.Par.bind_throw_left
    | with_reducible exact M.Par.bind_throw_right
    | with_reducible exact M.Par.emit _
    | with_reducible exact moveLinear_par _ _
    | with_reducible exact moveCircular_par _ _ _ _
    | with_reducible exact setLocal_par _
    | with_reducible exact heatCommand_par _ _ _
    | with_reducible exact spindle_par _
    | with_reducible exact fan_par _
    | with_reducible exact measure_par _
    | (with_reducible refine M.Par.modify fun s t k => ?_); (exact ⟨⟨by rw [k.eq], k.rel⟩, rfl, rfl⟩)
    | (with_reducible refine M.Par.modify fun s t k => ?_); (exact ⟨⟨by rw [k.eq], rfl⟩, rfl, rfl⟩)
    | (with_reducible refine M.Par.get_bind fun s t k => ?_); (try rw [hsp s t k]); (try rw [hab s t k])
    | with_reducible refine M.Par.bind_same fun _ => ?_
    | with_reducible refine M.Par.bind ?_ fun _ _ => ?_
    | split

theorem doCommand_par {g : GCode} (h1 : lineCmd g ≠ .g28) (h2 : lineCmd g ≠ .g90)
    (h3 : lineCmd g ≠ .finish) :
    M.Par (doCommand c env (some g)) (doCommand c env (some g)) := by
  simp only [doCommand]
  refine .get_bind fun s t k => ?_
  have hd : readDelta t g = readDelta s g := by
    have h0 : t.absMode = false := by rw [k.eq]; exact k.rel
    have hc : t.conv = s.conv := by rw [k.eq]
    unfold readDelta
    rw [k.rel, h0, hc]
    rfl
  have hv : t.vel = s.vel := by rw [k.eq]
  have hc : t.conv = s.conv := by rw [k.eq]
  rw [hd, hv, hc]
  refine .bind_same fun d => .bind_same fun v => .bind_same fun r => ?_
  split
  · exact .bind .throw_left fun _ _ => .bind (execCmd_par h1 h2 h3 g d r v) fun _ _ =>
      .bind (.modify fun s t k => ⟨⟨by rw [k.eq], k.rel⟩, rfl, rfl⟩) fun _ _ => .pure _ _
  · exact .bind (execCmd_par h1 h2 h3 g d r v) fun _ _ =>
      .bind (.modify fun s t k => ⟨⟨by rw [k.eq], k.rel⟩, rfl, rfl⟩) fun _ _ => .pure _ _

end PyCNC
