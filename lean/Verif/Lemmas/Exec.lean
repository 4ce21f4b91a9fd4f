import Verif.Lemmas.Commands
import Verif.Lemmas.Frame

/-!
# How single commands run
-/

namespace PyCNC

open Spec

set_option linter.unusedSectionVars false

variable {F : Type} [PyNum F] {c : Cfg} {env : Env F}

/-- The state with a further HAL call. -/
abbrev MState.call (s : MState F) (h : HalCall F) : MState F := { s with trace := h :: s.trace }

theorem bind_measure {α : Type} (h : HeaterId) (f : Option F → M F α) (s : MState F) :
    (measure env h >>= f) s = f (env.measure (.measure h :: s.trace)) (s.call (.measure h)) := rfl

theorem bind_fan {α : Type} (b : Bool) (f : Unit → M F α) (s : MState F) :
    (fan b >>= f) s = f () { s.call (.fan b) with fan := b } := rfl

theorem bind_spindle {α : Type} (v : F) (f : Unit → M F α) (s : MState F) :
    (spindle c v >>= f) s = f () ((s.call .join).call
      (.spindle (PyNum.ofRat 100 *ₚ v /ₚ PyNum.ofRat c.spindleMax))) := rfl

/-- State of `_heat` after the old controller was stopped. -/
def heatStopped (h : HeaterId) (s : MState F) : MState F :=
  if (s.heater h).isSome then ((s.call (.measure h)).call (.heaterStop h)).setHeater h none
  else s.call (.measure h)

/-- State of `_heat` after the fan was turned on. -/
def heatFan (c : Cfg) (h : HeaterId) (s : MState F) : MState F :=
  if h = .extruder && c.autoFan then { s.call (.fan true) with fan := true } else s

/-- How `_heat` runs. -/
theorem heat_cases (h : HeaterId) (t : F) (w : Bool) (s : MState F) :
    (env.measure (.measure h :: s.trace) = none ∧
      heat c env h t w s = (.error (.gmachine "can not measure temperature"),
        s.call (.measure h))) ∨
    (env.measure (.measure h :: s.trace) ≠ none ∧ (t =ₚ zeroF) = true ∧
      heat c env h t w s = (.ok (), heatStopped h s)) ∨
    (env.measure (.measure h :: s.trace) ≠ none ∧ (t =ₚ zeroF) = false ∧
      ∃ s2, s2 = ((heatFan c h (heatStopped h s)).call (.heaterStart h t)).call (.measure h) ∧
      ((env.measure s2.trace = none ∧ heat c env h t w s = (.error .io, s2)) ∨
       (env.measure s2.trace ≠ none ∧
        ((w = false ∧ heat c env h t w s = (.ok (), s2.setHeater h (some t))) ∨
         (w = true ∧
          ((∃ e, env.wait (.heaterWait h :: s2.trace) = some e ∧
            heat c env h t w s = (.error e, (s2.setHeater h (some t)).call (.heaterWait h))) ∨
           (env.wait (.heaterWait h :: s2.trace) = none ∧
            heat c env h t w s = (.ok (), (s2.setHeater h (some t)).call (.heaterWait h))))))))) := by
  have trh : ∀ (s : MState F) (o : Option F), (s.setHeater h o).trace = s.trace := by
    intro s o; cases h <;> rfl
  rcases hm : env.measure (.measure h :: s.trace) with _ | m
  · left
    refine ⟨rfl, ?_⟩
    unfold heat
    rw [bind_measure, hm]
    rfl
  · right
    -- stop part
    have hstop : heat c env h t w s = (if (!t =ₚ zeroF) = true then (do
        if (decide (h = .extruder) && c.autoFan) = true then fan true
        newHeater env h t
        M.modify fun s => s.setHeater h (some t)
        if w = true then (do
          M.emit (.heaterWait h)
          let s ← M.get
          match env.wait s.trace with
          | some e => M.throw e
          | none => pure ())) else pure () : M F Unit) (heatStopped h s) := by
      unfold heat heatStopped
      rw [bind_measure, hm]
      cases hh : (s.heater h).isSome
      · have : (((s.call (.measure h)).heater h)).isSome = false := by cases h <;> exact hh
        simp only [Option.isNone_some, Bool.false_eq_true, if_false, M.bind_get, this]
        rfl
      · have : (((s.call (.measure h)).heater h)).isSome = true := by cases h <;> exact hh
        simp only [Option.isNone_some, Bool.false_eq_true, if_false, M.bind_get, this, if_true,
          M.bind_emit, M.bind_modify]
        rfl
    cases ht : t =ₚ zeroF
    · right
      refine ⟨by simp, rfl, _, rfl, ?_⟩
      have hfan : heat c env h t w s = (do
          newHeater env h t
          M.modify fun s => s.setHeater h (some t)
          if w = true then (do
            M.emit (.heaterWait h)
            let s ← M.get
            match env.wait s.trace with
            | some e => M.throw e
            | none => pure ()) : M F Unit) (heatFan c h (heatStopped h s)) := by
        rw [hstop, ht]
        simp only [Bool.not_false, if_true]
        unfold heatFan
        split
        · rw [bind_fan]
        · rfl
      rw [hfan]
      generalize heatFan c h (heatStopped h s) = s1
      have hnew : newHeater env h t s1 =
          match env.measure (.measure h :: .heaterStart h t :: s1.trace) with
          | none => (.error .io, (s1.call (.heaterStart h t)).call (.measure h))
          | some _ => (.ok (), (s1.call (.heaterStart h t)).call (.measure h)) := by
        unfold newHeater
        rw [M.bind_emit, bind_measure]
        cases env.measure (.measure h :: .heaterStart h t :: s1.trace) <;> rfl
      rcases hm2 : env.measure (.measure h :: .heaterStart h t :: s1.trace) with _ | m2
      · left
        refine ⟨rfl, ?_⟩
        rw [M.bind_run, hnew, hm2]
      · right
        refine ⟨by simp, ?_⟩
        rw [hm2] at hnew
        cases w
        · left
          refine ⟨rfl, ?_⟩
          rw [M.bind_ok hnew, M.bind_modify]
          rfl
        · right
          refine ⟨rfl, ?_⟩
          rw [M.bind_ok hnew, M.bind_modify]
          simp only [if_true, M.bind_emit, M.bind_get]
          rw [trh]
          rcases hw : env.wait (.heaterWait h :: ((s1.call (.heaterStart h t)).call
            (.measure h)).trace) with _ | e
          · right; exact ⟨rfl, by simp [MState.call, trh]⟩
          · left; exact ⟨e, rfl, by simp [MState.call, trh]⟩
    · left
      refine ⟨by simp, rfl, ?_⟩
      rw [hstop, ht]
      rfl

/-- The raised exceptions of `_heat` and the state they leave. -/
theorem heat_error {h : HeaterId} {t : F} {w : Bool} {s s' : MState F} {e : PyErr}
    (hr : heat c env h t w s = (.error e, s')) :
    (e = .gmachine "can not measure temperature" ∧ s' = s.call (.measure h)) ∨ e = .io ∨
      ∃ tr, env.wait tr = some e := by
  rcases heat_cases (c := c) (env := env) h t w s with ⟨_, h'⟩ | ⟨_, _, h'⟩ |
    ⟨_, _, s2, _, ⟨_, h'⟩ | ⟨_, ⟨_, h'⟩ | ⟨_, ⟨e', he, h'⟩ | ⟨_, h'⟩⟩⟩⟩ <;> rw [hr] at h' <;>
    simp only [Prod.mk.injEq, Except.error.injEq, reduceCtorEq, false_and] at h'
  · exact .inl h'
  · exact .inr (.inl h'.1)
  · exact .inr (.inr ⟨_, h'.1 ▸ he⟩)

/-- How `halMove` runs. -/
theorem halMove_cases (g : Gen F) (s : MState F) :
    (env.move (.move g :: s.trace) = none ∧ halMove env g s = (.ok (), s.call (.move g))) ∨
    (∃ e, env.move (.move g :: s.trace) = some e ∧
      halMove env g s = (.error e, s.call (.move g))) := by
  unfold halMove
  simp only [M.bind_emit, M.bind_get]
  rcases h : env.move (.move g :: s.trace) with _ | e
  · exact .inl ⟨rfl, rfl⟩
  · exact .inr ⟨e, rfl, rfl⟩

/-- The HAL calls of an arc that passed all checks. -/
theorem arcMoves_cases (g : CircGen F) (lg : Option (LinearGen F)) (f : MState F → MState F)
    (s : MState F) :
    (∃ e s', (do
        halMove env (.circular g)
        optMove env lg
        M.modify f : M F Unit) s = (.error e, s') ∧ (∃ tr, env.move tr = some e) ∧
        SameState s s') ∨
    (∃ s', s' = (match lg with
        | none => s.call (.move (.circular g))
        | some l => (s.call (.move (.circular g))).call (.move (.linear l))) ∧
      (do
        halMove env (.circular g)
        optMove env lg
        M.modify f : M F Unit) s = (.ok (), f s') ∧
      env.move (.move (.circular g) :: s.trace) = none ∧
      ∀ l, lg = some l → env.move (.move (.linear l) :: .move (.circular g) :: s.trace) = none) := by
  rcases halMove_cases (env := env) (.circular g) s with ⟨h1, h2⟩ | ⟨e, h1, h2⟩
  · cases lg with
    | none => exact .inr ⟨_, rfl, M.bind_ok h2, h1, fun l h => by cases h⟩
    | some l =>
      rcases halMove_cases (env := env) (.linear l) (s.call (.move (.circular g))) with
        ⟨h3, h4⟩ | ⟨e, h3, h4⟩
      · refine .inr ⟨_, rfl, ?_, h1, ?_⟩
        · rw [M.bind_ok h2]
          exact M.bind_ok h4
        · intro l' hl; cases hl; exact h3
      · refine .inl ⟨e, (s.call (.move (.circular g))).call (.move (.linear l)), ?_, ⟨_, h3⟩, rfl⟩
        rw [M.bind_ok h2]
        exact M.bind_error h4
  · exact .inl ⟨e, s.call (.move (.circular g)), M.bind_error h2, ⟨_, h1⟩, rfl⟩

theorem ret_error {α β : Type} {m : M F α} {b : β} {e : PyErr} {s s' : MState F}
    (h : (m >>= fun _ => (pure b : M F β)) s = (.error e, s')) : m s = (.error e, s') := by
  rw [M.bind_run] at h
  rcases hm : m s with ⟨e' | a, s2⟩ <;> rw [hm] at h
  · simpa using h
  · simp at h

theorem ret_ok {α β : Type} {m : M F α} {b b' : β} {s s' : MState F}
    (h : (m >>= fun _ => (pure b : M F β)) s = (.ok b', s')) : (∃ a, m s = (.ok a, s')) ∧ b' = b := by
  rw [M.bind_run] at h
  rcases hm : m s with ⟨e' | a, s2⟩ <;> rw [hm] at h
  · simp at h
  · simp only [M.pure_run, Prod.mk.injEq, Except.ok.injEq] at h
    exact ⟨⟨a, by rw [← h.2]⟩, h.1.symm⟩

theorem lift_error {α β : Type} {x : Except PyErr α} {f : α → M F β} {e : PyErr} {s s' : MState F}
    (h : (M.lift x >>= f) s = (.error e, s')) :
    (x = .error e ∧ s' = s) ∨ ∃ a, x = .ok a ∧ f a s = (.error e, s') := by
  rcases x with e' | a
  · rw [M.bind_lift_error, Prod.mk.injEq, Except.error.injEq] at h
    exact .inl ⟨by rw [h.1], h.2.symm⟩
  · exact .inr ⟨a, rfl, h⟩

theorem lift_ok {α β : Type} {x : Except PyErr α} {f : α → M F β} {b : β} {s s' : MState F}
    (h : (M.lift x >>= f) s = (.ok b, s')) : ∃ a, x = .ok a ∧ f a s = (.ok b, s') := by
  rcases x with e' | a
  · simp at h
  · exact ⟨a, rfl, h⟩

/-- An exception of the command itself (not of the HAL). -/
theorem moveLinear_error {d : V4 F} {v : F} {s s' : MState F} {e : PyErr}
    (h : moveLinear c env d v s = (.error e, s')) :
    s' = s ∨ ((∃ tr, env.move tr = some e) ∧ SameState s s') := by
  rcases moveLinear_cases (c := c) (env := env) d v s with ⟨_, h1⟩ | ⟨_, e', h1, _⟩ |
    ⟨_, gen, _, _, _, ⟨e', he, h1⟩ | ⟨_, h1⟩⟩ <;> rw [h] at h1 <;>
    simp only [Prod.mk.injEq, Except.error.injEq, reduceCtorEq, false_and] at h1
  · exact .inl h1.2
  · rw [h1.2]; exact .inr ⟨⟨_, h1.1 ▸ he⟩, rfl⟩

theorem moveCircular_error {d r : V4 F} {v : F} {rot : Rot} {s s' : MState F} {e : PyErr}
    (h : moveCircular c env d r v rot s = (.error e, s')) :
    s' = s ∨ ((∃ tr, env.move tr = some e) ∧ SameState s s') := by
  rcases moveCircular_cases (c := c) (env := env) d r v rot s with ⟨e', h1, _⟩ |
    ⟨ce, cg, lg, _, _, _, _, _, h1⟩
  · rw [h, Prod.mk.injEq] at h1
    exact .inl h1.2
  · rw [h] at h1
    rcases arcMoves_cases (env := env) cg lg
      (fun s => { s with
        pos := Coord.add (Coord.add s.pos (roundToSteps c ce))
          (Coord.sub (roundToSteps c d) (roundToSteps c ce)) }) s with
      ⟨e', s2, h2, ⟨tr, he⟩, hs⟩ | ⟨s2, _, h2, _⟩
    · rw [h2] at h1
      simp only [Prod.mk.injEq, Except.error.injEq] at h1
      exact .inr ⟨⟨tr, h1.1 ▸ he⟩, h1.2 ▸ hs⟩
    · rw [h2] at h1
      simp at h1

/-- The state that a failing command other than `G28` leaves. -/
theorem execCmd_error {cmd : Cmd} {g : GCode} {d r : V4 F} {v : F} {s s' : MState F} {e : PyErr}
    (hcmd : cmd ≠ .g28) (hx : execCmd c env cmd g d r v s = (.error e, s')) :
    s' = s ∨
    (e = .gmachine "can not measure temperature" ∧
      ∃ hs : List HeaterId, s' = { s with trace := hs.map HalCall.measure ++ s.trace }) ∨
    (e = .io ∧ ∃ h w, cmd = .heat h w) ∨ (∃ tr, env.wait tr = some e ∧ ∃ h, cmd = .heat h true) ∨
    ((∃ tr, env.move tr = some e) ∧ SameState s s') := by
  cases cmd with
  | g0 =>
    rcases lift_error hx with ⟨_, h⟩ | ⟨vl, _, h⟩
    · exact .inl h
    · rcases moveLinear_error (ret_error h) with h | h
      · exact .inl h
      · exact .inr (.inr (.inr (.inr h)))
  | g1 =>
    rcases moveLinear_error (ret_error hx) with h | h
    · exact .inl h
    · exact .inr (.inr (.inr (.inr h)))
  | g2 =>
    rcases moveCircular_error (ret_error hx) with h | h
    · exact .inl h
    · exact .inr (.inr (.inr (.inr h)))
  | g3 =>
    rcases moveCircular_error (ret_error hx) with h | h
    · exact .inl h
    · exact .inr (.inr (.inr (.inr h)))
  | g4 =>
    left
    simp only [execCmd] at hx
    split at hx
    · exact (Prod.mk.inj hx).2.symm
    · rcases lift_error hx with ⟨_, h⟩ | ⟨p, _, h⟩
      · exact h
      · split at h
        · exact (Prod.mk.inj h).2.symm
        · simp at h
  | g28 => exact absurd rfl hcmd
  | g92 =>
    left
    have hx := ret_error hx
    simp only [setLocal, M.bind_get] at hx
    split at hx
    · rcases lift_error hx with ⟨_, h⟩ | ⟨p, _, h⟩
      · exact h
      · simp at h
    · simp at hx
  | m3 =>
    left
    simp only [execCmd, M.bind_get] at hx
    rcases lift_error hx with ⟨_, h⟩ | ⟨p, _, h⟩
    · exact h
    · split at h
      · exact (Prod.mk.inj h).2.symm
      · simp [bind_spindle] at h
  | heat h w =>
    have hx := ret_error hx
    simp only [heatCommand] at hx
    split at hx
    · exact .inl (Prod.mk.inj hx).2.symm
    · rcases lift_error hx with ⟨_, h'⟩ | ⟨t, _, h'⟩
      · exact .inl h'
      · split at h'
        · exact .inl (Prod.mk.inj h').2.symm
        · rcases heat_cases (c := c) (env := env) h t w s with ⟨_, h2⟩ | ⟨_, _, h2⟩ |
            ⟨_, _, s2, _, ⟨_, h2⟩ | ⟨_, ⟨_, h2⟩ | ⟨hw, ⟨e', he, h2⟩ | ⟨_, h2⟩⟩⟩⟩ <;>
            rw [h'] at h2 <;>
            simp only [Prod.mk.injEq, Except.error.injEq, reduceCtorEq, false_and] at h2
          · exact .inr (.inl ⟨h2.1, [h], h2.2⟩)
          · exact .inr (.inr (.inl ⟨h2.1, h, w, rfl⟩))
          · exact .inr (.inr (.inr (.inl ⟨_, h2.1 ▸ he, h, by rw [hw]⟩)))
  | m105 =>
    right; left
    simp only [execCmd, bind_measure] at hx
    split at hx
    · simp only [M.bind_throw, Prod.mk.injEq, Except.error.injEq] at hx
      exact ⟨hx.1.symm, [.bed, .extruder], hx.2.symm⟩
    · simp at hx
  | m106 =>
    left
    simp only [execCmd] at hx
    rcases lift_error hx with ⟨_, h⟩ | ⟨p, _, h⟩
    · exact h
    · split at h <;> simp [bind_fan] at h
  | m82 =>
    left
    simp only [execCmd, M.bind_get] at hx
    split at hx
    · exact (Prod.mk.inj hx).2.symm
    · simp at hx
  | m83 =>
    left
    simp only [execCmd, M.bind_get] at hx
    split at hx
    · exact (Prod.mk.inj hx).2.symm
    · simp at hx
  | unknown =>
    left
    simp only [execCmd, M.throw_run, Prod.mk.injEq] at hx
    exact hx.2.symm
  | _ => simp [execCmd, spindle, reset, fan, M.bind_run] at hx

theorem get_error {g : GCode} {k : Char} {d m : F} {e : PyErr} (h : g.get k d m = .error e) :
    e = .value ∧ ∃ t, g.params.lookup k = some t ∧ parseFloat t = none := by
  unfold GCode.get GCode.lookup at h
  rcases h1 : g.params.lookup k with _ | t
  · rw [h1] at h; cases h
  · rw [h1] at h
    dsimp only at h
    rcases h2 : parseFloat t with _ | q
    · rw [h2] at h
      cases h
      exact ⟨rfl, t, rfl, h2⟩
    · rw [h2] at h; cases h

theorem bindE_error {α β : Type} {x : Except PyErr α} {f : α → Except PyErr β} {e : PyErr}
    (h : (x >>= f) = .error e) : x = .error e ∨ ∃ a, x = .ok a ∧ f a = .error e := by
  rcases x with e' | a
  · cases h; exact .inl rfl
  · exact .inr ⟨a, rfl, h⟩

theorem bindE_ok {α β : Type} {x : Except PyErr α} {f : α → Except PyErr β} {b : β}
    (h : (x >>= f) = .ok b) : ∃ a, x = .ok a ∧ f a = .ok b := by
  rcases x with e' | a
  · cases h
  · exact ⟨a, rfl, h⟩

/-- One of the words that the line has is not a number. -/
def BadWord (g : GCode) : Prop := ∃ k t, g.params.lookup k = some t ∧ parseFloat t = none

theorem coordinates_error {g : GCode} {d : V4 F} {m : F} {e : PyErr}
    (h : g.coordinates d m = .error e) : e = .value ∧ BadWord g := by
  unfold GCode.coordinates at h
  rcases bindE_error h with h | ⟨_, _, h⟩
  · exact ⟨(get_error h).1, _, (get_error h).2⟩
  rcases bindE_error h with h | ⟨_, _, h⟩
  · exact ⟨(get_error h).1, _, (get_error h).2⟩
  rcases bindE_error h with h | ⟨_, _, h⟩
  · exact ⟨(get_error h).1, _, (get_error h).2⟩
  rcases bindE_error h with h | ⟨_, _, h⟩
  · exact ⟨(get_error h).1, _, (get_error h).2⟩
  cases h

theorem radius_error {g : GCode} {d : V4 F} {m : F} {e : PyErr}
    (h : g.radius d m = .error e) : e = .value ∧ BadWord g := by
  unfold GCode.radius at h
  rcases bindE_error h with h | ⟨_, _, h⟩
  · exact ⟨(get_error h).1, _, (get_error h).2⟩
  rcases bindE_error h with h | ⟨_, _, h⟩
  · exact ⟨(get_error h).1, _, (get_error h).2⟩
  rcases bindE_error h with h | ⟨_, _, h⟩
  · exact ⟨(get_error h).1, _, (get_error h).2⟩
  cases h

theorem readDelta_error {g : GCode} {s : MState F} {e : PyErr}
    (h : readDelta s g = .error e) : e = .value ∧ BadWord g := by
  unfold readDelta at h
  split at h
  · rcases bindE_error h with h | ⟨_, _, h⟩
    · exact coordinates_error h
    · cases h
  · exact coordinates_error h

theorem parse_error_value {g : GCode} {s : MState F} {e : PyErr}
    (h : readDelta s g = .error e ∨ g.radius Coord.zero s.conv = .error e) : e = .value :=
  h.elim (fun h => (readDelta_error h).1) fun h => (radius_error h).1

theorem mem_of_lookup {α : Type} {k : Char} {t : α} {l : List (Char × α)}
    (h : l.lookup k = some t) : (k, t) ∈ l := by
  induction l with
  | nil => cases h
  | cons p l ih =>
    obtain ⟨k', t'⟩ := p
    rw [List.lookup_cons] at h
    split at h
    · rename_i hk
      cases h
      rw [eq_of_beq hk]
      exact List.mem_cons_self
    · exact List.mem_cons_of_mem _ (ih h)

/-- Run of a line without coordinate, radius and feed words. -/
theorem plain_run {g : GCode} {s : MState F}
    (hw : ∀ k ∈ ['X', 'Y', 'Z', 'E', 'I', 'J', 'K', 'F'], g.params.lookup k = none)
    (hv : (s.vel <ₚ PyNum.ofRat c.minVel) = false) :
    ∃ d r, doCommand c env (some g) s = (do
      let ans ← execCmd c env (lineCmd g) g d r s.vel
      M.modify fun t => { t with vel := s.vel }
      return ans) s := by
  have hget : ∀ k ∈ ['X', 'Y', 'Z', 'E', 'I', 'J', 'K', 'F'], ∀ d m : F, g.get k d m = .ok d := by
    intro k hk d m
    rw [GCode.get, GCode.lookup, hw k hk]
  have hF := hget 'F' (by simp) s.vel (PyNum.ofRat 1)
  have hco : ∀ d m, g.coordinates d m = .ok (Coord.new d.x d.y d.z d.e : V4 F) := by
    intro d m
    simp only [GCode.coordinates, hget 'X' (by simp), hget 'Y' (by simp), hget 'Z' (by simp),
      hget 'E' (by simp)]
    rfl
  have hra : ∀ d m, g.radius d m = .ok (Coord.new d.x d.y d.z zeroF : V4 F) := by
    intro d m
    simp only [GCode.radius, hget 'I' (by simp), hget 'J' (by simp), hget 'K' (by simp)]
    rfl
  rcases doCommand_cases (c := c) (env := env) g s with ⟨e, h1, h2 | h2 | h2⟩ |
    ⟨d, v, r, _, hv', _, ⟨hl, h1⟩ | ⟨_, ⟨a, s2, hx, h1⟩ | ⟨e, s2, hx, h1⟩⟩⟩
  · exfalso
    unfold readDelta at h2
    simp only [hco] at h2
    split at h2 <;> cases h2
  · rw [hF] at h2; cases h2
  · rw [hra] at h2; cases h2
  · rw [hF] at hv'; cases hv'
    rw [hv] at hl; cases hl
  · rw [hF] at hv'; cases hv'
    exact ⟨d, r, by rw [h1, M.bind_ok hx]; rfl⟩
  · rw [hF] at hv'; cases hv'
    exact ⟨d, r, by rw [h1, M.bind_error hx]⟩

/-- Run of a successful line with a known command. -/
theorem ok_exec {g : GCode} {s s' : MState F} {a : Option (Answer F)} {cmd : Cmd}
    (hg : IsOneOf g cmd.words) (h : doCommand c env (some g) s = (.ok a, s')) :
    ∃ d r v s2, execCmd c env cmd g d r v s = (.ok a, s2) ∧ s' = { s2 with vel := v } := by
  rcases doCommand_cases (c := c) (env := env) g s with ⟨e, h1, _⟩ |
    ⟨d, v, r, _, hv, _, ⟨_, h1⟩ | ⟨_, ⟨a, s2, hx, h1⟩ | ⟨e, s2, hx, h1⟩⟩⟩ <;> rw [h] at h1 <;>
    simp only [Prod.mk.injEq, reduceCtorEq, false_and, Except.ok.injEq] at h1
  obtain ⟨rfl, rfl⟩ := h1
  rw [is_lineCmd hg] at hx
  exact ⟨d, r, v, s2, hx, rfl⟩

/-- Induction over histories. -/
theorem reachable_inv {P : MState F → Prop} (h0 : P (MState.init c))
    (hcmd : ∀ g, M.Pres P (doCommand c env (some g))) (hreset : M.Pres P (reset c))
    (hzero : ∀ x y z, M.Pres P (safeZero c env x y z)) (hpos : M.Pres P (position : M F _))
    (hrel : M.Pres P (release c)) {s : MState F} (hs : Reachable c env s) : P s := by
  induction hs with
  | init => exact h0
  | step op _ ih =>
    cases op with
    | cmd g =>
      cases g with
      | none => exact ih
      | some g => exact hcmd g _ ih
    | reset => exact hreset _ ih
    | safeZero x y z => exact hzero x y z _ ih
    | position => exact hpos _ ih
    | release => exact hrel _ ih

theorem position_pres {P : MState F → Prop} (hj : ClosedCall P .join) :
    M.Pres P (position : M F _) :=
  M.Pres.bind (M.Pres.emit hj) fun _ => M.Pres.bind M.Pres.get fun _ => M.Pres.pure _

theorem release_pres {P : MState F → Prop} (hsp : M.Pres P (spindle c (zeroF : F)))
    (hstop : ∀ h, ClosedCall P (.heaterStop h))
    (hf : ∀ s, P s → P { s with trace := .fan false :: s.trace, fan := false })
    (hd : ClosedCall P .deinit) : M.Pres P (release c) := by
  unfold release
  pres
  all_goals exact M.Pres.emit (hstop _)

theorem setHeater_trace (s : MState F) (h : HeaterId) (t : Option F) :
    (s.setHeater h t).trace = s.trace := by cases h <;> rfl

theorem heatFan_trace (h : HeaterId) (s : MState F) :
    (heatFan c h s).trace =
      if h = .extruder && c.autoFan then .fan true :: s.trace else s.trace := by
  unfold heatFan; split <;> rfl

theorem heatStopped_trace (h : HeaterId) (s : MState F) :
    (heatStopped h s).trace =
      if (s.heater h).isSome then .heaterStop h :: .measure h :: s.trace
      else .measure h :: s.trace := by
  unfold heatStopped
  split
  · rw [setHeater_trace]
  · rfl

/-- Induction over the HAL calls of a history. -/
theorem reachable_always {Q : HalCall F → List (HalCall F) → Prop}
    (q1 : ∀ call tr, (∀ p, call ≠ .spindle p) → (∀ h t, call ≠ .heaterStart h t) → Q call tr)
    (q2 : ∀ v, v = zeroF ∨ (v <ₚ zeroF || PyNum.ofRat c.spindleMax <ₚ v) = false → ∀ tr,
      Q (.spindle (PyNum.ofRat 100 *ₚ v /ₚ PyNum.ofRat c.spindleMax)) (.join :: tr))
    (q3 : ∀ h t, (PyNum.ofRat (heaterMax c h) <ₚ t || t <ₚ PyNum.ofRat c.minT) = false →
      (t =ₚ zeroF) = false → ∀ tr, ((h = .extruder && c.autoFan) = true →
        tr.head? = some (.fan true)) → Q (.heaterStart h t) tr)
    {s : MState F} (hs : Reachable c env s) : Always Q s.trace := by
  have hc : ∀ call, (∀ p, call ≠ .spindle p) → (∀ h t, call ≠ .heaterStart h t) →
      ClosedCall (fun s => Always Q s.trace) call := fun call h1 h2 s h => ⟨q1 _ _ h1 h2, h⟩
  have hj : ClosedCall (fun s => Always Q s.trace) .join := hc _ (by simp) (by simp)
  have hm : ∀ g, ClosedCall (fun s => Always Q s.trace) (.move g) := fun _ => hc _ (by simp) (by simp)
  have hms : ∀ h, M.Pres (fun s => Always Q s.trace) (measure env h) := fun h =>
    measure_pres (hc _ (by simp) (by simp))
  have hf : ∀ b, M.Pres (fun s => Always Q s.trace) (fan b) := fun b =>
    fan_pres fun s h => ⟨q1 _ _ (by simp) (by simp), h⟩
  have hsp : ∀ v, v = zeroF ∨ (v <ₚ zeroF || PyNum.ofRat c.spindleMax <ₚ v) = false →
      M.Pres (fun s => Always Q s.trace) (spindle c v) := fun v hv s h =>
    ⟨q2 v hv _, q1 _ _ (by simp) (by simp), h⟩
  refine reachable_inv (P := fun s => Always Q s.trace) ?_ ?_ ?_ ?_ ?_ ?_ hs
  · exact ⟨q1 _ _ (by simp) (by simp), q1 _ _ (by simp) (by simp), trivial⟩
  · intro g
    refine doCommand_pres (fun _ _ h => h) fun d r v => ?_
    cases hcmd : lineCmd g with
    | heat h w =>
      unfold execCmd heatCommand
      pres
      rename_i t ht
      intro s hs
      have hQ : ∀ call tr, (∀ p, call ≠ .spindle p) → (∀ h t, call ≠ .heaterStart h t) →
        Always Q tr → Always Q (call :: tr) := fun _ _ h1 h2 h => ⟨q1 _ _ h1 h2, h⟩
      have h1 : Always Q (heatStopped h s).trace := by
        rw [heatStopped_trace]
        split
        · exact hQ _ _ (by simp) (by simp) (hQ _ _ (by simp) (by simp) hs)
        · exact hQ _ _ (by simp) (by simp) hs
      have h2 : Always Q (heatFan c h (heatStopped h s)).trace := by
        rw [heatFan_trace]
        split
        · exact hQ _ _ (by simp) (by simp) h1
        · exact h1
      have h3 : (t =ₚ zeroF) = false →
          Always Q (((heatFan c h (heatStopped h s)).call (.heaterStart h t)).call
            (.measure h)).trace := by
        intro hz
        refine hQ _ _ (by simp) (by simp) ⟨q3 h t ?_ hz _ ?_, h2⟩
        · rw [hz] at ht
          simpa using ht
        · intro hx
          rw [heatFan_trace, if_pos hx]
          rfl
      change Always Q (heat c env h t w s).2.trace
      rcases heat_cases (c := c) (env := env) h t w s with ⟨_, h'⟩ | ⟨_, _, h'⟩ |
        ⟨_, hz, s2, hs2, ⟨_, h'⟩ | ⟨_, ⟨_, h'⟩ | ⟨_, ⟨e', he, h'⟩ | ⟨_, h'⟩⟩⟩⟩ <;> rw [h']
      · exact hQ _ _ (by simp) (by simp) hs
      · exact h1
      · rw [hs2]; exact h3 hz
      · rw [hs2]; dsimp only; rw [setHeater_trace]; exact h3 hz
      · refine hQ _ _ (by simp) (by simp) ?_
        rw [hs2, setHeater_trace]; exact h3 hz
      · refine hQ _ _ (by simp) (by simp) ?_
        rw [hs2, setHeater_trace]; exact h3 hz
    | m3 =>
      unfold execCmd
      pres
      rename_i h
      exact hsp _ (.inr (by simpa using h))
    | _ =>
      unfold execCmd
      pres
      all_goals first
        | exact moveLinear_pres (fun _ _ h => h) hm
        | exact moveCircular_pres (fun _ _ h => h) hm
        | exact home_pres (fun _ _ h => h) hm hj (fun _ _ _ => hc _ (by simp) (by simp))
        | exact setLocal_pres (fun _ _ h => h)
        | exact hf _
        | exact hms _
        | exact hsp _ (.inl rfl)
        | exact M.Pres.modify fun _ h => h
        | exact M.Pres.emit (hc _ (by simp) (by simp))
  · exact fun _ h => h
  · exact fun _ _ _ => safeZero_pres (fun _ _ h => h) hm
  · exact position_pres hj
  · exact release_pres (hsp _ (.inl rfl)) (fun _ => hc _ (by simp) (by simp))
      (fun s h => ⟨q1 _ _ (by simp) (by simp), h⟩) (hc _ (by simp) (by simp))

/-- `release()` switches off, in this order, the spindle, the heaters, the fan and the HAL. -/
theorem release_run (s : MState F) : ∃ stops : List HeaterId,
    release c s = (.ok (), { s with
      trace := .deinit :: .fan false :: (stops.map HalCall.heaterStop ++
        .spindle (PyNum.ofRat 100 *ₚ zeroF /ₚ PyNum.ofRat c.spindleMax) :: .join :: s.trace)
      fan := false }) ∧
    stops.Nodup ∧ ∀ h, h ∈ stops ↔ (s.heater h).isSome = true := by
  unfold release
  rw [bind_spindle, M.bind_get]
  rcases h1 : s.heatE with _ | e <;> rcases h2 : s.heatB with _ | b
  · refine ⟨[], ?_, by decide, ?_⟩
    · simp [h1, h2, bind_fan]
    · rintro (_ | _) <;> simp [MState.heater, h1, h2]
  · refine ⟨[.bed], ?_, by decide, ?_⟩
    · simp [h1, h2, bind_fan]
    · rintro (_ | _) <;> simp [MState.heater, h1, h2]
  · refine ⟨[.extruder], ?_, by decide, ?_⟩
    · simp [h1, h2, bind_fan]
    · rintro (_ | _) <;> simp [MState.heater, h1, h2]
  · refine ⟨[.bed, .extruder], ?_, by decide, ?_⟩
    · simp [h1, h2, bind_fan]
    · rintro (_ | _) <;> simp [MState.heater, h1, h2]

/-- A failing line fails before or in its command. -/
theorem fail_exec {g : GCode} {s s' : MState F} {e : PyErr}
    (h : doCommand c env (some g) s = (.error e, s')) :
    s' = s ∨ ∃ d r v, execCmd c env (lineCmd g) g d r v s = (.error e, s') := by
  rcases doCommand_cases (c := c) (env := env) g s with ⟨e, h1, _⟩ |
    ⟨d, v, r, _, hv, _, ⟨_, h1⟩ | ⟨_, ⟨a, s2, hx, h1⟩ | ⟨e, s2, hx, h1⟩⟩⟩ <;> rw [h] at h1 <;>
    simp only [Prod.mk.injEq, Except.error.injEq, reduceCtorEq, false_and] at h1
  · exact .inl h1.2
  · exact .inl h1.2
  · obtain ⟨rfl, rfl⟩ := h1
    exact .inr ⟨d, r, v, hx⟩

theorem get_word {g : GCode} {k : Char} {q : Rat} (h : HasNum g k q) (d m : F) :
    g.get k d m = .ok (PyNum.ofRat q *ₚ m) := by
  obtain ⟨t, ht, hq⟩ := h
  rw [GCode.get, GCode.lookup, ht]
  simp only [hq]

theorem get_noWord {g : GCode} {k : Char} (h : g.params.lookup k = none) (d m : F) :
    g.get k d m = .ok d := by
  rw [GCode.get, GCode.lookup, h]

theorem get_ok {g : GCode} {k : Char} {d m v : F} (h : g.get k d m = .ok v) :
    (∃ q, HasNum g k q ∧ v = PyNum.ofRat q *ₚ m) ∨ (g.params.lookup k = none ∧ v = d) := by
  unfold GCode.get GCode.lookup at h
  rcases h1 : g.params.lookup k with _ | t <;> rw [h1] at h <;> dsimp only at h
  · cases h; exact .inr ⟨rfl, rfl⟩
  · rcases h2 : parseFloat t with _ | q <;> rw [h2] at h <;> dsimp only at h <;> cases h
    exact .inl ⟨q, ⟨t, h1, h2⟩, rfl⟩

theorem hasNum_unique {g : GCode} {k : Char} {q q' : Rat} (h : HasNum g k q) (h' : HasNum g k q') :
    q = q' := by
  obtain ⟨t, ht, hq⟩ := h
  obtain ⟨t', ht', hq'⟩ := h'
  rw [ht] at ht'
  cases ht'
  rw [hq] at hq'
  exact Option.some.inj hq'

theorem has_word {g : GCode} {k : Char} {q : Rat} (h : HasNum g k q) : g.has k = true := by
  obtain ⟨t, ht, _⟩ := h
  simp [GCode.has, GCode.lookup, ht]

/-- Run of the heater commands. -/
theorem heatLine_ok {g : GCode} {h : HeaterId} (hg : IsOneOf g (heatWords h)) :
    ∃ w, lineCmd g = .heat h w := by
  obtain ⟨p, hp, hi⟩ := hg
  cases h <;> simp only [heatWords, List.mem_cons, List.not_mem_nil, or_false] at hp <;>
    rcases hp with rfl | rfl
  · exact ⟨false, is_lineCmd ⟨_, by simp [Cmd.words], hi⟩⟩
  · exact ⟨true, is_lineCmd ⟨_, by simp [Cmd.words], hi⟩⟩
  · exact ⟨false, is_lineCmd ⟨_, by simp [Cmd.words], hi⟩⟩
  · exact ⟨true, is_lineCmd ⟨_, by simp [Cmd.words], hi⟩⟩

end PyCNC
